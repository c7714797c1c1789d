import Verif.Walk
import Verif.SpecMap
/-
Code that is handed one of the crate's `iter_mut`s, keeps the references it gets, and reads and writes through them whenever it likes: while it still
iterates, in any order, any number of times.
-/
namespace Verif
variable {A C R σ τ : Type}

/-- An iterator over references, as the code that has it sees it.  A reference is given by the place it points to; `next` answers `none` at the end, and
`some none` for an empty place (`Option<&mut A>`).  Dropping such an iterator, or a reference, does nothing. -/
structure MutEnds (τ A : Type) where
  next : M τ (Option (Option Nat))
  nextBack : M τ (Option (Option Nat))
  hint : M τ (Nat × Option Nat)
  /-- `*r` -/
  read : Nat → M τ A
  /-- `mem::replace(r, v)` -/
  replace : Nat → A → M τ A

/-- Code that has such an iterator.  It knows the references it has got only by when it got them: `read i` reads the `i`-th, counting from 0, and so on. -/
inductive Mutator (both : Bool) (A R : Type) where
  | stop (r : R)
  | panic
  /-- `next()`: the code is told whether the iterator is at its end, and whether it got a reference. -/
  | next (k : Option Bool → Mutator both A R)
  | nextBack (h : both = true) (k : Option Bool → Mutator both A R)
  | hint (k : Nat × Option Nat → Mutator both A R)
  | read (i : Nat) (k : A → Mutator both A R)
  | replace (i : Nat) (v : A) (k : A → Mutator both A R)

/-- Keeping the reference just got, if any. -/
def keepRef (r : Option (Option Nat)) : M (τ × List Nat) (Option Bool) := fun s =>
  match r with
  | none => .ok none s
  | some none => .ok (some false) s
  | some (some p) => .ok (some true) (s.1, s.2 ++ [p])

/-- The `i`-th reference; the code panics if it has none (Rust code has no way to ask for it). -/
def heldRef (i : Nat) : M (τ × List Nat) Nat := fun s =>
  match s.2[i]? with
  | none => .panic s
  | some p => .ok p s

namespace Mutator
variable {both : Bool}

/-- Running such code; the state is the iterator with what it iterates over, and the references got so far. -/
def run (it : MutEnds τ A) : Mutator both A R → M (τ × List Nat) R
  | stop r => pure r
  | panic => M.panic
  | next k => do run it (k (← keepRef (← M.onFst it.next)))
  | nextBack _ k => do run it (k (← keepRef (← M.onFst it.nextBack)))
  | hint k => do run it (k (← M.onFst it.hint))
  | read i k => do run it (k (← M.onFst (it.read (← heldRef i))))
  | replace i v k => do run it (k (← M.onFst (it.replace (← heldRef i) v)))

end Mutator

/-! ### The crate's -/

/-- `IterMut` of a buffer or a slice: src/ring_buffer/iter.rs:54-129.  A reference points to the slot `mut_ptr` gives (iter.rs:88-90). -/
def Ring.iterMutRefs (E : Env) (N : Nat) : MutEnds (Ring A × IdxIter) A where
  next := do return (← stepping (Ring.idxNext E N)).map some
  nextBack := do return (← stepping (Ring.idxNextBack E N)).map some
  hint := do return Ring.iterHint (← M.get).2
  read p := M.onFst (do memRead N (← Ring.getMem) p)
  replace p v := M.onFst (Ring.swapAt N p v)

/-- `IterMut` of a sparse chunk: src/sparse_chunk/iter.rs:30-59.  A reference points to a slot. -/
def Sparse.iterMutRefs (N : Nat) : MutEnds (Sparse A × Bitmap) A where
  next := do return (← stepping (Sparse.iterMutNext N)).map some
  nextBack := M.panic
  hint := pure (Sparse.iterSizeHint N)
  read p := M.onFst (Sparse.getUnchecked N p)
  replace p v := M.onFst (Sparse.replaceUnchecked N p v)

/-- `OptionIterMut` of a sparse chunk: src/sparse_chunk/iter.rs:126-165. -/
def Sparse.optionIterMutRefs (E : Env) (N : Nat) : MutEnds (Sparse A × Nat) A where
  next := stepping (Sparse.optionIterMutNext N E)
  nextBack := M.panic
  hint := do Sparse.optionSizeHint N E (← M.get).2
  read p := M.onFst (Sparse.getUnchecked N p)
  replace p v := M.onFst (Sparse.replaceUnchecked N p v)

/-! ### Specification: the places still to come, and the contents -/

/-- Over contents with `get` and `set`, where every reference points to a place in use. -/
def placesRefs (hint : List (Option Nat) → Nat × Option Nat) (get : C → Nat → Option A) (set : C → Nat → A → C) :
    MutEnds (List (Option Nat) × C) A where
  next := M.onFst Spec.popFront?
  nextBack := M.onFst Spec.popBack?
  hint := fun s => .ok (hint s.1) s
  read p := fun s => match get s.2 p with
    | none => .ub
    | some a => .ok a s
  replace p v := fun s => match get s.2 p with
    | none => .ub
    | some a => .ok a (s.1, set s.2 p v)

/-- Over a list, the places being positions. -/
def listRefs (hint : List (Option Nat) → Nat × Option Nat) : MutEnds (List (Option Nat) × List A) A :=
  placesRefs hint (fun l p => l[p]?) (fun l p v => l.set p v)
/-- Over a map, the places being indices. -/
def mapRefs (hint : List (Option Nat) → Nat × Option Nat) : MutEnds (List (Option Nat) × SMap A) A :=
  placesRefs hint (fun m p => m p) (fun m p v => m.upd p (some v))

/-- Every use of `it` in the state `t` is a use of `ls` in the state `s`: the same answers, the same items read, and the same ending, in `T`-related states. -/
def MutEnds.Walks {ρ : Type} (it : MutEnds τ A) (ls : MutEnds ρ A) (both : Bool) (T : τ → ρ → Prop) (t : τ) (s : ρ) : Prop :=
  ∀ (R : Type) (w : Mutator both A R), Ref (fun x y => T x.1 y.1) (w.run it (t, [])) (w.run ls (s, []))

end Verif
