import Verif.Pour
import Verif.Spec
/-
Code that is handed one of the crate's iterators and does with it what it likes: it calls `next`, `next_back` and `size_hint` as often and in
whatever order it decides, depending on everything it has seen, and destroys what it gets when it decides to.
-/
namespace Verif
variable {A B R S σ τ : Type}

/-- An iterator, as the code that has it sees it: `next()`, `next_back()`, `size_hint()`, what destroying a yielded item does (to the iterator and
the log of destroyed items; for a reference: nothing), and what dropping the iterator does. -/
structure Ends (τ A B : Type) where
  next : M τ (Option B)
  nextBack : M τ (Option B)
  hint : M τ (Nat × Option Nat)
  toss : B → M (τ × List A) Unit
  drop : M (τ × List A) Unit

/-- Code that has an iterator.  `both` says whether the iterator is double-ended.  Items the code holds itself when it unwinds are not
followed. -/
inductive Walker (both : Bool) (B R : Type) where
  /-- It is done, and drops the iterator. -/
  | stop (r : R)
  /-- It panics. -/
  | panic
  | next (k : Option B → Walker both B R)
  | nextBack (h : both = true) (k : Option B → Walker both B R)
  | hint (k : Nat × Option Nat → Walker both B R)
  /-- It destroys an item. -/
  | toss (b : B) (k : Walker both B R)

namespace Walker
variable {both : Bool}

/-- Running such code; the state is the iterator and the log of destroyed items.  If anything panics, unwinding drops the iterator. -/
def run (it : Ends τ A B) : Walker both B R → M (τ × List A) R
  | stop r => do it.drop; return r
  | panic => M.onUnwind M.panic it.drop
  | next k => do run it (k (← M.onUnwind (M.onFst it.next) it.drop))
  | nextBack _ k => do run it (k (← M.onUnwind (M.onFst it.nextBack) it.drop))
  | hint k => do run it (k (← M.onUnwind (M.onFst it.hint) it.drop))
  | toss b k => do M.onUnwind (it.toss b) it.drop; run it k

/-! ### The methods every Rust iterator has (`core::iter::Iterator`, `DoubleEndedIterator`, `ExactSizeIterator`), which the crate does not
override.  `k` is what the code does with the answer.  `fuel` bounds the turns of a loop: with more of it than there are items, which is what the
theorems ask for, it does not run out. -/

/-- `it.len()` (std's default): the two ends of `size_hint()` must agree. -/
def len (k : Nat → Walker both B R) : Walker both B R := hint fun h => if h.2 = some h.1 then k h.1 else panic

/-- `it.nth(n)`: skips `n` items, destroying each. -/
def nth : Nat → (Option B → Walker both B R) → Walker both B R
  | 0, k => next k
  | n + 1, k => next fun r => match r with
    | none => k none
    | some b => toss b (nth n k)

/-- `it.for_each(..)`, `it.fold(..)`, `for b in it`: what is done with the items is `step`, from the state `s`: whether the item is
destroyed, and the state afterwards. -/
def fold (step : S → B → Bool × S) : Nat → S → (S → Walker both B R) → Walker both B R
  | 0, _, _ => panic
  | f + 1, s, k => next fun r => match r with
    | none => k s
    | some b => if (step s b).1 = true then toss b (fold step f (step s b).2 k) else fold step f (step s b).2 k

/-- `it.count()`: destroys every item. -/
def count (fuel : Nat) : (Nat → Walker both B R) → Walker both B R := fold (fun n _ => (true, n + 1)) fuel 0

/-- `it.collect::<Vec<_>>()`, into a collection that never fills up. -/
def collect (fuel : Nat) : (List B → Walker both B R) → Walker both B R := fold (fun l b => (false, l ++ [b])) fuel []

/-- `it.last()`: each item replaces, and so destroys, the one before. -/
def lastFrom : Nat → Option B → (Option B → Walker both B R) → Walker both B R
  | 0, _, _ => panic
  | f + 1, acc, k => next fun r => match r with
    | none => k acc
    | some b => match acc with
      | none => lastFrom f (some b) k
      | some a => toss a (lastFrom f (some b) k)
def last (fuel : Nat) : (Option B → Walker both B R) → Walker both B R := lastFrom fuel none

/-- `it.find(p)`: destroys the items before the one found. -/
def find (p : B → Bool) : Nat → (Option B → Walker both B R) → Walker both B R
  | 0, _ => panic
  | f + 1, k => next fun r => match r with
    | none => k none
    | some b => if p b = true then k (some b) else toss b (find p f k)

/-- `it.position(p)`, which hands each item to `p`, which destroys it; `n` items have been looked at. -/
def position (p : B → Bool) : Nat → Nat → (Option Nat → Walker both B R) → Walker both B R
  | 0, _, _ => panic
  | f + 1, n, k => next fun r => match r with
    | none => k none
    | some b => toss b (if p b = true then k (some n) else position p f (n + 1) k)

/-- The loop of `it.rposition(p)`: from the back, counting down from `n`. -/
def rpositionFrom (p : B → Bool) : Nat → Nat → (Option Nat → Walker true B R) → Walker true B R
  | 0, _, _ => panic
  | f + 1, n, k => nextBack rfl fun r => match r with
    | none => k none
    | some b => toss b (if p b = true then k (some (n - 1)) else rpositionFrom p f (n - 1) k)
/-- `it.rposition(p)`, which relies on `len()`. -/
def rposition (p : B → Bool) (fuel : Nat) (k : Option Nat → Walker true B R) : Walker true B R := len fun n => rpositionFrom p fuel n k

/-- The same code with `it.rev()`. -/
def rev : Walker true B R → Walker true B R
  | stop r => stop r
  | panic => panic
  | next k => nextBack rfl fun r => rev (k r)
  | nextBack _ k => next fun r => rev (k r)
  | hint k => hint fun h => rev (k h)
  | toss b k => toss b (rev k)

end Walker

/-! ### The crate's iterators -/

/-- An iterator that keeps its own position `S` beside the container. -/
def stepping (next : S → M σ (Option (B × S))) : M (σ × S) (Option B) := do
  let s ← M.get
  match (← M.onFst (next s.2)) with
  | none => return none
  | some p => do
    M.onSnd (M.set p.2)
    return some p.1

/-- Destroying an `Option`. -/
def tossOption (dp : A → Bool) : Option A → M (τ × List A) Unit
  | none => pure ()
  | some a => dropOne dp a

namespace Chunk
variable (E : Env) (N : Nat) (dp : A → Bool)
/-- `drain()`: src/sized_chunk/mod.rs:668-670; iter.rs:46-84. -/
def drainEnds : Ends (Chunk A) A A := ⟨iterNext E N, iterNextBack E N, sizeHint E, dropOne dp, pure ()⟩
/-- `into_iter()`: src/sized_chunk/mod.rs:936-944; iter.rs:7-37. -/
def intoIterEnds : Ends (Chunk A) A A := ⟨iterNext E N, iterNextBack E N, sizeHint E, dropOne dp, drop E N dp⟩
end Chunk

namespace Ring
variable (E : Env) (N : Nat) (dp : A → Bool)
/-- `drain()`: src/ring_buffer/mod.rs:745-747; iter.rs:132-160. -/
def drainEnds : Ends (Ring A) A A := ⟨popFront E N, popBack E N, sizeHint, dropOne dp, pure ()⟩
/-- `into_iter()`: src/ring_buffer/mod.rs:948-956; iter.rs:163-191. -/
def intoIterEnds : Ends (Ring A) A A := ⟨popFront E N, popBack E N, sizeHint, dropOne dp, drop E N dp⟩
/-- `Iter`, made by `iter()` of a buffer or a slice: src/ring_buffer/iter.rs:12-51; each reference is read when it is yielded. -/
def iterEnds : Ends (Ring A × IdxIter) A A :=
  ⟨stepping (iterNext E N), stepping (iterNextBack E N), do return iterHint (← M.get).2, fun _ => pure (), pure ()⟩
/-- `IterMut`, made by `iter_mut()` of a buffer or a slice: src/ring_buffer/iter.rs:54-129; each reference is given by its slot. -/
def iterMutEnds : Ends (Ring A × IdxIter) A Nat :=
  ⟨stepping (idxNext E N), stepping (idxNextBack E N), do return iterHint (← M.get).2, fun _ => pure (), pure ()⟩
end Ring

namespace Inline
variable [DecidableEq A] (E : Env) (L : Layout A) (dp : A → Bool)
/-- `drain()`: src/inline_array/mod.rs:404-406; iter.rs:38-63. -/
def drainEnds : Ends (Inline A) A A := ⟨iterNext E L, iterNextBack E L, sizeHint E L, dropOne dp, pure ()⟩
/-- `into_iter()`: src/inline_array/mod.rs:532-539; iter.rs:5-30. -/
def intoIterEnds : Ends (Inline A) A A := ⟨iterNext E L, iterNextBack E L, sizeHint E L, dropOne dp, drop E L dp⟩
end Inline

namespace Sparse
variable (E : Env) (N : Nat) (dp : A → Bool)
/-- `drain()` and `into_iter()`: src/sparse_chunk/mod.rs:264-266, 339-350; iter.rs:62-86.  Not double-ended. -/
def drainEnds : Ends (Sparse A) A A := ⟨pop N, M.panic, drainSizeHint N, dropOne dp, drop N dp⟩
/-- `iter()`: src/sparse_chunk/mod.rs:247-252; iter.rs:9-27.  Not double-ended. -/
def iterEnds : Ends (Sparse A × Nat) A A := ⟨stepping (iterNext N), M.panic, pure (iterSizeHint N), fun _ => pure (), pure ()⟩
/-- `indices()`: src/sparse_chunk/mod.rs:237-239.  The iterator is that of the bitmaps crate, which leaves `size_hint` as it is by default. -/
def indicesEnds : Ends (Sparse A × Nat) A Nat := ⟨stepping (indicesNext N), M.panic, pure (0, none), fun _ => pure (), pure ()⟩
/-- `entries()`: src/sparse_chunk/mod.rs:270-272.  `Zip::size_hint` takes the smaller of the two lower ends, and of the upper ends. -/
def entriesEnds : Ends (Sparse A × (Nat × Nat)) A (Nat × A) := ⟨stepping (entriesNext N), M.panic, pure (min 0 (iterSizeHint N).1, (iterSizeHint N).2), fun _ => pure (), pure ()⟩
/-- `iter_mut()`: src/sparse_chunk/mod.rs:256-261; iter.rs:30-59; each reference is given by its slot. -/
def iterMutEnds : Ends (Sparse A × Bitmap) A Nat := ⟨stepping (iterMutNext N), M.panic, pure (iterSizeHint N), fun _ => pure (), pure ()⟩
/-- `option_iter()`: src/sparse_chunk/mod.rs:278-283; iter.rs:93-122. -/
def optionIterEnds : Ends (Sparse A × Nat) A (Option A) :=
  ⟨stepping (optionIterNext N E), M.panic, do optionSizeHint N E (← M.get).2, fun _ => pure (), pure ()⟩
/-- `option_iter_mut()`: src/sparse_chunk/mod.rs:289-294; iter.rs:126-165; each reference is given by its slot. -/
def optionIterMutEnds : Ends (Sparse A × Nat) A (Option Nat) :=
  ⟨stepping (optionIterMutNext N E), M.panic, do optionSizeHint N E (← M.get).2, fun _ => pure (), pure ()⟩
/-- `option_drain()`: src/sparse_chunk/mod.rs:300-305; iter.rs:171-201; it owns the chunk. -/
def optionDrainEnds : Ends (Sparse A × Nat) A (Option A) :=
  ⟨stepping (optionDrainNext N E), M.panic, do optionSizeHint N E (← M.get).2, tossOption dp, fun s =>
    (drop N dp (s.1.1, s.2)).mapState fun p => ((p.1, s.1.2), p.2)⟩
end Sparse

/-! ### Specification: an iterator over a list -/

/-- The iterator over a list: it yields from either end, says by `hint` how many items it has left, and `toss` and `drop` say what destroying
an item and dropping the iterator do. -/
def listEnds (hint : List B → Nat × Option Nat) (toss : B → M (List B × List A) Unit) (drop : M (List B × List A) Unit) : Ends (List B) A B :=
  ⟨Spec.popFront?, Spec.popBack?, fun l => .ok (hint l) l, toss, drop⟩

namespace ListIter
/-- The `size_hint` of an iterator that knows its length. -/
def exactly (l : List B) : Nat × Option Nat := (l.length, some l.length)

/-- Over a list of references: destroying a reference, or the iterator, does nothing. -/
def lending (hint : List B → Nat × Option Nat) : Ends (List B) A B := listEnds hint (fun _ => pure ()) (pure ())
/-- Draining a borrowed list, which keeps what is not taken: dropping the iterator does nothing. -/
def draining (dp : A → Bool) : Ends (List A) A A := listEnds exactly (dropOne dp) (pure ())
/-- Over an owned list, which destroys the items left as a slice (`drop_in_place`) does. -/
def consuming (dp : A → Bool) : Ends (List A) A A := listEnds exactly (dropOne dp) (Spec.drop dp)
/-- Over an owned list, which destroys the items left one call at a time. -/
def consumingSeq (dp : A → Bool) : Ends (List A) A A := listEnds exactly (dropOne dp) (Spec.dropSeq dp)
/-- Over an owned list of options. -/
def consumingOptions (dp : A → Bool) : Ends (List (Option A)) A (Option A) :=
  listEnds exactly (tossOption dp) fun s => (Spec.dropSeq dp (s.1.filterMap id, s.2)).mapState fun p => (s.1, p.2)

end ListIter

/-- Every use of the iterator `it`, in a state that represents the list `l`, is a use of the list's iterator: the same answers, the same items
destroyed in the same order, the same panics, and in the end (the iterator having been dropped) a state that is `T`-related to the list left. -/
def Ends.Walks (it : Ends τ A B) (ls : Ends (List B) A B) (both : Bool) (T : τ → List B → Prop) (t : τ) (l : List B) : Prop :=
  ∀ (R : Type) (w : Walker both B R) (log : List A), Ref (RelLog T) (w.run it (t, log)) (w.run ls (l, log))

end Verif
