import Verif.Chunk.Model
import Verif.Inline.Model
/-
Threads that use the references `iter_mut` has handed out. `IterMut` (src/ring_buffer/iter.rs:54-60, src/sparse_chunk/iter.rs:30-36) yields one
`&'a mut A` per item; the client may collect them and give each to some thread (`&mut A` is `Send` if `A` is).

Simplifications: as in Threads.lean, memory is sequentially consistent and an item is read or replaced in one step. For programs without data
races - the theorem says that these are such - this is what the hardware provides.
-/
namespace Verif.Share
open Verif
variable {A : Type}

/-- What a thread does next: through the reference number `ref` (in the order in which they were handed out) it reads the item (`new` is
`none`), or replaces it and keeps the old one. -/
structure Use (A : Type) where
  ref : Nat
  new : Option A

/-- A thread: what it still has to do and what it has read so far. -/
structure Holder (A : Type) where
  todo : List (Use A)
  got : List A

/-- How the storage is read and written through the references handed out, by their number. `none`: there is no such reference, or the access is
undefined behaviour. -/
structure Store (S A : Type) where
  read : S → Nat → Option A
  write : S → Nat → A → Option S

/-- A thread does its next step. The result is `none` if the step is undefined behaviour. -/
def Holder.step {S : Type} (st : Store S A) (h : Holder A) (s : S) : Option (S × Holder A) :=
  match h.todo with
  | [] => some (s, h)
  | x :: rest =>
    match st.read s x.ref with
    | none => none
    | some a =>
      match x.new with
      | none => some (s, ⟨rest, h.got ++ [a]⟩)
      | some v =>
        match st.write s x.ref v with
        | some s' => some (s', ⟨rest, h.got ++ [a]⟩)
        | none => none

/-- The threads do steps in the order the scheduler decides. -/
def schedule {S : Type} (st : Store S A) : List Nat → S × (Nat → Holder A) → Option (S × (Nat → Holder A))
  | [], s => some s
  | t :: sched, s =>
    match (s.2 t).step st s.1 with
    | some (s', h) => schedule st sched (s', fun u => if u = t then h else s.2 u)
    | none => none

/-- A storage of `N` slots; reference `k` points to slot `refs[k]`. -/
def slotStore (N : Nat) (refs : List Nat) : Store (Mem A) A where
  read m k :=
    match refs[k]? with
    | none => none
    | some p =>
      match (memRead N m p : M Unit A) () with
      | .ok a _ => some a
      | _ => none
  write m k v :=
    match refs[k]? with
    | none => none
    | some p =>
      match (memWrite N m p v : M Unit (Mem A)) () with
      | .ok m' _ => some m'
      | _ => none

/-- The bytes of an inline array; reference `k` points to `ptrs[k]`. -/
def byteStore [DecidableEq A] (L : Layout A) (ptrs : List Ptr) : Store (Inline A) A where
  read s k :=
    match ptrs[k]? with
    | none => none
    | some p =>
      match Inline.loadElem L p s with
      | .ok a _ => some a
      | _ => none
  write s k v :=
    match ptrs[k]? with
    | none => none
    | some p =>
      match Inline.storeElem L p v s with
      | .ok _ s' => some s'
      | _ => none

/-- Before they start. -/
def holders (prog : Nat → List (Use A)) : Nat → Holder A := fun t => ⟨prog t, []⟩

/-- src/sized_chunk/mod.rs:691-699 `as_mut_slice` (also `iter_mut`, `DerefMut`), split up by the client into one `&mut A` per item (`iter_mut`,
`split_at_mut`, `chunks_mut` ... of slices): the slots to which they point. -/
def chunkRefs (E : Env) : M (Chunk A) (List Nat) := do return List.range' (← Chunk.getLeft) (← Chunk.len E)

/-- `n` pointers to consecutive elements. -/
def ptrsFrom {σ : Type} (L : Layout A) (p : Ptr) : Nat → M σ (List Ptr)
  | 0 => pure []
  | 1 => pure [p]
  | n + 2 => do return p :: (← ptrsFrom L (← Inline.ptrAdd L L.elemSize p 1) (n + 1))

/-- src/inline_array/mod.rs:449-453 `deref_mut`, split up by the client into one `&mut A` per item: where they point. -/
def inlineRefs (E : Env) (L : Layout A) : M (Inline A) (List Ptr) := do ptrsFrom L (← Inline.dataPtr E L) (← Inline.len E L)

/-! ### The specification: lists -/

/-- Each thread uses only references that have been handed out (`n` of them) and given to it. -/
def Owned (owner : Nat → Nat) (n : Nat) (prog : Nat → List (Use A)) : Prop := ∀ t, ∀ x ∈ prog t, x.ref < n ∧ owner x.ref = t

/-- The items after one use. -/
def Use.apply (x : Use A) (l : List A) : List A :=
  match x.new with
  | none => l
  | some v => l.set x.ref v

/-- What a thread would read, and leave behind, if there were no others. -/
def alone : List (Use A) → List A → List (Option A) × List A
  | [], l => ([], l)
  | x :: xs, l => (l[x.ref]? :: (alone xs (x.apply l)).1, (alone xs (x.apply l)).2)

/-- The list `l` with the items at the given positions replaced, in this order. -/
def putAll : List Nat → List A → List A → List A
  | p :: ps, a :: as, l => putAll ps as (l.set p a)
  | _, _, l => l

end Verif.Share
