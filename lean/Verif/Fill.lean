import Verif.CareSpec
import Verif.SpecMap
import Verif.Pour
/-
Filling a container from an iterator when both the iterator and the elements have code of their own.

In Verif/Pour.lean the iterator is a program with a state of its own, but destructors are log entries which perhaps panic; in Verif/Care.lean destructors are
programs, but there is no iterator.  Here both are programs on the same state `τ` of the user's: the iterator may look at what the destructors did, and the
other way round.  `extend`, `from_iter` and `collect_from` are modelled again, calling them.  (`insert_from` calls no destructor but the iterator's and, for a
`RingBuffer` at its end, those `extend` calls; `insert_ordered` takes no iterator.)
-/
namespace Verif
variable {A B σ τ α : Type}

/-- An iterator, its own state being part of the user's. -/
structure SourceBy (τ B : Type) where
  next : M τ (Option B)
  drop : M τ Unit

namespace SourceBy

/-- `for item in it { push(item) }`, without the drop of the iterator; `fuel` bounds the turns. -/
def pourLoop (src : SourceBy τ B) (push : B → M (σ × τ) Unit) : Nat → M (σ × τ) Unit
  | 0 => M.diverge
  | fuel + 1 => do
    match (← M.onSnd src.next) with
    | none => pure ()
    | some a =>
      push a
      pourLoop src push fuel

/-- `for item in it { push(item) }`: the iterator is dropped when the loop ends or unwinds. -/
def pour (src : SourceBy τ B) (push : B → M (σ × τ) Unit) (fuel : Nat) : M (σ × τ) Unit := do
  M.onUnwind (src.pourLoop push fuel) (M.onSnd src.drop)
  M.onSnd src.drop

end SourceBy

/-- `let mut c = init; body; c`: if the body panics, unwinding drops the local. -/
def M.making (init : σ) (body dtor : M (σ × τ) Unit) : M τ σ := fun u =>
  match body (init, u) with
  | .ok _ s => .ok s.1 s.2
  | .panic s =>
    match dtor s with
    | .ok _ s' => .panic s'.2
    | .panic _ => .abort
    | .abort => .abort
    | .ub => .ub
    | .diverge => .diverge
  | .abort => .abort
  | .ub => .ub
  | .diverge => .diverge

namespace Chunk
variable (E : Env) (N : Nat) (el : Elem τ A) (src : SourceBy τ A)

/-- `push_back(value)` with an owned value: if it panics, unwinding drops the argument (src/sized_chunk/mod.rs:357-371). -/
def pushBackOwnedBy (value : A) : M (Chunk A × τ) Unit := M.onUnwind (M.onFst (pushBack E N value)) (M.onSnd (el.drop value))

/-- src/sized_chunk/mod.rs:907-914 `extend`. -/
def extendWith (fuel : Nat) : M (Chunk A × τ) Unit := src.pour (pushBackOwnedBy E N el) fuel

/-- src/sized_chunk/mod.rs:873-882 `from_iter`. -/
def fromIterWith (fuel : Nat) : M τ (Chunk A) := M.making new (src.pour (pushBackOwnedBy E N el) fuel) (dropBy E N el)

/-- src/sized_chunk/mod.rs:186-192, the loop of `collect_from`. -/
def collectLoopWith : Nat → M (Chunk A × τ) Unit
  | 0 => pure ()
  | count + 1 => do
    match (← M.onSnd src.next) with
    | none => M.panic
    | some a =>
      pushBackOwnedBy E N el a
      collectLoopWith count

/-- src/sized_chunk/mod.rs:181-194 `collect_from`; the iterator is borrowed, so it is not dropped. -/
def collectFromWith (count : Nat) : M τ (Chunk A) := M.making new (collectLoopWith E N el src count) (dropBy E N el)

end Chunk

namespace Ring
variable (E : Env) (N : Nat) (el : Elem τ A) (src : SourceBy τ A)

/-- `push_back(value)` with an owned value: if it panics, unwinding drops the argument (src/ring_buffer/mod.rs:407-415). -/
def pushBackOwnedBy (value : A) : M (Ring A × τ) Unit := M.onUnwind (M.onFst (pushBack E N value)) (M.onSnd (el.drop value))

/-- src/ring_buffer/mod.rs:874-878 `extend`. -/
def extendWith (fuel : Nat) : M (Ring A × τ) Unit := src.pour (pushBackOwnedBy E N el) fuel

/-- src/ring_buffer/mod.rs:941-945 `from_iter`. -/
def fromIterWith (fuel : Nat) : M τ (Ring A) := do
  let buffer ← M.onUnwind (new E N) src.drop
  M.making buffer (src.pour (pushBackOwnedBy E N el) fuel) (dropBy E N el)

/-- src/ring_buffer/mod.rs:287, the loop of `from_iter(iter.take(count))` with a borrowed iterator. -/
def takeLoopWith : Nat → M (Ring A × τ) Unit
  | 0 => pure ()
  | count + 1 => do
    match (← M.onSnd src.next) with
    | none => pure ()
    | some a =>
      pushBackOwnedBy E N el a
      takeLoopWith count

/-- src/ring_buffer/mod.rs:283-292 `collect_from`. -/
def collectFromWith (count : Nat) : M τ (Ring A) := do
  let buffer ← new E N
  M.making buffer (do
    takeLoopWith E N el src count
    M.panicIf ((← M.onFst getLen) < count)) (dropBy E N el)

end Ring

namespace Inline
variable [DecidableEq A] (E : Env) (L : Layout A) (el : Elem τ A) (src : SourceBy τ A)

/-- `push(value)` with an owned value: if it panics, unwinding drops the argument (src/inline_array/mod.rs:298-306). -/
def pushOwnedBy (value : A) : M (Inline A × τ) Unit := M.onUnwind (M.onFst (push E L value)) (M.onSnd (el.drop value))

/-- src/inline_array/mod.rs:575-582 `extend`. -/
def extendWith (fuel : Nat) : M (Inline A × τ) Unit := src.pour (pushOwnedBy E L el) fuel

/-- src/inline_array/mod.rs:541-550 `from_iter`; the array is made at `k` times the alignment. -/
def fromIterWith (k fuel : Nat) : M τ (Inline A) := do
  let chunk ← M.onUnwind (make (new E L k)) src.drop
  M.making chunk (src.pour (pushOwnedBy E L el) fuel) (dropBy E L el)

end Inline

namespace Sparse
variable (N : Nat) (el : Elem τ A) (src : SourceBy τ (Option A))

/-- src/sparse_chunk/mod.rs:361-365, the loop of `from_iter`, with the counter of `enumerate`; `fuel` bounds the turns.  Simplification: the counter does not
overflow (that takes `usize::MAX` items). -/
def fillLoopWith : Nat → Nat → M (Sparse A × τ) Unit
  | 0, _ => M.diverge
  | fuel + 1, i => do
    match (← M.onSnd src.next) with
    | none => pure ()
    | some none => fillLoopWith fuel (i + 1)
    | some (some v) =>
      insertOwnedBy N el i v
      fillLoopWith fuel (i + 1)

/-- src/sparse_chunk/mod.rs:356-367 `from_iter`. -/
def fromIterWith (fuel : Nat) : M τ (Sparse A) :=
  M.making new (do
    M.onUnwind (fillLoopWith N el src fuel 0) (M.onSnd src.drop)
    M.onSnd src.drop) (dropBy N el)

end Sparse

/-! ### Specification: the same with lists and maps -/

namespace Fill
variable (src : SourceBy τ A) (el : Elem τ A)

/-- An item for which there is no room: the call panics, and the item is destroyed. -/
def refuse {C : Type} (a : A) : M (C × τ) Unit := M.onUnwind M.panic (M.onSnd (el.drop a))

/-- The items of the iterator are appended to a list, one by one; there is room for `n`. -/
def fill : Nat → M (List A × τ) Unit
  | 0 => do
    match (← M.onSnd src.next) with
    | none => pure ()
    | some a => refuse el a
  | n + 1 => do
    match (← M.onSnd src.next) with
    | none => pure ()
    | some a =>
      M.onFst (do M.set ((← M.get) ++ [a]))
      fill n

/-- Afterwards, however this ends, the iterator is dropped. -/
def extend (n : Nat) : M (List A × τ) Unit := do
  M.onUnwind (fill src el n) (M.onSnd src.drop)
  M.onSnd src.drop

/-- Exactly `count` items of the iterator are appended to a list, one by one; there is room for `n`. -/
def take : Nat → Nat → M (List A × τ) Unit
  | 0, _ => pure ()
  | _ + 1, 0 => do
    match (← M.onSnd src.next) with
    | none => M.panic
    | some a => refuse el a
  | count + 1, n + 1 => do
    match (← M.onSnd src.next) with
    | none => M.panic
    | some a =>
      M.onFst (do M.set ((← M.get) ++ [a]))
      take count n

/-- A new container is made and filled; if that panics its items are disposed of by `run`. -/
def collect {C : Type} (empty : C) (body : M (C × τ) Unit) (run : C → M τ Unit) : M τ C := fun u =>
  match body (empty, u) with
  | .ok _ s => .ok s.1 s.2
  | .panic s =>
    match run s.1 s.2 with
    | .ok _ u' => .panic u'
    | .panic _ => .abort
    | .abort => .abort
    | .ub => .ub
    | .diverge => .diverge
  | .abort => .abort
  | .ub => .ub
  | .diverge => .diverge

/-- The items of the iterator are put in a map, the first at index `i` and so on, none at the indices for which it yields `None`; the
indices below `N` can be used.  `fuel` bounds the number of items, which may all be `None`. -/
def fillMap (src : SourceBy τ (Option A)) (N : Nat) : Nat → Nat → M (SMap A × τ) Unit
  | 0, _ => M.diverge
  | fuel + 1, i => do
    match (← M.onSnd src.next) with
    | none => pure ()
    | some none => fillMap src N fuel (i + 1)
    | some (some a) =>
      if i < N then
        M.onFst (do M.set ((← M.get).upd i (some a)))
        fillMap src N fuel (i + 1)
      else refuse el a

/-- Afterwards, however this ends, the iterator is dropped. -/
def extendMap (src : SourceBy τ (Option A)) (N fuel : Nat) : M (SMap A × τ) Unit := do
  M.onUnwind (fillMap el src N fuel 0) (M.onSnd src.drop)
  M.onSnd src.drop

end Fill

/-! ### Observing the calls -/

/-- An item handed out by the iterator, or destroyed by the container. -/
inductive Deal (A : Type) where
  | given (a : A)
  | destroyed (a : A)
deriving DecidableEq

/-- The same iterator, with the items it hands out recorded. -/
def SourceBy.traced (src : SourceBy τ A) : SourceBy (τ × List (Deal A)) A where
  next := do
    let o ← M.onFst src.next
    match o with
    | none => return none
    | some a =>
      M.onSnd (do M.set ((← M.get) ++ [.given a]))
      return some a
  drop := M.onFst src.drop

/-- The same elements, with the items the container destroys recorded. -/
def Elem.dealt (el : Elem τ A) : Elem (τ × List (Deal A)) A where
  clone a := M.onFst (el.clone a)
  drop a := do
    M.onSnd (do M.set ((← M.get) ++ [.destroyed a]))
    M.onFst (el.drop a)

/-! ### The iterators and elements of Verif/Pour.lean -/

/-- The iterator, its state and the log of destroyed items being the user's state. -/
def Source.beside (src : Source τ A) : SourceBy (τ × List A) A := ⟨M.onFst src.next, src.drop⟩

/-- Elements whose destructors log and perhaps panic, in the same user's state. -/
def Elem.beside (dp : A → Bool) : Elem (τ × List A) A := ⟨fun a => pure a, fun a => dropOne dp a⟩

/-- The state of a method in Verif/Pour.lean is (container, iterator) and log; here it is container and (iterator, log). -/
def M.shift {L : Type} (x : M (σ × (τ × L)) α) : M ((σ × τ) × L) α := fun s =>
  (x (s.1.1, (s.1.2, s.2))).mapState fun p => ((p.1, p.2.1), p.2.2)

end Verif
