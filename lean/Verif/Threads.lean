import Verif.Ring.View
/-
Threads that work on the parts of a mutable slice of a `RingBuffer`: `SliceMut::split_at`, again and again, and every part sent to a
thread of its own (`SliceMut<'a, A, N>` holds a `&'a mut RingBuffer<A, N>` and a `Range<usize>`, slice.rs:255-258, so it is `Send` if `A` is).

Simplifications: memory is sequentially consistent and an item is read or written in one step. For programs without data races - the
theorem says that these are such - this is what the hardware provides.
-/
namespace Verif.Ring
open Verif
variable {A : Type} (E : Env) (N : Nat)

/-! ### Splitting -/

/-- How a client splits up a slice: not at all, or with `split_at(i)` and then the two halves. -/
inductive Parts where
  | whole
  | split (i : Nat) (left right : Parts)
deriving Repr

/-- src/ring_buffer/slice.rs:383-405: the slices the client ends up with, from left to right. -/
def Parts.deal : Parts → Span → M (Ring A) (List Span)
  | .whole, s => return [s]
  | .split i left right, s => do
    let h ← splitAt E s i
    let xs ← left.deal h.1
    let ys ← right.deal h.2
    return xs ++ ys

/-! ### Threads -/

/-- What a thread does with its slice: `slice.get_mut(i)` (`checked`) or `&mut slice[i]`, and then, through this reference, it reads the
item (`new` is `none`) or replaces it. -/
structure Access (A : Type) where
  checked : Bool
  i : Nat
  new : Option A

/-- A thread: its slice, what it still has to do, the slot its reference points to while it has one, and what it has read so far
(`none`: there was no such item, `get_mut` gave `None` or `slice[i]` panicked). -/
structure Worker (A : Type) where
  slice : Span
  todo : List (Access A)
  pending : Option Nat
  got : List (Option A)

/-- The thread gets its reference, if there is such an item: src/ring_buffer/slice.rs:286-292 `get_mut` or 452-454 `index_mut`. Of memory
this reads only the fields of the buffer. -/
def Access.find (s : Span) (x : Access A) : M (Ring A) (Option Nat) :=
  if x.checked = true then sliceGetMut E N s x.i
  else do return some (← sliceIndexMut E N s x.i)

/-- The thread uses its reference to slot `p`. -/
def Access.use (p : Nat) (x : Access A) : M (Ring A) A :=
  match x.new with
  | none => do memRead N (← getMem) p
  | some v => swapAt N p v

/-- The thread is done with one of its accesses. -/
def Worker.done (w : Worker A) (a : Option A) : Worker A := { w with todo := w.todo.tail, pending := none, got := w.got ++ [a] }

/-- The thread does its next step: it gets a reference or it uses the one it has. The result is `none` if the step is undefined behaviour. -/
def Worker.step (w : Worker A) (c : Ring A) : Option (Ring A × Worker A) :=
  match w.todo, w.pending with
  | [], _ => some (c, w)
  | x :: _, none =>
    match x.find E N w.slice c with
    | .ok (some p) c' => some (c', { w with pending := some p })
    | .ok none c' => some (c', w.done none)
    | .panic c' => some (c', w.done none)
    | _ => none
  | x :: _, some p =>
    match x.use N p c with
    | .ok a c' => some (c', w.done (some a))
    | _ => none

/-- The threads do steps in the order the scheduler decides. -/
def schedule : List Nat → Ring A × (Nat → Worker A) → Option (Ring A × (Nat → Worker A))
  | [], s => some s
  | t :: sched, s =>
    match (s.2 t).step E N s.1 with
    | some (c', w) => schedule sched (c', fun u => if u = t then w else s.2 u)
    | none => none

/-- Before they start: thread `t` has the `t`-th slice and the program `prog t`. Threads without a slice do nothing. -/
def workers (slices : List Span) (prog : Nat → List (Access A)) : Nat → Worker A := fun t =>
  match slices[t]? with
  | some s => ⟨s, prog t, none, []⟩
  | none => ⟨⟨0, 0⟩, [], none, []⟩

/-- No two threads are about to use the same slot. -/
def RaceFree (ws : Nat → Worker A) : Prop := ∀ t u p, t ≠ u → (ws t).pending = some p → (ws u).pending ≠ some p

/-! ### The specification: lists -/

/-- The split makes sense for `n` items. -/
def Parts.Fits : Parts → Nat → Prop
  | .whole, _ => True
  | .split i left right, n => i ≤ n ∧ left.Fits i ∧ right.Fits (n - i)

/-- The parts of a list. -/
def Parts.pieces {α : Type} : Parts → List α → List (List α)
  | .whole, l => [l]
  | .split i left right, l => left.pieces (l.take i) ++ right.pieces (l.drop i)

/-- What a thread would read from its own list, and leave behind, if there were no others. -/
def alone : List (Access A) → List A → List (Option A) × List A
  | [], l => ([], l)
  | x :: xs, l =>
    let l' := match x.new with
      | none => l
      | some v => l.set x.i v
    (l[x.i]? :: (alone xs l').1, (alone xs l').2)

end Verif.Ring
