import Verif.Props.RingIter
import Verif.Props.SparseOps
import Verif.Props.RingAlias
/-
Who may use which pointer when: the code's reborrows and raw pointers, run against two published descriptions of Rust's aliasing
rules - Stacked Borrows and Tree Borrows - written out here as small executable state machines.

Simplifications, all of which are stated in DESIGN.md section 5: a container is a handful of cells (one for the fields beside the
storage, one per slot of the storage) rather than bytes; there are no protectors (that references
which are a method's arguments stay valid for the whole of the call is in AliasGuard.lean); two-phase borrows are taken as made when they are used
(the arguments of a method call are evaluated before its receiver is reborrowed); casting a `&T` to `*const T` keeps the
permission of the `&T`; and a reference which is passed on unchanged (returned, stored in an `Option`) is not reborrowed again.
-/
namespace Verif.Alias
open Verif

/-! ### Memory -/

/-- The memory of containers `x = 0, 1, …`: their fields (`head x`: src/sized_chunk/mod.rs:93-97 `left`, `right`;
src/ring_buffer/mod.rs:60-64 `origin`, `length`; src/sparse_chunk/mod.rs:51-57 `map`; the length word of src/inline_array/mod.rs)
and their storage slots. -/
inductive Cell where
  | head (x : Nat)
  | slot (x i : Nat)
deriving DecidableEq, Repr

/-- Slots `lo .. lo + n` of container `x`. -/
def span (x lo n : Nat) : List Cell := (List.range' lo n).map (Cell.slot x)
/-- The storage of container `x` of capacity `N` (its `data` field). -/
def slots (x N : Nat) : List Cell := span x 0 N
/-- All of container `x` of capacity `N`: what a reference to the container covers. -/
def whole (x N : Nat) : List Cell := .head x :: slots x N

/-- The identity of a reference or raw pointer. -/
abbrev Tag := Nat

/-- A computation that the aliasing rules may reject (`none`). -/
abbrev P (σ α : Type) := StateT σ Option α

/-- What an aliasing discipline has to say. -/
structure Rules (σ : Type) where
  /-- `&mut *p`, covering the cells. -/
  reMut : Tag → List Cell → P σ Tag
  /-- `&*p`. -/
  reShr : Tag → List Cell → P σ Tag
  /-- `p as *mut T` where `p` is a `&mut T`. -/
  raw : Tag → List Cell → P σ Tag
  /-- Read all the cells through `p`. -/
  read : Tag → List Cell → P σ Unit
  /-- Write all the cells through `p`. -/
  write : Tag → List Cell → P σ Unit

/-- Writing any one of the cells through the pointer would be accepted now. -/
def Rules.Usable {σ : Type} (R : Rules σ) (s : σ) (t : Tag) (cells : List Cell) : Prop :=
  ∀ c ∈ cells, ∃ s', R.write t [c] s = some ((), s')

/-- Reading any one of the cells through the pointer would be accepted now. -/
def Rules.Readable {σ : Type} (R : Rules σ) (s : σ) (t : Tag) (cells : List Cell) : Prop :=
  ∀ c ∈ cells, ∃ s', R.read t [c] s = some ((), s')

/-- The states a program can reach, whatever it does. -/
inductive Reach {σ : Type} (R : Rules σ) (init : σ) : σ → Prop
  | init : Reach R init init
  | reMut {s s' t n cells} : Reach R init s → R.reMut t cells s = some (n, s') → Reach R init s'
  | reShr {s s' t n cells} : Reach R init s → R.reShr t cells s = some (n, s') → Reach R init s'
  | raw {s s' t n cells} : Reach R init s → R.raw t cells s = some (n, s') → Reach R init s'
  | read {s s' t cells} : Reach R init s → R.read t cells s = some ((), s') → Reach R init s'
  | write {s s' t cells} : Reach R init s → R.write t cells s = some ((), s') → Reach R init s'

/-! ### Stacked Borrows (Jung, Dang, Kang, Dreyer, POPL 2020) -/

/-- What an item allows. -/
inductive Perm where
  | unique | sharedRW | sharedRO | disabled
deriving DecidableEq, Repr

/-- An entry of a cell's borrow stack. -/
structure Item where
  perm : Perm
  tag : Nat
deriving DecidableEq, Repr

namespace Stack

/-- The item lets `t` write. -/
def canWrite (t : Tag) (i : Item) : Bool := i.tag == t && (i.perm == .unique || i.perm == .sharedRW)
/-- The item lets `t` read. -/
def canRead (t : Tag) (i : Item) : Bool := i.tag == t && i.perm != .disabled
/-- What a read underneath does to an item. -/
def demote (i : Item) : Item := if i.perm = .unique then { i with perm := .disabled } else i

/-- A read through `t`: some item must grant it; every `unique` item above that one is disabled.  The head is the top. -/
def read (t : Tag) : List Item → Option (List Item)
  | [] => none
  | i :: rest => if canRead t i then some (i :: rest) else (read t rest).map (demote i :: ·)

/-- The item may stay when the one below it, `below`, was left where it was and both are `sharedRW`. -/
def stays (i : Item) (rest after : List Item) : Bool :=
  i.perm == .sharedRW && decide (after.length = rest.length) && (rest.head?.map Item.perm == some .sharedRW)

/-- A write through `t`: some item must grant it; everything above is popped, except a run of `sharedRW` items adjacent to a
granting item which is itself `sharedRW`. -/
def write (t : Tag) : List Item → Option (List Item)
  | [] => none
  | i :: rest =>
    if canWrite t i then some (i :: rest)
    else (write t rest).map (fun after => if stays i rest after then i :: after else after)

/-- A raw pointer `n` made from `t`: its item goes just above the item of `t`, and nothing is popped. -/
def pushRaw (t n : Tag) : List Item → Option (List Item)
  | [] => none
  | i :: rest => if canWrite t i then some (⟨.sharedRW, n⟩ :: i :: rest) else (pushRaw t n rest).map (i :: ·)

end Stack

/-- The borrow stack of every cell, and the next unused tag. -/
structure SB where
  stacks : Cell → List Item
  next : Nat

namespace SB

/-- Change the stacks of the cells, if every one of them allows it. -/
def each (f : List Item → Option (List Item)) (cells : List Cell) (s : SB) : Option SB :=
  if ∀ c ∈ cells, (f (s.stacks c)).isSome then
    some { s with stacks := fun c => if c ∈ cells then (f (s.stacks c)).getD [] else s.stacks c }
  else none

/-- The same, for a new tag. -/
def fresh (f : Tag → List Item → Option (List Item)) (cells : List Cell) : P SB Tag := fun s =>
  (each (f s.next) cells s).map fun s' => (s.next, { s' with next := s.next + 1 })

/-- Stacked Borrows. A mutable reborrow counts as a write and a shared one as a read through the parent. -/
def rules : Rules SB where
  reMut t cells := fresh (fun n st => (Stack.write t st).map (⟨.unique, n⟩ :: ·)) cells
  reShr t cells := fresh (fun n st => (Stack.read t st).map (⟨.sharedRO, n⟩ :: ·)) cells
  raw t cells := fresh (Stack.pushRaw t) cells
  read t cells := fun s => (each (Stack.read t) cells s).map fun s' => ((), s')
  write t cells := fun s => (each (Stack.write t) cells s).map fun s' => ((), s')

/-- The container a cell belongs to. -/
def box : Cell → Nat
  | .head x => x
  | .slot x _ => x

/-- Containers `0, …, k - 1` have just been made; tag `x` is the owner of container `x`. -/
def start (k : Nat) : SB := ⟨fun c => if box c < k then [⟨.unique, box c⟩] else [], k⟩

end SB

/-! ### Tree Borrows (Villani, Hostert, Dreyer, Jung, PLDI 2025) -/

/-- The state of a reference at a cell. -/
inductive TPerm where
  | reserved | active | frozen | disabled
deriving DecidableEq, Repr

/-- The permission after an access (`w`: a write) through the reference itself or one derived from it. -/
def TPerm.child (w : Bool) : TPerm → Option TPerm
  | .reserved => some (if w then .active else .reserved)
  | .active => some .active
  | .frozen => if w then none else some .frozen
  | .disabled => none

/-- The permission after any other access to that cell. -/
def TPerm.foreign (w : Bool) : TPerm → TPerm
  | .reserved => if w then .disabled else .reserved
  | .active => if w then .disabled else .frozen
  | .frozen => if w then .disabled else .frozen
  | .disabled => .disabled

/-- For every tag, itself and the tags it is derived from; its state at every cell; and the next unused tag. -/
structure TB where
  up : Tag → List Tag
  perm : Tag → Cell → TPerm
  next : Nat

namespace TB

/-- An access through `t`, which must have been issued. -/
def access (w : Bool) (t : Tag) (cells : List Cell) (s : TB) : Option TB :=
  if t < s.next ∧ ∀ c ∈ cells, ∀ u ∈ s.up t, ((s.perm u c).child w).isSome then
    some ⟨s.up, fun u c =>
      if c ∈ cells then (if u ∈ s.up t then ((s.perm u c).child w).getD .disabled else (s.perm u c).foreign w)
      else s.perm u c, s.next⟩
  else none

/-- A new reference derived from `t`, with permission `p` everywhere. -/
def sprout (t : Tag) (p : TPerm) (s : TB) : TB :=
  ⟨fun u => if u = s.next then s.next :: s.up t else s.up u, fun u c => if u = s.next then p else s.perm u c, s.next + 1⟩

/-- Tree Borrows. Making a reference counts as a read through it; a raw pointer is the reference it is made from. -/
def rules : Rules TB where
  reMut t cells := fun s => if t < s.next then (access false s.next cells (sprout t .reserved s)).map fun s' => (s.next, s') else none
  reShr t cells := fun s => if t < s.next then (access false s.next cells (sprout t .frozen s)).map fun s' => (s.next, s') else none
  raw t _ := pure t
  read t cells := fun s => (access false t cells s).map fun s' => ((), s')
  write t cells := fun s => (access true t cells s).map fun s' => ((), s')

/-- Containers `0, …, k - 1` have just been made; tag `x` is the owner of container `x`. -/
def start (k : Nat) : TB := ⟨fun u => [u], fun u c => if u = SB.box c ∧ u < k then .active else .disabled, k⟩

end TB

/-! ### The code's pointers -/

variable {σ A : Type} (R : Rules σ) (N : Nat)

/-- src/sized_chunk/mod.rs:243-245 and src/ring_buffer/mod.rs:121-124 `ptr`, through a reference `b` to container `x`: the
`&self` of the call, then `&self.data`. -/
def ptr (x : Nat) (b : Tag) : P σ Tag := do
  let self ← R.reShr b (whole x N)
  R.reShr self (slots x N)

/-- src/sized_chunk/mod.rs:249-251 and src/ring_buffer/mod.rs:127-130 `mut_ptr`: the `&mut self` of the call, `&mut self.data`,
and its cast to a raw pointer. -/
def mutPtr (x : Nat) (b : Tag) : P σ Tag := do
  let self ← R.reMut b (whole x N)
  let data ← R.reMut self (slots x N)
  R.raw data (slots x N)

/-- src/inline_array/mod.rs:193-205 `data_mut`, 216-219 `ptr_at_mut` (and 164-173 `len_mut`): `&mut self`, `&mut self.data` -
which here is all of the container, length word included - and its cast. -/
def dataMut (x : Nat) (b : Tag) : P σ Tag := do
  let self ← R.reMut b (whole x N)
  let data ← R.reMut self (whole x N)
  R.raw data (whole x N)

/-- src/inline_array/mod.rs:151-160 `len_const`, 177-189 `data`. -/
def dataConst (x : Nat) (b : Tag) : P σ Tag := do
  let self ← R.reShr b (whole x N)
  R.reShr self (whole x N)

/-- A method of `&self` which reads a field, such as `len` (src/sized_chunk/mod.rs:226-228, src/ring_buffer/mod.rs:81-83). -/
def lenOf (x : Nat) (b : Tag) : P σ Unit := do
  let self ← R.reShr b (whole x N)
  R.read self [.head x]

/-- src/inline_array/mod.rs:234-236 `InlineArray::len`. -/
def readLen (x : Nat) (b : Tag) : P σ Unit := do
  let p ← dataConst R N x b
  R.read p [.head x]

/-- `*self.len_mut() += 1`, `-= 1` or `= …` (src/inline_array/mod.rs:304, 318, 341, 359, 381-382, 399). -/
def setLen (x : Nat) (b : Tag) : P σ Unit := do
  let p ← dataMut R N x b
  R.read p [.head x]
  R.write p [.head x]

/-- Everything the four containers do with pointers into themselves. Every method is a sequence of these (`x`, `y`: which
container). -/
inductive Call where
  /-- Read or write a field in place: `self.left`, `self.origin`, `self.map` (src/sized_chunk/mod.rs:350, src/ring_buffer/mod.rs:412,
  src/sparse_chunk/mod.rs:164). -/
  | field (x : Nat) (w : Bool)
  /-- `self.len()`. -/
  | len (x : Nat)
  /-- src/sized_chunk/mod.rs:255-257, src/ring_buffer/mod.rs:140-142 `force_read`. -/
  | readAt (x i : Nat)
  /-- src/sized_chunk/mod.rs:262-264, src/ring_buffer/mod.rs:146-148 `force_write`. -/
  | writeAt (x i : Nat)
  /-- src/ring_buffer/mod.rs:134-136 `force_drop`; the destructor gets a `&mut` and may read and write through it. -/
  | dropAt (x i : Nat)
  /-- src/ring_buffer/mod.rs:388-390 `get_unchecked`, 797, and using the reference. -/
  | getRef (x i : Nat)
  /-- src/ring_buffer/mod.rs:398-400 `get_unchecked_mut`, 811, and using the reference. -/
  | getMut (x i : Nat)
  /-- src/sized_chunk/mod.rs:268-272 `force_copy`. -/
  | copyWithin (x frm to count : Nat)
  /-- src/sized_chunk/mod.rs:319-329 `force_copy_to`. -/
  | copyTo (x y frm to count : Nat)
  /-- src/ring_buffer/mod.rs:159-171 the `force_copy_to` inside `copy_from`. -/
  | ringCopy (x y frm to count : Nat)
  /-- src/sized_chunk/mod.rs:682-689 `as_slice`, and reading one of the slots. -/
  | slice (x lo n i : Nat)
  /-- src/sized_chunk/mod.rs:692-699 `as_mut_slice`, and reading and writing one of the slots (as `drop_in_place` does, 101, 676). -/
  | sliceMut (x lo n i : Nat)
  /-- src/sparse_chunk/mod.rs:94-96 `values`, an element of it, and reading that (105-107, 222-224). -/
  | values (x i : Nat)
  /-- src/sparse_chunk/mod.rs:99-101 `values_mut`, an element of it, and reading and writing that (111-113, 232-234, 67). -/
  | valuesMut (x i : Nat)
  /-- src/inline_array/mod.rs:234-236 `len`. -/
  | inlineLen (x : Nat)
  /-- Assigning the length through `len_mut` (src/inline_array/mod.rs:164-173). -/
  | inlineSetLen (x : Nat)
  /-- src/inline_array/mod.rs:222-224 `read_at`. -/
  | inlineRead (x i : Nat)
  /-- src/inline_array/mod.rs:227-229 `write_at`. -/
  | inlineWrite (x i : Nat)
  /-- src/inline_array/mod.rs:337-342, the unsafe part of `insert` into `len` items at `i`. -/
  | inlineInsert (x i len : Nat)
  /-- src/inline_array/mod.rs:357-361, the unsafe part of `remove` of item `i` of `len`. -/
  | inlineRemove (x i len : Nat)
  /-- src/inline_array/mod.rs:380 the copy in `split_off`, from container `x` into `y`. -/
  | inlineCopy (x y frm count : Nat)
  /-- src/inline_array/mod.rs:444-446 `deref`, and reading an item. -/
  | inlineDeref (x n i : Nat)
  /-- src/inline_array/mod.rs:450-452 `deref_mut`, and reading and writing an item (389-391 `drop_contents`). -/
  | inlineDerefMut (x n i : Nat)

/-- The pointer operations of a call; `b x` is the `&mut` through which the method was called on container `x`. -/
def Call.run (b : Nat → Tag) : Call → P σ Unit
  | .field x w => if w = true then R.write (b x) [.head x] else R.read (b x) [.head x]
  | .len x => lenOf R N x (b x)
  | .readAt x i => do
    let p ← ptr R N x (b x)
    R.read p [.slot x i]
  | .writeAt x i => do
    let p ← mutPtr R N x (b x)
    R.write p [.slot x i]
  | .dropAt x i => do
    let p ← mutPtr R N x (b x)
    let r ← R.reMut p [.slot x i]
    R.read r [.slot x i]
    R.write r [.slot x i]
  | .getRef x i => do
    let p ← ptr R N x (b x)
    let r ← R.reShr p [.slot x i]
    R.read r [.slot x i]
  | .getMut x i => do
    let p ← mutPtr R N x (b x)
    let r ← R.reMut p [.slot x i]
    R.read r [.slot x i]
    R.write r [.slot x i]
  | .copyWithin x frm to count => do
    if count > 0 then
      let p ← ptr R N x (b x)
      let q ← mutPtr R N x (b x)
      R.read p (span x frm count)
      R.write q (span x to count)
    else pure ()
  | .copyTo x y frm to count => do
    if count > 0 then
      let p ← ptr R N x (b x)
      let q ← mutPtr R N y (b y)
      R.read p (span x frm count)
      R.write q (span y to count)
    else pure ()
  | .ringCopy x y frm to count => do
    if count > 0 then
      let p ← mutPtr R N x (b x)
      let q ← mutPtr R N y (b y)
      R.read p (span x frm count)
      R.write q (span y to count)
    else pure ()
  | .slice x lo n i => do
    let self ← R.reShr (b x) (whole x N)
    let data ← R.reShr self (slots x N)
    R.read self [.head x]
    lenOf R N x self
    let r ← R.reShr data (span x lo n)
    R.read r [.slot x i]
  | .sliceMut x lo n i => do
    let self ← R.reMut (b x) (whole x N)
    let data ← R.reMut self (slots x N)
    let p ← R.raw data (slots x N)
    R.read self [.head x]
    lenOf R N x self
    let r ← R.reMut p (span x lo n)
    R.read r [.slot x i]
    R.write r [.slot x i]
  | .values x i => do
    let self ← R.reShr (b x) (whole x N)
    let data ← R.reShr self (slots x N)
    let vs ← R.reShr data (slots x N)
    let r ← R.reShr vs [.slot x i]
    R.read r [.slot x i]
  | .valuesMut x i => do
    let self ← R.reMut (b x) (whole x N)
    let data ← R.reMut self (slots x N)
    let p ← R.raw data (slots x N)
    let vs ← R.reMut p (slots x N)
    let r ← R.reMut vs [.slot x i]
    R.read r [.slot x i]
    R.write r [.slot x i]
  | .inlineLen x => readLen R N x (b x)
  | .inlineSetLen x => setLen R N x (b x)
  | .inlineRead x i => do
    let p ← dataConst R N x (b x)
    R.read p [.slot x i]
  | .inlineWrite x i => do
    let p ← dataMut R N x (b x)
    R.write p [.slot x i]
  | .inlineInsert x i k => do
    let src ← dataMut R N x (b x)
    readLen R N x (b x)
    R.read src (span x i (k - i))
    R.write src (span x (i + 1) (k - i))
    R.write src [.slot x i]
    setLen R N x (b x)
  | .inlineRemove x i k => do
    let src ← dataMut R N x (b x)
    R.read src [.slot x i]
    setLen R N x (b x)
    readLen R N x (b x)
    R.read src (span x (i + 1) (k - 1 - i))
    R.write src (span x i (k - 1 - i))
  | .inlineCopy x y frm count => do
    let p ← dataConst R N x (b x)
    let q ← dataMut R N y (b y)
    readLen R N x (b x)
    R.read p (span x frm count)
    R.write q (span y 0 count)
  | .inlineDeref x n i => do
    let self ← R.reShr (b x) (whole x N)
    let data ← R.reShr self (whole x N)
    readLen R N x self
    let r ← R.reShr data (span x 0 n)
    R.read r [.slot x i]
  | .inlineDerefMut x n i => do
    let self ← R.reMut (b x) (whole x N)
    let data ← R.reMut self (whole x N)
    let p ← R.raw data (whole x N)
    readLen R N x self
    let r ← R.reMut p (span x 0 n)
    R.read r [.slot x i]
    R.write r [.slot x i]

/-- The slots a call names are inside the storage, and a copy between containers is between two of them. -/
def Call.InRange (N : Nat) : Call → Prop
  | .field _ _ | .len _ | .inlineLen _ | .inlineSetLen _ => True
  | .readAt _ i | .writeAt _ i | .dropAt _ i | .getRef _ i | .getMut _ i | .values _ i | .valuesMut _ i | .inlineRead _ i
  | .inlineWrite _ i => i < N
  | .copyWithin _ frm to count => frm + count ≤ N ∧ to + count ≤ N
  | .copyTo x y frm to count | .ringCopy x y frm to count => x ≠ y ∧ frm + count ≤ N ∧ to + count ≤ N
  | .slice _ lo n i | .sliceMut _ lo n i => lo ≤ i ∧ i < lo + n ∧ lo + n ≤ N
  | .inlineInsert _ i k => i ≤ k ∧ k < N
  | .inlineRemove _ i k => i < k ∧ k ≤ N
  | .inlineCopy x y frm count => x ≠ y ∧ frm + count ≤ N
  | .inlineDeref _ n i | .inlineDerefMut _ n i => i < n ∧ n ≤ N

/-- The containers a call is about. -/
def Call.boxes : Call → List Nat
  | .field x _ | .len x | .readAt x _ | .writeAt x _ | .dropAt x _ | .getRef x _ | .getMut x _ | .copyWithin x _ _ _
  | .slice x _ _ _ | .sliceMut x _ _ _ | .values x _ | .valuesMut x _ | .inlineLen x | .inlineSetLen x | .inlineRead x _
  | .inlineWrite x _ | .inlineInsert x _ _ | .inlineRemove x _ _ | .inlineDeref x _ _ | .inlineDerefMut x _ _ => [x]
  | .copyTo x y _ _ _ | .ringCopy x y _ _ _ | .inlineCopy x y _ _ => [x, y]

/-- A call which moves items within a container with a pointer made before another `&mut` to the same container:
`Chunk::force_copy` of at least one item, and `InlineArray::remove` of an item which is not the last. -/
def Call.Stale : Call → Prop
  | .copyWithin _ _ _ count => count > 0
  | .inlineRemove _ i k => i + 1 < k
  | _ => False

/-- Run calls one after the other. -/
def runCalls (b : Nat → Tag) : List Call → P σ Unit
  | [] => pure ()
  | c :: cs => do
    c.run R N b
    runCalls b cs

/-! ### `RingBuffer::iter_mut` -/

/-- What a client does with an iterator over `&mut A` and the references it has got so far: ask for the next one from either
end, or read or write through the `k`-th reference it got. Rust's type system lets safe code do these in any order. -/
inductive Use where
  | next | nextBack
  | read (k : Nat) | write (k : Nat)
deriving DecidableEq, Repr

/-- Arithmetic of the program; a panic counts as rejection. -/
def lift {τ α : Type} (o : Out τ α) : P σ α := fun s =>
  match o with
  | .ok a _ => some (a, s)
  | _ => none

/-- Read or write through the `k`-th reference; if there is no such reference, this is not a possible action and nothing
happens. -/
def useRef (x : Nat) (w : Bool) (refs : List (Nat × Tag)) (k : Nat) : P σ Unit :=
  match refs[k]? with
  | none => pure ()
  | some (p, t) => if w = true then R.write t [.slot x p] else R.read t [.slot x p]

/-- src/ring_buffer/mod.rs:340-342 `iter_mut`, src/ring_buffer/iter.rs:66-82 `IterMut::new` and `new_slice`: the fields are read,
and `data` is a raw pointer made from `&mut buffer.data` once and for all. -/
def ringIterMut (x : Nat) (b : Tag) : P σ Tag := do
  let buffer ← R.reMut b (whole x N)
  R.read buffer [.head x]
  lenOf R N x buffer
  let data ← R.reMut buffer (slots x N)
  R.raw data (slots x N)

/-- Hand out a reference to the slot the iterator answers with (`found`): `&mut *self.mut_ptr(index)`,
src/ring_buffer/iter.rs:101 and 122. -/
def ringYield (x : Nat) (data : Tag) (refs : List (Nat × Tag)) (it : IdxIter) :
    Option (Nat × IdxIter) → P σ (IdxIter × List (Nat × Tag))
  | none => pure (it, refs)
  | some (p, it') => do
    let r ← R.reMut data [.slot x p]
    return (it', refs ++ [(p, r)])

/-- One step of the client: src/ring_buffer/iter.rs:95-103 `next`, 116-124 `next_back`, or a use of a reference. -/
def ringUse (E : Env) (x : Nat) (data : Tag) (it : IdxIter) (refs : List (Nat × Tag)) :
    Use → P σ (IdxIter × List (Nat × Tag))
  | .next => do ringYield R x data refs it (← lift (Ring.idxNext E N it ()))
  | .nextBack => do ringYield R x data refs it (← lift (Ring.idxNextBack E N it ()))
  | .read k => do
    useRef R x false refs k
    return (it, refs)
  | .write k => do
    useRef R x true refs k
    return (it, refs)

/-- All of the client's steps; the references it holds at the end. -/
def ringUses (E : Env) (x : Nat) (data : Tag) : List Use → IdxIter → List (Nat × Tag) → P σ (List (Nat × Tag))
  | [], _, refs => pure refs
  | u :: us, it, refs => do
    let r ← ringUse R N E x data it refs u
    ringUses E x data us r.1 r.2

/-- `buffer.iter_mut()` (src/ring_buffer/mod.rs:340-342) on container `x`, then the client's steps. -/
def ringClient (E : Env) (x : Nat) (b : Tag) (c : Ring A) (uses : List Use) : P σ (List (Nat × Tag)) := do
  let data ← ringIterMut R N x b
  let it ← lift (Ring.iterMut E N c)
  ringUses R N E x data uses it []

/-! ### `SparseChunk::iter_mut` and `option_iter_mut` -/

/-- `&mut self.chunk.values_mut()[index]` and back to a reference (src/sparse_chunk/iter.rs:47-50, 145-148, mod.rs:99-101),
where `chunk` is the iterator's own `&mut SparseChunk`. -/
def valuesMutAt (x : Nat) (chunk : Tag) (i : Nat) : P σ Tag := do
  let self ← R.reMut chunk (whole x N)
  let data ← R.reMut self (slots x N)
  let p ← R.raw data (slots x N)
  let vs ← R.reMut p (slots x N)
  let r ← R.reMut vs [.slot x i]
  R.raw r [.slot x i]

/-- Hand out a reference to the slot found. -/
def sparseYield {β : Type} (x : Nat) (chunk : Tag) (refs : List (Nat × Tag)) (st : β) :
    Option (Option Nat × β) → P σ (β × List (Nat × Tag))
  | none => pure (st, refs)
  | some (none, st') => pure (st', refs)
  | some (some i, st') => do
    let p ← valuesMutAt R N x chunk i
    let r ← R.reMut p [.slot x i]
    return (st', refs ++ [(i, r)])

/-- One step of a client of an iterator with state `β` and the given `next`; there is no `next_back`. -/
def sparseUse {β : Type} (x : Nat) (chunk : Tag) (next : β → Out (Sparse A) (Option (Option Nat × β))) (st : β)
    (refs : List (Nat × Tag)) : Use → P σ (β × List (Nat × Tag))
  | .next => do sparseYield R N x chunk refs st (← lift (next st))
  | .nextBack => pure (st, refs)
  | .read k => do
    useRef R x false refs k
    return (st, refs)
  | .write k => do
    useRef R x true refs k
    return (st, refs)

/-- All of the client's steps; the references it holds at the end. -/
def sparseUses {β : Type} (x : Nat) (chunk : Tag) (next : β → Out (Sparse A) (Option (Option Nat × β))) :
    List Use → β → List (Nat × Tag) → P σ (List (Nat × Tag))
  | [], _, refs => pure refs
  | u :: us, st, refs => do
    let r ← sparseUse R N x chunk next st refs u
    sparseUses x chunk next us r.1 r.2

/-- src/sparse_chunk/iter.rs:44-54 `IterMut::next` as a function of the iterator's bitmap. -/
def iterMutStep (c : Sparse A) (bits : Bitmap) : Out (Sparse A) (Option (Option Nat × Bitmap)) :=
  (do return (← Sparse.iterMutNext N bits).map fun r => (some r.1, r.2) : M (Sparse A) _) c

/-- `chunk.iter_mut()` (src/sparse_chunk/mod.rs:256-261), then the client's steps. -/
def sparseClient (x : Nat) (b : Tag) (c : Sparse A) (uses : List Use) : P σ (List (Nat × Tag)) := do
  let chunk ← R.reMut b (whole x N)
  R.read chunk [.head x]
  sparseUses R N x chunk (iterMutStep N c) uses c.map []

/-- `chunk.option_iter_mut()` (src/sparse_chunk/mod.rs:289-294, iter.rs:142-157), then the client's steps. Each `next` also reads
the bitmap, in the field `map`. -/
def sparseOptionClient (E : Env) (x : Nat) (b : Tag) (c : Sparse A) (uses : List Use) : P σ (List (Nat × Tag)) := do
  let chunk ← R.reMut b (whole x N)
  sparseUses R N x chunk (fun i => Sparse.optionIterMutNext N E i c) uses 0 []

/-! ### `SliceMut::split_at` -/

/-- src/ring_buffer/slice.rs:383-405 `SliceMut::split_at`: two `&mut` to the same buffer, made one after the other from the same
raw pointer. The result: the left and the right half's `buffer`. -/
def splitAt (x : Nat) (b : Tag) : P σ (Tag × Tag) := do
  let ptr ← R.raw b (whole x N)
  let l ← R.reMut ptr (whole x N)
  let r ← R.reMut ptr (whole x N)
  return (l, r)

/-- A client uses the halves (`right`: which one) by `get`/`index` or by `get_mut`/`index_mut` (`w`), which reborrow the
half's `buffer` (slice.rs:273-324, 444-454), on the slot `i`. -/
structure HalfUse where
  right : Bool
  w : Bool
  i : Nat
deriving DecidableEq, Repr

/-- One use of a half: src/ring_buffer/mod.rs:385-400 and 789-812 through the `buffer` of that half. -/
def halfUse (x : Nat) (h : Tag × Tag) (u : HalfUse) : P σ Unit :=
  Call.run R N (fun _ => if u.right then h.2 else h.1) (if u.w then .getMut x u.i else .getRef x u.i)

/-- All of a client's uses. -/
def halfUses (x : Nat) (h : Tag × Tag) : List HalfUse → P σ Unit
  | [] => pure ()
  | u :: us => do
    halfUse R N x h u
    halfUses x h us

/-- `split_at` and then the client's uses. -/
def splitClient (x : Nat) (b : Tag) (uses : List HalfUse) : P σ Unit := do
  halfUses R N x (← splitAt R N x b) uses

end Verif.Alias
