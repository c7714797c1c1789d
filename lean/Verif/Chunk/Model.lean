import Verif.Cmp
/-
Model of `Chunk<A, N>` (src/sized_chunk/mod.rs) and its iterators (src/sized_chunk/iter.rs).

Conventions: `E` is the build environment, `N` the const generic capacity.  A method taking `&mut self`
is an `M (Chunk A)` computation; with a second chunk the state is `(self, other)`; where
destructors run the second component of the state is the drop log.
-/
namespace Verif

/-- src/sized_chunk/mod.rs:93-97 `struct Chunk`. -/
structure Chunk (A : Type) where
  left : Nat
  right : Nat
  mem : Mem A

namespace Chunk
variable {A : Type} (E : Env) (N : Nat)

/-! ### Field access (`self.left`, `self.right = ...`) -/

/-- Reading the field `left` (mod.rs:94). -/
def getLeft : M (Chunk A) Nat := fun c => .ok c.left c
/-- Reading the field `right` (mod.rs:95). -/
def getRight : M (Chunk A) Nat := fun c => .ok c.right c
/-- Reading the field `data` (mod.rs:96). -/
def getMem : M (Chunk A) (Mem A) := fun c => .ok c.mem c
/-- Assigning the field `left` (mod.rs:94). -/
def setLeft (x : Nat) : M (Chunk A) Unit := fun c => .ok () { c with left := x }
/-- Assigning the field `right` (mod.rs:95). -/
def setRight (x : Nat) : M (Chunk A) Unit := fun c => .ok () { c with right := x }
/-- Updating the field `data` (mod.rs:96). -/
def setMem (m : Mem A) : M (Chunk A) Unit := fun c => .ok () { c with mem := m }

/-! ### Constructors and inspection -/

/-- src/sized_chunk/mod.rs:129-135 `Chunk::new` (and 702-706 `Default`). -/
def new : Chunk A := { left := 0, right := 0, mem := Mem.uninit }

/-- src/sized_chunk/mod.rs:226-228 `len`. -/
def len : M (Chunk A) Nat := do usub E (← getRight) (← getLeft)

/-- src/sized_chunk/mod.rs:232-234 `is_empty`. -/
def isEmpty : M (Chunk A) Bool := do return decide ((← getLeft) = (← getRight))

/-- src/sized_chunk/mod.rs:238-240 `is_full`. -/
def isFull : M (Chunk A) Bool := do return decide ((← getLeft) = 0 ∧ (← getRight) = N)

/-- src/sized_chunk/mod.rs:255-257 `force_read`. -/
def forceRead (index : Nat) : M (Chunk A) A := do memRead N (← getMem) index

/-- src/sized_chunk/mod.rs:262-264 `force_write`. -/
def forceWrite (index : Nat) (value : A) : M (Chunk A) Unit := do
  setMem (← memWrite N (← getMem) index value)

/-- src/sized_chunk/mod.rs:268-272 `force_copy`. -/
def forceCopy (frm to count : Nat) : M (Chunk A) Unit := do
  if count > 0 then
    let m ← getMem
    setMem (← memCopy N m frm N m to count)
  else pure ()

/-- src/sized_chunk/mod.rs:319-329 `force_copy_to`; the state is `(chunk, other)`: copies from the first
into the second. -/
def forceCopyTo (frm to count : Nat) : M (Chunk A × Chunk A) Unit := do
  if count > 0 then
    let src ← M.onFst getMem
    let dst ← M.onSnd getMem
    M.onSnd (setMem (← memCopy N src frm N dst to count))
  else pure ()

/-- src/sized_chunk/mod.rs:682-689 `as_slice` (also `Deref`, `Borrow`, `AsRef`, `iter`: 834-898, which
return exactly this slice). -/
def asSlice : M (Chunk A) (List A) := do
  memSlice N (← getMem) (← getLeft) (← len E)

/-- src/sized_chunk/mod.rs:138-149 `unit`. -/
def unit (value : A) : M Unit (Chunk A) := do
  M.assert (N ≥ 1)
  let m ← memWrite N Mem.uninit 0 value
  return { left := 0, right := 1, mem := m }

/-- src/sized_chunk/mod.rs:152-164 `pair`. -/
def pair (left right : A) : M Unit (Chunk A) := do
  M.assert (N ≥ 2)
  let m ← memWrite N Mem.uninit 0 left
  let m ← memWrite N m 1 right
  return { left := 0, right := 2, mem := m }

/-- Swap the two components of a pair state (argument order of `force_copy_to`). -/
def swapped {σ τ α : Type} (x : M (τ × σ) α) : M (σ × τ) α :=
  fun s => (x (s.2, s.1)).mapState (fun p => (p.2, p.1))

/-- Run a two-chunk computation whose second chunk is a fresh local (no destructor needed: it never
panics after items have been moved into it), returning the local. -/
def withNew {α : Type} (x : M (Chunk A × Chunk A) α) : M (Chunk A) (Chunk A) := fun other =>
  match x (other, new) with
  | .ok _ s => .ok s.2 s.1
  | .panic s => .panic s.1
  | .abort => .abort
  | .ub => .ub
  | .diverge => .diverge

/-- src/sized_chunk/mod.rs:200-208 `from_front`; the state is `other`, the result the new chunk. -/
def fromFront (count : Nat) : M (Chunk A) (Chunk A) := withNew do
  let otherLen ← M.onFst (len E)
  M.debugAssert E (count ≤ otherLen)
  forceCopyTo N (← M.onFst getLeft) 0 count
  M.onSnd (setRight count)
  M.onFst (do setLeft (← uadd E (← getLeft) count))

/-- src/sized_chunk/mod.rs:214-222 `from_back`. -/
def fromBack (count : Nat) : M (Chunk A) (Chunk A) := withNew do
  let otherLen ← M.onFst (len E)
  M.debugAssert E (count ≤ otherLen)
  let start ← usub E (← M.onFst getRight) count
  forceCopyTo N start 0 count
  M.onSnd (setRight count)
  M.onFst (do setRight (← usub E (← getRight) count))

/-- src/sized_chunk/mod.rs:170-173 `drain_from`. -/
def drainFrom : M (Chunk A) (Chunk A) := do
  let otherLen ← len E
  fromFront E N otherLen

/-! ### Pushing and popping -/

/-- src/sized_chunk/mod.rs:336-350 `push_front`. -/
def pushFront (value : A) : M (Chunk A) Unit := do
  M.panicIf (← isFull N)
  if (← isEmpty) then
    setLeft N
    setRight N
  else if (← getLeft) = 0 then
    setLeft (← usub E N (← getRight))
    forceCopy N 0 (← getLeft) (← getRight)
    setRight N
  setLeft (← usub E (← getLeft) 1)
  forceWrite N (← getLeft) value

/-- src/sized_chunk/mod.rs:357-371 `push_back`. -/
def pushBack (value : A) : M (Chunk A) Unit := do
  M.panicIf (← isFull N)
  if (← isEmpty) then
    setLeft 0
    setRight 0
  else if (← getRight) = N then
    forceCopy N (← getLeft) 0 (← len E)
    setRight (← usub E N (← getLeft))
    setLeft 0
  forceWrite N (← getRight) value
  setRight (← uadd E (← getRight) 1)

/-- src/sized_chunk/mod.rs:378-386 `pop_front`. -/
def popFront : M (Chunk A) A := do
  if (← isEmpty) then M.panic
  else
    let value ← forceRead N (← getLeft)
    setLeft (← uadd E (← getLeft) 1)
    return value

/-- src/sized_chunk/mod.rs:393-400 `pop_back`. -/
def popBack : M (Chunk A) A := do
  if (← isEmpty) then M.panic
  else
    setRight (← usub E (← getRight) 1)
    forceRead N (← getRight)

/-! ### Dropping parts -/

/-- src/sized_chunk/mod.rs:99-103 `Drop for Chunk`; the state is `(chunk, drop log)`. -/
def drop (dp : A → Bool) : M (Chunk A × List A) Unit := do
  dropSlice dp (← M.onFst (asSlice E N))

/-- src/sized_chunk/mod.rs:407-412 `drop_left`. -/
def dropLeft (dp : A → Bool) (index : Nat) : M (Chunk A × List A) Unit := do
  if index > 0 then
    let l ← M.onFst (asSlice E N)
    M.panicIf (index > l.length)          -- `self[..index]`
    dropSlice dp (l.take index)
    M.onFst (do setLeft (← uadd E (← getLeft) index))
  else pure ()

/-- src/sized_chunk/mod.rs:419-424 `drop_right`. -/
def dropRight (dp : A → Bool) (index : Nat) : M (Chunk A × List A) Unit := do
  if index ≠ (← M.onFst (len E)) then
    let l ← M.onFst (asSlice E N)
    M.panicIf (index > l.length)          -- `self[index..]`
    dropSlice dp (l.drop index)
    M.onFst (do setRight (← uadd E (← getLeft) index))
  else pure ()

/-- src/sized_chunk/mod.rs:675-679 `clear`. -/
def clear (dp : A → Bool) : M (Chunk A × List A) Unit := do
  dropSlice dp (← M.onFst (asSlice E N))
  M.onFst (setLeft 0)
  M.onFst (setRight 0)

/-! ### Moving items between chunks; the state is `(self, other)` -/

/-- src/sized_chunk/mod.rs:433-447 `split_off`; the result is the right-hand chunk. -/
def splitOff (index : Nat) : M (Chunk A) (Chunk A) := do
  M.panicIf (index > (← len E))
  if index = (← len E) then return new
  else withNew do
    let start ← uadd E (← M.onFst getLeft) index
    let n ← usub E (← M.onFst getRight) start
    forceCopyTo N start 0 n
    M.onSnd (setRight n)
    M.onFst (setRight start)

/-- src/sized_chunk/mod.rs:454-469 `append`. -/
def append : M (Chunk A × Chunk A) Unit := do
  let selfLen ← M.onFst (len E)
  let otherLen ← M.onSnd (len E)
  M.panicIf ((← uadd E selfLen otherLen) > N)
  if (← uadd E (← M.onFst getRight) otherLen) > N then
    M.onFst (do
      forceCopy N (← getLeft) 0 selfLen
      setRight (← usub E (← getRight) (← getLeft))
      setLeft 0)
  swapped (forceCopyTo N (← M.onSnd getLeft) (← M.onFst getRight) otherLen)
  M.onFst (do setRight (← uadd E (← getRight) otherLen))
  M.onSnd (setLeft 0)
  M.onSnd (setRight 0)

/-- src/sized_chunk/mod.rs:478-491 `drain_from_front`. -/
def drainFromFront (count : Nat) : M (Chunk A × Chunk A) Unit := do
  let selfLen ← M.onFst (len E)
  let otherLen ← M.onSnd (len E)
  M.assert ((← uadd E selfLen count) ≤ N)
  M.assert (otherLen ≥ count)
  if (← uadd E (← M.onFst getRight) count) > N then
    M.onFst (do
      forceCopy N (← getLeft) 0 selfLen
      setRight (← usub E (← getRight) (← getLeft))
      setLeft 0)
  swapped (forceCopyTo N (← M.onSnd getLeft) (← M.onFst getRight) count)
  M.onFst (do setRight (← uadd E (← getRight) count))
  M.onSnd (do setLeft (← uadd E (← getLeft) count))

/-- src/sized_chunk/mod.rs:500-513 `drain_from_back`. -/
def drainFromBack (count : Nat) : M (Chunk A × Chunk A) Unit := do
  let selfLen ← M.onFst (len E)
  let otherLen ← M.onSnd (len E)
  M.assert ((← uadd E selfLen count) ≤ N)
  M.assert (otherLen ≥ count)
  if (← M.onFst getLeft) < count then
    M.onFst (do
      forceCopy N (← getLeft) (← usub E N selfLen) selfLen
      setLeft (← usub E N selfLen)
      setRight N)
  swapped (forceCopyTo N (← usub E (← M.onSnd getRight) count) (← usub E (← M.onFst getLeft) count) count)
  M.onFst (do setLeft (← usub E (← getLeft) count))
  M.onSnd (do setRight (← usub E (← getRight) count))

/-! ### Point updates -/

/-- src/sized_chunk/mod.rs:708-716 `Index` with a `usize` (slice indexing, panics out of range). -/
def index (i : Nat) : M (Chunk A) A := do
  match (← asSlice E N)[i]? with
  | some a => return a
  | none => M.panic

/-- Writing through `&mut [A]` (src/sized_chunk/mod.rs:691-699 `as_mut_slice`, `DerefMut` 867-869, `iter_mut`,
`IndexMut`): the client replaces the contents of the slice by `f` of them.  A slice cannot change its
length, so `f` must preserve it; if it does not, the call is not expressible and the model leaves
the chunk alone. -/
def mutate (f : List A → List A) : M (Chunk A) Unit := do
  let l ← asSlice E N
  if (f l).length = l.length then
    setMem ((← getMem).putList (← getLeft) (f l))
  else pure ()

/-- src/sized_chunk/mod.rs:520-522 `set`: `replace(&mut self[index], value)` (718-725 `IndexMut`). -/
def set (i : Nat) (value : A) : M (Chunk A) A := do
  match (← asSlice E N)[i]? with
  | none => M.panic
  | some old =>
    forceWrite N ((← getLeft) + i) value
    return old

/-- src/sized_chunk/mod.rs:530-553 `insert`. -/
def insert (i : Nat) (value : A) : M (Chunk A) Unit := do
  M.panicIf (← isFull N)
  M.panicIf (i > (← len E))
  let realIndex ← uadd E i (← getLeft)
  let leftSize := i
  let rightSize ← usub E (← getRight) realIndex
  if (← getRight) = N ∨ ((← getLeft) > 0 ∧ leftSize < rightSize) then
    forceCopy N (← getLeft) (← usub E (← getLeft) 1) leftSize
    forceWrite N (← usub E realIndex 1) value
    setLeft (← usub E (← getLeft) 1)
  else
    forceCopy N realIndex (← uadd E realIndex 1) rightSize
    forceWrite N realIndex value
    setRight (← uadd E (← getRight) 1)

/-- src/sized_chunk/mod.rs:573-584 `insert_ordered`.  `search` stands for `<[A]>::binary_search` of the
standard library (`Ok i` / `Err i`; `none`: a comparison panicked), whose contract is stated where it is needed. -/
def insertOrdered (search : List A → A → Option (Except Nat Nat)) (value : A) : M (Chunk A) Unit := do
  M.panicIf (← isFull N)
  match search (← asSlice E N) value with
  | none => M.panic
  | some (.ok i) => insert E N i value
  | some (.error i) => insert E N i value

/-- src/sized_chunk/mod.rs:649-665 `remove`. -/
def remove (i : Nat) : M (Chunk A) A := do
  M.panicIf (i ≥ (← len E))
  let realIndex ← uadd E i (← getLeft)
  let value ← forceRead N realIndex
  let leftSize := i
  let rightSize ← usub E (← usub E (← getRight) realIndex) 1
  if leftSize < rightSize then
    forceCopy N (← getLeft) (← uadd E (← getLeft) 1) leftSize
    setLeft (← uadd E (← getLeft) 1)
  else
    forceCopy N (← uadd E realIndex 1) realIndex rightSize
    setRight (← usub E (← getRight) 1)
  return value

/-! ### Bulk insertion; the state is `(self, drop log)`, the iterator is owned by the call -/

/-- src/sized_chunk/mod.rs:304-307, the `for value in iter.take(len)` loop of `write_from_iter` (`n` items still
to take, iterator `it`, write index `w`); returns the final `write_index`.  When the loop ends, or
unwinds, the iterator is dropped together with the items it still owns. -/
def writeLoop (dp : A → Bool) : Nat → It A → Nat → M (Chunk A × List A) Nat
  | 0, it, w => do
    dropSlice dp it.owned
    return w
  | _ + 1, [], w => pure w
  | _ + 1, .panic :: r, _ => M.onUnwind M.panic (dropSlice dp (It.owned r))
  | n + 1, .item value :: r, w => do
    M.onFst (forceWrite N w value)
    writeLoop dp n r (← uadd E w 1)

/-- src/sized_chunk/mod.rs:289-315 `write_from_iter`; `len2` is what this (second) call of `iter.len()`
does.  If it panics, or the sum overflows, the iterator is dropped by unwinding. -/
def writeFromIter (dp : A → Bool) (writeIndex : Nat) (len2 : Option Nat) (it : It A) : M (Chunk A × List A) Unit := do
  let left ← M.onFst getLeft
  M.onFst (setLeft 0)
  let right ← M.onFst getRight
  M.onFst (setRight 0)
  let len ← M.onUnwind (M.lenCall len2) (dropSlice dp it.owned)
  let expectedEnd ← M.onUnwind (uadd E writeIndex len) (dropSlice dp it.owned)
  let w ← writeLoop E N dp len it writeIndex
  M.assert (expectedEnd = w)
  M.onFst (setLeft left)
  M.onFst (setRight right)

/-- src/sized_chunk/mod.rs:602-610, the checks of `insert_from`. -/
def insertFromChecks (i insertSize : Nat) : M (Chunk A) Unit := do
  M.panicIf ((← uadd E (← len E) insertSize) > N)
  M.panicIf (i > (← len E))

/-- src/sized_chunk/mod.rs:595-639 `insert_from`; `it.len1`, `it.len2` are what the two calls of
`iter.len()` (line 601 and line 302) do.  If the first one panics, or a check fails, the iterator is dropped by unwinding. -/
def insertFrom (dp : A → Bool) (i : Nat) (it : ExactIt A) : M (Chunk A × List A) Unit := do
  let insertSize ← M.onUnwind (M.lenCall it.len1) (dropSlice dp it.evs.owned)
  M.onUnwind (M.onFst (insertFromChecks E N i insertSize)) (dropSlice dp it.evs.owned)
  let realIndex ← uadd E i (← M.onFst getLeft)
  let leftSize := i
  let rightSize ← usub E (← M.onFst getRight) realIndex
  if (← M.onFst getRight) = N ∨ ((← M.onFst getLeft) ≥ insertSize ∧ leftSize < rightSize) then
    M.onFst (do forceCopy N (← getLeft) (← usub E (← getLeft) insertSize) leftSize)
    let writeIndex ← usub E realIndex insertSize
    writeFromIter E N dp writeIndex it.len2 it.evs
    M.onFst (do setLeft (← usub E (← getLeft) insertSize))
  else if (← M.onFst getLeft) = 0 ∨ (← uadd E (← M.onFst getRight) insertSize) ≤ N then
    M.onFst (do forceCopy N realIndex (← uadd E realIndex insertSize) rightSize)
    let writeIndex := realIndex
    writeFromIter E N dp writeIndex it.len2 it.evs
    M.onFst (do setRight (← uadd E (← getRight) insertSize))
  else
    M.onFst (do
      forceCopy N (← getLeft) 0 leftSize
      forceCopy N realIndex (← uadd E leftSize insertSize) rightSize)
    let writeIndex := leftSize
    writeFromIter E N dp writeIndex it.len2 it.evs
    M.onFst (do setRight (← usub E (← getRight) (← getLeft)))
    M.onFst (do setRight (← uadd E (← getRight) insertSize))
    M.onFst (setLeft 0)

/-! ### Clone, FromIterator, Extend -/

/-- src/sized_chunk/mod.rs:113-119, the loop of `clone` over `self.left..self.right`; the state is `out`, `n`
the number of indices left.  `cl a = none` means that `a.clone()` panics. -/
def cloneLoop (cl : A → Option A) (src : Mem A) : Nat → Nat → M (Chunk A) Unit
  | 0, _ => pure ()
  | n + 1, i => do
    let a ← memRead N src i
    match cl a with
    | none => M.panic
    | some a' =>
      forceWrite N i a'
      setRight (← uadd E i 1)
      cloneLoop cl src n (i + 1)

/-- Run a computation on a chunk and the drop log while other state is carried along. -/
def atFst {σ α : Type} (x : M (Chunk A × List A) α) : M ((Chunk A × σ) × List A) α := fun s =>
  (x (s.1.1, s.2)).mapState (fun p => ((p.1, s.1.2), p.2))

/-- Destructor of a local chunk next to other state. (src/sized_chunk/mod.rs:99-103) -/
def dropLocal {σ : Type} (dp : A → Bool) : M ((Chunk A × σ) × List A) Unit := atFst (drop E N dp)

/-- src/sized_chunk/mod.rs:109-121 `clone`; `out` is a local, dropped if a `clone` of an item panics. -/
def clone (dp : A → Bool) (cl : A → Option A) : M (Chunk A × List A) (Chunk A) := do
  let self ← M.onFst M.get
  let r ← M.withLocal { left := self.left, right := self.left, mem := Mem.uninit }
    (M.onFst (M.onFst (cloneLoop E N cl self.mem (self.right - self.left) self.left)))
    (dropLocal E N dp)
  return r.2

/-- `push_back(value)` as called with an owned value while destructors are tracked: if it panics the
argument is dropped by unwinding.  (src/sized_chunk/mod.rs:357) -/
def pushBackOwned (dp : A → Bool) (value : A) : M (Chunk A × List A) Unit :=
  M.onUnwind (M.onFst (pushBack E N value)) (dropOne dp value)

/-- src/sized_chunk/mod.rs:907-914 and 926-933 `extend` (also the loop of `from_iter`, 878-880).  The
iterator is owned by the loop; if the loop unwinds, the items still in it are dropped. -/
def extend (dp : A → Bool) : It A → M (Chunk A × List A) Unit
  | [] => pure ()
  | .panic :: r => M.onUnwind M.panic (dropSlice dp (It.owned r))
  | .item a :: r => do
    M.onUnwind (pushBackOwned E N dp a) (dropSlice dp (It.owned r))
    extend dp r

/-- src/sized_chunk/mod.rs:873-882 `from_iter`; the partially filled local is dropped on panic. -/
def fromIter (dp : A → Bool) (it : It A) : M (List A) (Chunk A) := fun log => (do
  let r ← M.withLocal (σ := Unit) new (atFst (extend E N dp it)) (dropLocal E N dp)
  return r.2 : M (Unit × List A) (Chunk A)) ((), log) |>.mapState (·.2)

/-- src/sized_chunk/mod.rs:186-192, the loop of `collect_from`; the iterator is borrowed from the caller. -/
def collectLoop (dp : A → Bool) : Nat → M ((Chunk A × It A) × List A) Unit
  | 0 => pure ()
  | count + 1 => do
    match (← M.onFst (M.onSnd itNext)) with
    | none => M.panic
    | some a =>
      atFst (pushBackOwned E N dp a)
      collectLoop dp count

/-- src/sized_chunk/mod.rs:181-194 `collect_from`. -/
def collectFrom (dp : A → Bool) (count : Nat) : M (It A × List A) (Chunk A) := do
  let r ← M.withLocal new (collectLoop E N dp count) (dropLocal E N dp)
  return r.2

/-! ### Iterators -/

/-- src/sized_chunk/iter.rs:12-18 `Iter::next` and 56-62 `Drain::next` (identical bodies; the state is the
owned / borrowed chunk). -/
def iterNext : M (Chunk A) (Option A) := do
  if (← isEmpty) then return none
  else return some (← popFront E N)

/-- src/sized_chunk/iter.rs:26-32 `Iter::next_back` and 73-79 `Drain::next_back`. -/
def iterNextBack : M (Chunk A) (Option A) := do
  if (← isEmpty) then return none
  else return some (← popBack E N)

/-- src/sized_chunk/iter.rs:20-22 and 64-66 `size_hint`: both bounds are `len()`. -/
def sizeHint : M (Chunk A) (Nat × Option Nat) := do
  return ((← len E), some (← len E))

/-! ### std::io (items are bytes in the source; the model is generic) -/

/-- `self.extend(iterator over a borrowed, non-panicking buffer)`: repeated `push_back`
(src/sized_chunk/mod.rs:911-913, 930-932). -/
def extendList : List A → M (Chunk A) Unit
  | [] => pure ()
  | a :: r => do
    pushBack E N a
    extendList r

/-- src/sized_chunk/mod.rs:783-787 `io::Write::write`. -/
def write (buf : List A) : M (Chunk A) Nat := do
  let oldLen ← len E
  extendList E N (buf.take (← usub E N oldLen))
  usub E (← len E) oldLen

/-- src/sized_chunk/mod.rs:801-803, the loop of `read`: the items written to the output buffer. -/
def readLoop : Nat → M (Chunk A) (List A)
  | 0 => pure []
  | n + 1 => do
    let a ← popFront E N
    return a :: (← readLoop n)

/-- src/sized_chunk/mod.rs:796-806 `io::Read::read` with an output buffer of length `bufLen`; the result is
the reported count and the bytes stored in the buffer. -/
def read (bufLen : Nat) : M (Chunk A) (Nat × List A) := do
  let readSize := min bufLen (← len E)
  if readSize = 0 then return (0, [])
  else
    let out ← readLoop E N readSize
    return (readSize, out)

/-! ### Comparison, hashing -/

/-- src/sized_chunk/mod.rs:751-759 `PartialEq<Slice>::eq`; `other` is what `other.borrow()` returns. -/
def eqSlice {B : Type} (eq : A → B → Bool) (other : List B) : M (Chunk A) Bool := do
  return seqEq eq (← asSlice E N) other

/-- src/sized_chunk/mod.rs:751-759 `eq` where the other operand is a chunk (of any capacity `N'`): its `borrow()` is
its `as_slice` (834-838). The state is `(self, other)`. -/
def eqChunk (N' : Nat) (eq : A → A → Bool) : M (Chunk A × Chunk A) Bool := do
  let l ← M.onFst (asSlice E N)
  let k ← M.onSnd (asSlice E N')
  return seqEq eq l k

/-- src/sized_chunk/mod.rs:763-770 `partial_cmp`. -/
def partialCmp (cmp : A → A → Option Ordering) : M (Chunk A × Chunk A) (Option Ordering) := do
  let l ← M.onFst (asSlice E N)
  let k ← M.onSnd (asSlice E N)
  return seqPartialCmp cmp l k

/-- src/sized_chunk/mod.rs:772-779 `cmp`. -/
def cmp (cmp : A → A → Ordering) : M (Chunk A × Chunk A) Ordering := do
  let l ← M.onFst (asSlice E N)
  let k ← M.onSnd (asSlice E N)
  return seqCmp cmp l k

/-- src/sized_chunk/mod.rs:737-749 `hash`: no length prefix. -/
def hash {H : Type} (h : A → List (Feed H)) : M (Chunk A) (List (Feed H)) := do
  return hashItems h (← asSlice E N)

/-- src/sized_chunk/mod.rs:727-735 `Debug::fmt`.  Simplification (here and in the other containers): the formatter does not fail. -/
def fmt : M (Chunk A) (List (Fmt A)) := do
  return [.text "Chunk", .list (← asSlice E N)]

/-! ### refpool -/

/-- src/sized_chunk/refpool.rs:7-15 `default_uninit`: only the two indices are written; `target` is whatever was
in the memory. -/
def defaultUninit (target : Chunk A) : Chunk A := { target with left := 0, right := 0 }

/-- src/sized_chunk/refpool.rs:29-31, the loop of `clone_uninit`; the state is the target. -/
def cloneUninitLoop (cl : A → Option A) (src : Mem A) : Nat → Nat → M (Chunk A) Unit
  | 0, _ => pure ()
  | n + 1, i => do
    let a ← memRead N src i
    match cl a with
    | none => M.panic
    | some a' =>
      forceWrite N i a'
      cloneUninitLoop cl src n (i + 1)

/-- src/sized_chunk/refpool.rs:18-33 `clone_uninit`; the state is `target`, `self` the source. -/
def cloneUninit (cl : A → Option A) (self : Chunk A) : M (Chunk A) Unit := do
  setLeft self.left
  setRight self.right
  cloneUninitLoop N cl self.mem (self.right - self.left) self.left

/-! ### arbitrary -/

/-- The end of `collect::<Result<..>>`: the container, or, after an `Err`, the error, the container being dropped. -/
def arbitraryEnd (dp : A → Bool) (whole : Bool) (c : Chunk A) : M (List A) (Option (Chunk A)) := fun log =>
  if whole then .ok (some c) log
  else ((do drop E N dp; return none : M (Chunk A × List A) (Option (Chunk A))) (c, log)).mapState (·.2)

/-- src/arbitrary.rs:19-25 `u.arbitrary_iter()?.take(CAPACITY).collect()`: `gen` is what the generator yields
(`none` = an `Err`, which `collect::<Result<..>>` returns at once); collecting goes through `from_iter`.
Simplification: `collect` into a `Result` feeds `from_iter` with the items before the first `Err`, and the chunk built so
far is dropped when there is an `Err`; the model returns `none` for it. -/
def arbitrary (dp : A → Bool) (gen : List (Option A)) : M (List A) (Option (Chunk A)) := do
  let taken := gen.take N
  let good := taken.takeWhile Option.isSome
  let c ← fromIter E N dp (It.ofList (good.filterMap id))
  arbitraryEnd E N dp (good.length = taken.length) c

end Chunk
end Verif
