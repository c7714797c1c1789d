import Verif.Cmp
/-
Model of `RingBuffer<A, N>`: src/ring_buffer/mod.rs, index.rs, iter.rs, slice.rs, refpool.rs.

Conventions as for `Chunk`: `E` is the build environment, `N` the capacity; a method taking `&mut self` is an
`M (Ring A)` computation; with a second buffer the state is `(self, other)`; where destructors run the second
component of the state is the drop log.  A `RawIndex<N>` is the `usize` inside it.
-/
namespace Verif

/-- src/ring_buffer/mod.rs:60-64 `struct RingBuffer`. -/
structure Ring (A : Type) where
  origin : Nat
  length : Nat
  mem : Mem A

/-- src/ring_buffer/index.rs:128-132 `IndexIter`, and the index part of `Iter` (iter.rs:12-17) and `IterMut`
(iter.rs:54-60), which have the same three fields. -/
structure IdxIter where
  remaining : Nat
  left : Nat
  right : Nat
deriving DecidableEq

/-- `core::ops::Range<usize>`; also stands for a `Slice`/`SliceMut` over the buffer in the state
(src/ring_buffer/slice.rs:20-23, 255-258). -/
structure Span where
  start : Nat
  stop : Nat
deriving DecidableEq

namespace Ring
variable {A σ : Type} (E : Env) (N : Nat)

/-! ### RawIndex (index.rs) -/

/-- src/ring_buffer/index.rs:45-52 `From<usize> for RawIndex`. -/
def rawFrom (i : Nat) : M σ Nat := do
  M.debugAssert E (i < N)
  return i

/-- src/ring_buffer/index.rs:29-34 `inc`: the incremented index (the returned old index is the argument). -/
def rawInc (i : Nat) : M σ Nat := do
  if i = (← usub E N 1) then return 0 else uadd E i 1

/-- src/ring_buffer/index.rs:38-42 `dec`. -/
def rawDec (i : Nat) : M σ Nat := do
  if i = 0 then usub E N 1 else usub E i 1

/-- src/ring_buffer/index.rs:79-81 and 90-92, `while result >= N { result -= N }`.  The variable decreases at every
turn unless `N = 0`, when it never changes: `result + 1` turns are enough if the loop ends at all. -/
def addLoop : Nat → Nat → M σ Nat
  | 0, _ => M.diverge
  | k + 1, r => do if r ≥ N then addLoop k (← usub E r N) else return r

/-- src/ring_buffer/index.rs:77-83 `Add<usize>`. -/
def rawAdd (i k : Nat) : M σ Nat := do
  let r ← uadd E i k
  rawFrom E N (← addLoop E N (r + 1) r)

/-- src/ring_buffer/index.rs:88-93 `AddAssign<usize>` (no debug assertion): the new value. -/
def rawAddAssign (i k : Nat) : M σ Nat := do
  let r ← uadd E i k
  addLoop E N (r + 1) r

/-- src/ring_buffer/index.rs:111-113 and 121-123, `while other > start { start += N }`.  The loop variable is a `usize`, so a
loop that has not ended after `E.W` turns never ends. -/
def subLoop (k : Nat) : Nat → Nat → M σ Nat
  | 0, _ => M.diverge
  | f + 1, s => do if k > s then subLoop k f (← uadd E s N) else return s

/-- src/ring_buffer/index.rs:109-115 `Sub<usize>`. -/
def rawSub (i k : Nat) : M σ Nat := do
  let s ← subLoop E N k E.W i
  rawFrom E N (← usub E s k)

/-- src/ring_buffer/index.rs:120-125 `SubAssign<usize>`: the new value. -/
def rawSubAssign (i k : Nat) : M σ Nat := do
  let s ← subLoop E N k E.W i
  usub E s k

/-- src/ring_buffer/index.rs:137-144 `IndexIter::next`: the yielded raw index and the iterator afterwards. Also
src/ring_buffer/iter.rs:95-103 `IterMut::next`, which yields a pointer to that slot. -/
def idxNext (it : IdxIter) : M σ (Option (Nat × IdxIter)) := do
  if it.remaining > 0 then
    let rem ← usub E it.remaining 1
    let nxt ← rawInc E N it.left
    return some (it.left, { it with remaining := rem, left := nxt })
  else return none

/-- src/ring_buffer/index.rs:155-162 `IndexIter::next_back`; also src/ring_buffer/iter.rs:116-124 `IterMut::next_back`. -/
def idxNextBack (it : IdxIter) : M σ (Option (Nat × IdxIter)) := do
  if it.remaining > 0 then
    let rem ← usub E it.remaining 1
    let prv ← rawDec E N it.right
    return some (prv, { it with remaining := rem, right := prv })
  else return none

/-- `for i in indices { body }`; `remaining + 1` calls of `next` are enough. -/
def forLoop (body : Nat → M σ Unit) : Nat → IdxIter → M σ Unit
  | 0, _ => M.diverge
  | f + 1, it => do
    match (← idxNext E N it) with
    | none => pure ()
    | some (i, it') =>
      body i
      forLoop body f it'

/-- `for i in indices { body }`. -/
def forIdx (it : IdxIter) (body : Nat → M σ Unit) : M σ Unit := forLoop E N body (it.remaining + 1) it

/-- `indices.take(k)` (std `Take`). -/
def takeIdx (k : Nat) (it : IdxIter) : IdxIter := { it with remaining := min k it.remaining }

/-- `indices.skip(k)` (std `Skip`): the first `k` items are fetched and thrown away. -/
def skipIdx : Nat → IdxIter → M σ IdxIter
  | 0, it => pure it
  | k + 1, it => do
    match (← idxNext E N it) with
    | none => return it
    | some (_, it') => skipIdx k it'

/-! ### Fields -/

/-- Reading the field `origin` (mod.rs:61). -/
def getOrigin : M (Ring A) Nat := fun c => .ok c.origin c
/-- Reading the field `length` (mod.rs:62), which is also `len()` (mod.rs:81-83). -/
def getLen : M (Ring A) Nat := fun c => .ok c.length c
/-- Reading the field `data` (mod.rs:63). -/
def getMem : M (Ring A) (Mem A) := fun c => .ok c.mem c
/-- Assigning the field `origin` (mod.rs:61). -/
def setOrigin (x : Nat) : M (Ring A) Unit := fun c => .ok () { c with origin := x }
/-- Assigning the field `length` (mod.rs:62). -/
def setLen (x : Nat) : M (Ring A) Unit := fun c => .ok () { c with length := x }
/-- Updating the field `data` (mod.rs:63). -/
def setMem (m : Mem A) : M (Ring A) Unit := fun c => .ok () { c with mem := m }

/-! ### Raw access -/

/-- src/ring_buffer/mod.rs:116-118 `raw`. -/
def raw (i : Nat) : M (Ring A) Nat := do rawAdd E N (← getOrigin) i

/-- src/ring_buffer/mod.rs:121-124 `ptr` followed by a read of the slot: `force_read` (140-142), `&*self.ptr(..)`. -/
def forceRead (i : Nat) : M (Ring A) A := do
  M.debugAssert E (i < N)
  memRead N (← getMem) i

/-- src/ring_buffer/mod.rs:146-148 `force_write` (with `mut_ptr`, 127-130). -/
def forceWrite (i : Nat) (value : A) : M (Ring A) Unit := do
  M.debugAssert E (i < N)
  setMem (← memWrite N (← getMem) i value)

/-- src/ring_buffer/mod.rs:134-136 `force_drop`; the state is `(buffer, drop log)`. -/
def forceDrop (dp : A → Bool) (i : Nat) : M (Ring A × List A) Unit := do
  dropOne dp (← M.onFst (forceRead E N i))

/-- src/ring_buffer/mod.rs:159-171 `force_copy_to`; the state is `(target, source)`. -/
def forceCopyTo (frm to count : Nat) : M (Ring A × Ring A) Unit := do
  if count > 0 then
    if E.debug = true then
      M.assert ((← uadd E frm count) ≤ N)
      M.assert ((← uadd E to count) ≤ N)
    M.debugAssert E (frm < N)
    M.debugAssert E (to < N)
    let src ← M.onSnd getMem
    let dst ← M.onFst getMem
    M.onFst (setMem (← memCopy N src frm N dst to count))
  else pure ()

/-- src/ring_buffer/mod.rs:151-186 `copy_from`; the state is `(self, source)`.  The first argument bounds the depth of the
recursion; `count + 2` is enough unless `N = 0`. -/
def copyFromRec : Nat → Nat → Nat → Nat → M (Ring A × Ring A) Unit
  | 0, _, _, _ => M.diverge
  | f + 1, frm, to, count => do
    if (← uadd E frm count) > N then
      let firstLength ← usub E N frm
      let lastLength ← usub E count firstLength
      copyFromRec f frm to firstLength
      copyFromRec f (← rawFrom E N 0) (← rawAdd E N to firstLength) lastLength
    else if (← uadd E to count) > N then
      let firstLength ← usub E N to
      let lastLength ← usub E count firstLength
      forceCopyTo E N frm to firstLength
      forceCopyTo E N (← rawAdd E N frm firstLength) (← rawFrom E N 0) lastLength
    else
      forceCopyTo E N frm to count

/-- src/ring_buffer/mod.rs:151-186 `copy_from`. -/
def copyFrom (frm to count : Nat) : M (Ring A × Ring A) Unit := copyFromRec E N (count + 2) frm to count

/-- `ptr::copy_nonoverlapping` from a slice `src` into the buffer at raw index `to` (via `mut_ptr`). -/
def copySliceTo (src : List A) (to : Nat) : M (Ring A) Unit := do
  M.debugAssert E (to < N)
  if to + src.length ≤ N then setMem ((← getMem).putList to src) else M.ub

/-- src/ring_buffer/mod.rs:190-210 `copy_from_slice`. -/
def copyFromSlice (source : List A) (to : Nat) : M (Ring A) Unit := do
  let count := source.length
  if E.debug = true then
    M.assert ((← uadd E to count) ≤ N)
  if (← uadd E to count) > N then
    let firstLength ← usub E N to
    M.panicIf (firstLength > source.length)        -- `&source[..first_length]`, `&source[first_length..]`
    copySliceTo E N (source.take firstLength) to
    copySliceTo E N (source.drop firstLength) (← rawFrom E N 0)
  else
    copySliceTo E N source to

/-- src/ring_buffer/mod.rs:214-220 `range`. -/
def range : M (Ring A) IdxIter := do
  return { remaining := (← getLen), left := (← getOrigin), right := (← rawAdd E N (← getOrigin) (← getLen)) }

/-! ### Constructors -/

/-- src/ring_buffer/mod.rs:225-231 `new` (and 764-766 `Default`). -/
def new : M σ (Ring A) := do
  return { origin := (← rawFrom E N 0), length := 0, mem := Mem.uninit }

/-- src/ring_buffer/mod.rs:236-247 `unit`.  (Should anything after the assertion panic, the local buffer would be dropped
with an unwritten slot; nothing there can when the capacity is at least one.) -/
def unit (value : A) : M Unit (Ring A) := do
  M.assert (N ≥ 1)
  let o ← rawFrom E N 0
  let i ← rawFrom E N 0
  M.debugAssert E (i < N)
  let m ← memWrite N Mem.uninit i value
  return { origin := o, length := 1, mem := m }

/-- src/ring_buffer/mod.rs:252-264 `pair`. -/
def pair (value1 value2 : A) : M Unit (Ring A) := do
  M.assert (N ≥ 2)
  let o ← rawFrom E N 0
  let i ← rawFrom E N 0
  M.debugAssert E (i < N)
  let m ← memWrite N Mem.uninit i value1
  let j ← rawFrom E N 1
  M.debugAssert E (j < N)
  let m ← memWrite N m j value2
  return { origin := o, length := 2, mem := m }

/-! ### Inspection -/

/-- `HasLength::is_empty` (array_ops: `self.len() == 0`). -/
def isEmpty : M (Ring A) Bool := do return decide ((← getLen) = 0)

/-- src/ring_buffer/mod.rs:319-321 `is_full`. -/
def isFull : M (Ring A) Bool := do return decide ((← getLen) = N)

/-- src/ring_buffer/mod.rs:388-390 `get_unchecked`. -/
def getUnchecked (i : Nat) : M (Ring A) A := do forceRead E N (← raw E N i)

/-- src/ring_buffer/mod.rs:89-95 `get`. -/
def get (i : Nat) : M (Ring A) (Option A) := do
  if i ≥ (← getLen) then return none else return some (← getUnchecked E N i)

/-- src/ring_buffer/mod.rs:789-798 `Index::index`. -/
def index (i : Nat) : M (Ring A) A := do
  M.panicIf (i ≥ (← getLen))
  forceRead E N (← raw E N i)

/-- src/ring_buffer/mod.rs:127-130 `mut_ptr`, made into a `&mut A`: the slot it refers to. -/
def mutPtr (i : Nat) : M (Ring A) Nat := do
  M.debugAssert E (i < N)
  return i

/-- src/ring_buffer/mod.rs:398-400 `get_unchecked_mut`: the slot the `&mut A` refers to. -/
def getUncheckedMut (i : Nat) : M (Ring A) Nat := do mutPtr E N (← raw E N i)

/-- src/ring_buffer/mod.rs:101-107 `get_mut`: the slot the `&mut A` refers to, if there is one. -/
def getMut (i : Nat) : M (Ring A) (Option Nat) := do
  if i ≥ (← getLen) then return none else return some (← getUncheckedMut E N i)

/-- src/ring_buffer/mod.rs:803-812 `IndexMut::index_mut`: the slot the `&mut A` refers to. -/
def indexMut (i : Nat) : M (Ring A) Nat := do
  M.panicIf (i ≥ (← getLen))
  mutPtr E N (← raw E N i)

/-- `mem::replace(r, value)` by the client, where `r` is a `&mut A` to slot `p`: the old item. -/
def swapAt (p : Nat) (value : A) : M (Ring A) A := do
  let m ← getMem
  let old ← memRead N m p
  setMem (← memWrite N m p value)
  return old

/-- `mem::replace` through an optional `&mut A`; if there is none the value is handed back to the caller. -/
def swapIf (r : Option Nat) (value : A) : M (Ring A) A :=
  match r with
  | none => pure value
  | some p => swapAt N p value

/-- `mem::replace(&mut buffer[i], value)` through src/ring_buffer/mod.rs:803-812 `IndexMut::index_mut`: returns the old item. -/
def setIndex (i : Nat) (value : A) : M (Ring A) A := do swapAt N (← indexMut E N i) value

/-- `buffer.get_mut(i).map(|p| mem::replace(p, value))` through src/ring_buffer/mod.rs:101-107 `get_mut`; if there is no such
item the value is handed back to the caller. -/
def replaceGet (i : Nat) (value : A) : M (Ring A) A := do swapIf N (← getMut E N i) value

/-- src/ring_buffer/mod.rs:327-334 `iter`. -/
def iter : M (Ring A) IdxIter := do
  return { left := (← getOrigin), right := (← rawAdd E N (← getOrigin) (← getLen)), remaining := (← getLen) }

/-- src/ring_buffer/iter.rs:22-29 `Iter::next`: the item looked at and the iterator afterwards. -/
def iterNext (it : IdxIter) : M (Ring A) (Option (A × IdxIter)) := do
  if it.remaining = 0 then return none
  else
    let rem ← usub E it.remaining 1
    let nxt ← rawInc E N it.left
    let a ← forceRead E N it.left
    return some (a, { it with remaining := rem, left := nxt })

/-- src/ring_buffer/iter.rs:39-46 `Iter::next_back`. -/
def iterNextBack (it : IdxIter) : M (Ring A) (Option (A × IdxIter)) := do
  if it.remaining = 0 then return none
  else
    let rem ← usub E it.remaining 1
    let prv ← rawDec E N it.right
    let a ← forceRead E N prv
    return some (a, { it with remaining := rem, right := prv })

/-- src/ring_buffer/iter.rs:33-35 `Iter::size_hint` (and 107-109 `IterMut::size_hint`, index.rs:148-150). -/
def iterHint (it : IdxIter) : Nat × Option Nat := (it.remaining, some it.remaining)

/-- Everything an `Iter` yields, by calling `next` until `None`; `remaining + 1` calls are enough. -/
def collectIter : Nat → IdxIter → M (Ring A) (List A)
  | 0, _ => M.diverge
  | f + 1, it => do
    match (← iterNext E N it) with
    | none => return []
    | some (a, it') => return a :: (← collectIter f it')

/-- What the client sees of the contents: `buffer.iter()` run to its end (mod.rs:327-334, iter.rs:22-29). -/
def items : M (Ring A) (List A) := do
  let it ← iter E N
  collectIter E N (it.remaining + 1) it

/-- src/ring_buffer/iter.rs:70-82 `IterMut::new_slice`. -/
def iterMutSlice (origin len : Nat) : M (Ring A) IdxIter := do
  return { left := origin, right := (← rawAdd E N origin len), remaining := len }

/-- src/ring_buffer/iter.rs:66-68 `IterMut::new`, mod.rs:340-342 `iter_mut`. -/
def iterMut : M (Ring A) IdxIter := do iterMutSlice E N (← getOrigin) (← getLen)

/-- Assign through the `&mut A` at slot `p` (which must hold a value). -/
def assignAt (p : Nat) (v : A) : M (Ring A) Unit := do
  let m ← getMem
  let _ ← memRead N m p
  setMem (m.put p v)

/-- Assign the given values through the references `iter_mut` yields, in order (iter.rs:95-103 `IterMut::next`). -/
def assignLoop : List A → IdxIter → M (Ring A) Unit
  | [], _ => pure ()
  | v :: vs, it => do
    match (← idxNext E N it) with
    | none => pure ()
    | some (p, it') =>
      assignAt N p v
      assignLoop vs it'

/-- Writing through `iter_mut`: the client replaces the contents by `f` of them.  It cannot change their number; if `f`
would, this is not a possible action and the model does nothing. -/
def mutate (f : List A → List A) : M (Ring A) Unit := do
  let l ← items E N
  if (f l).length = l.length then assignLoop E N (f l) (← iterMut E N)
  else pure ()

/-! ### Pushing and popping -/

/-- src/ring_buffer/mod.rs:407-414 `push_back`. -/
def pushBack (value : A) : M (Ring A) Unit := do
  if (← isFull N) then M.panic
  else
    forceWrite E N (← raw E N (← getLen)) value
    setLen (← uadd E (← getLen) 1)

/-- src/ring_buffer/mod.rs:421-429 `push_front`. -/
def pushFront (value : A) : M (Ring A) Unit := do
  if (← isFull N) then M.panic
  else
    let origin ← rawDec E N (← getOrigin)
    setOrigin origin
    setLen (← uadd E (← getLen) 1)
    forceWrite E N origin value

/-- src/ring_buffer/mod.rs:436-443 `pop_back` (also `Drain::next_back`, `OwnedIter::next_back`: iter.rs:153-155, 184-186). -/
def popBack : M (Ring A) (Option A) := do
  if (← isEmpty) then return none
  else
    setLen (← usub E (← getLen) 1)
    return some (← forceRead E N (← raw E N (← getLen)))

/-- src/ring_buffer/mod.rs:450-458 `pop_front` (also `Drain::next`, `OwnedIter::next`: iter.rs:140-142, 171-173). -/
def popFront : M (Ring A) (Option A) := do
  if (← isEmpty) then return none
  else
    setLen (← usub E (← getLen) 1)
    let index ← getOrigin
    setOrigin (← rawInc E N index)
    return some (← forceRead E N index)

/-- src/ring_buffer/iter.rs:146-148 and 177-179 `size_hint` of `Drain` and `OwnedIter`. -/
def sizeHint : M (Ring A) (Nat × Option Nat) := do return ((← getLen), some (← getLen))

/-! ### Dropping parts -/

/-- src/ring_buffer/mod.rs:66-75 `Drop`.  Simplification: `needs_drop::<A>()` is taken to be true; for a type without
destructor the loop is skipped, which the client cannot notice when `N > 0`. -/
def drop (dp : A → Bool) : M (Ring A × List A) Unit := do
  forIdx E N (← M.onFst (range E N)) (forceDrop E N dp)

/-- src/ring_buffer/mod.rs:465-476 `drop_left`. -/
def dropLeft (dp : A → Bool) (index : Nat) : M (Ring A × List A) Unit := do
  if index > 0 then
    M.panicIf (index > (← M.onFst getLen))
    forIdx E N (takeIdx index (← M.onFst (range E N))) (forceDrop E N dp)
    M.onFst (do setOrigin (← rawAddAssign E N (← getOrigin) index))
    M.onFst (do setLen (← usub E (← getLen) index))
  else pure ()

/-- src/ring_buffer/mod.rs:483-494 `drop_right`. -/
def dropRight (dp : A → Bool) (index : Nat) : M (Ring A × List A) Unit := do
  M.panicIf (index > (← M.onFst getLen))
  if index = (← M.onFst getLen) then pure ()
  else
    forIdx E N (← skipIdx E N index (← M.onFst (range E N))) (forceDrop E N dp)
    M.onFst (setLen index)

/-- src/ring_buffer/mod.rs:752-758 `clear`. -/
def clear (dp : A → Bool) : M (Ring A × List A) Unit := do
  forIdx E N (← M.onFst (range E N)) (forceDrop E N dp)
  M.onFst (do setOrigin (← rawFrom E N 0))
  M.onFst (setLen 0)

/-- Destructor of a local buffer next to other state (mod.rs:66-75). -/
def dropLocal (dp : A → Bool) : M ((Ring A × σ) × List A) Unit := M.atFst (drop E N dp)

/-! ### Moving items between buffers -/

/-- src/ring_buffer/mod.rs:538-551 `drain_from_front`; the state is `(self, other)`. -/
def drainFromFront (count : Nat) : M (Ring A × Ring A) Unit := do
  let selfLen ← M.onFst getLen
  let otherLen ← M.onSnd getLen
  M.panicIf ((← uadd E selfLen count) > N)
  M.panicIf (otherLen < count)
  let frm ← M.onSnd getOrigin
  let to ← M.onFst (do raw E N (← getLen))
  copyFrom E N frm to count
  M.onSnd (do setOrigin (← rawAddAssign E N (← getOrigin) count))
  M.onSnd (do setLen (← usub E (← getLen) count))
  M.onFst (do setLen (← uadd E (← getLen) count))

/-- src/ring_buffer/mod.rs:560-574 `drain_from_back`; the state is `(self, other)`. -/
def drainFromBack (count : Nat) : M (Ring A × Ring A) Unit := do
  let selfLen ← M.onFst getLen
  let otherLen ← M.onSnd getLen
  M.panicIf ((← uadd E selfLen count) > N)
  M.panicIf (otherLen < count)
  M.onFst (do setOrigin (← rawSubAssign E N (← getOrigin) count))
  let sourceIndex ← M.onSnd (do rawAdd E N (← getOrigin) (← usub E (← getLen) count))
  copyFrom E N sourceIndex (← M.onFst getOrigin) count
  M.onSnd (do setLen (← usub E (← getLen) count))
  M.onFst (do setLen (← uadd E (← getLen) count))

/-- src/ring_buffer/mod.rs:527-529 `append`. -/
def append : M (Ring A × Ring A) Unit := do
  let n ← M.onSnd getLen
  drainFromFront E N n

/-- src/ring_buffer/mod.rs:299-303 `from_front`; the state is `(other, drop log)`, the result the new buffer, a local that is
dropped if the move panics. -/
def fromFront (dp : A → Bool) (count : Nat) : M (Ring A × List A) (Ring A) := do
  let buffer ← new E N
  let r ← M.withLocal buffer (M.onFst (drainFromFront E N count)) (dropLocal E N dp)
  return r.2

/-- src/ring_buffer/mod.rs:310-314 `from_back`. -/
def fromBack (dp : A → Bool) (count : Nat) : M (Ring A × List A) (Ring A) := do
  let buffer ← new E N
  let r ← M.withLocal buffer (M.onFst (drainFromBack E N count)) (dropLocal E N dp)
  return r.2

/-- src/ring_buffer/mod.rs:272-274 `drain_from`. -/
def drainFrom (dp : A → Bool) : M (Ring A × List A) (Ring A) := do
  let n ← M.onFst getLen
  fromFront E N dp n

/-- src/ring_buffer/mod.rs:504-517 `split_off`. -/
def splitOff (dp : A → Bool) (index : Nat) : M (Ring A × List A) (Ring A) := do
  M.panicIf (index > (← M.onFst getLen))
  if index = (← M.onFst getLen) then new E N
  else
    let right ← new E N
    let r ← M.withLocal right (M.onFst (do
      let length ← M.onSnd (do usub E (← getLen) index)
      copyFrom E N (← M.onSnd (raw E N index)) (← rawFrom E N 0) length
      M.onSnd (setLen index)
      M.onFst (setLen length))) (dropLocal E N dp)
    return r.2

/-! ### Insertion and removal -/

/-- src/ring_buffer/mod.rs:601-604 and 674-677, `while i != target { write(i + n, read(i)); i -= 1 }`.  The loop variable is a
`usize`, so a loop that has not ended after `E.W` turns never ends. -/
def shiftUpLoop (n target : Nat) : Nat → Nat → M (Ring A) Unit
  | 0, _ => M.diverge
  | f + 1, i => do
    if i ≠ target then
      let p ← rawAdd E N i n
      forceWrite E N p (← forceRead E N i)
      shiftUpLoop n target f (← rawSubAssign E N i 1)
    else pure ()

/-- src/ring_buffer/mod.rs:598-606 (with `n = 1`) and 671-679 (with `n = insert_size`), the part "shift to the right". -/
def shiftRight (index n : Nat) : M (Ring A) Unit := do
  let i ← raw E N (← usub E (← getLen) 1)
  let target ← raw E N index
  shiftUpLoop E N n target E.W i
  let p ← rawAdd E N target n
  forceWrite E N p (← forceRead E N target)
  setLen (← uadd E (← getLen) n)

/-- src/ring_buffer/mod.rs:608-613 (with `n = 1`) and 681-686 (with `n = insert_size`), the part "shift to the left". -/
def shiftLeft (index n : Nat) : M (Ring A) Unit := do
  setOrigin (← rawSubAssign E N (← getOrigin) n)
  setLen (← uadd E (← getLen) n)
  forIdx E N (takeIdx index (← range E N)) (fun i => do
    let p ← rawAdd E N i n
    forceWrite E N i (← forceRead E N p))

/-- src/ring_buffer/mod.rs:582-616 `insert`. -/
def insert (index : Nat) (value : A) : M (Ring A) Unit := do
  M.panicIf (← isFull N)
  M.panicIf (index > (← getLen))
  if index = 0 then pushFront E N value
  else if index = (← getLen) then pushBack E N value
  else
    let rightCount ← usub E (← getLen) index
    if rightCount < index then shiftRight E N index 1 else shiftLeft E N index 1
    forceWrite E N (← raw E N index) value

/-- src/ring_buffer/mod.rs:626-637 `insert_ordered`.  `search` stands for `binary_search` of `array_ops::Array` on the whole
buffer (`Ok i` / `Err i`; `none`: a comparison panicked), whose contract is stated where it is needed; it only looks at the items. -/
def insertOrdered (search : List A → A → Option (Except Nat Nat)) (value : A) : M (Ring A) Unit := do
  M.panicIf (← isFull N)
  match search (← items E N) value with
  | none => M.panic
  | some (.ok i) => insert E N i value
  | some (.error i) => insert E N i value

/-- `push_back(value)` with an owned value while destructors are tracked: if it panics the argument is dropped by
unwinding.  (src/ring_buffer/mod.rs:407) -/
def pushBackOwned (dp : A → Bool) (value : A) : M (Ring A × List A) Unit :=
  M.onUnwind (M.onFst (pushBack E N value)) (dropOne dp value)

/-- src/ring_buffer/mod.rs:874-878 and 883-887 `extend`.  The iterator is owned by the loop; if the loop unwinds, the items
still in it are dropped. -/
def extend (dp : A → Bool) : It A → M (Ring A × List A) Unit
  | [] => pure ()
  | .panic :: r => M.onUnwind M.panic (dropSlice dp (It.owned r))
  | .item a :: r => do
    M.onUnwind (pushBackOwned E N dp a) (dropSlice dp (It.owned r))
    extend dp r

/-- src/ring_buffer/mod.rs:694-698, `for value in iter.take(insert_size)`: `n` items still to take, raw index `p`, `k` items
inserted so far; returns the final `inserted`.  When the loop ends, or unwinds, the iterator is dropped together with the items
it still owns. -/
def writeLoop (dp : A → Bool) : Nat → It A → Nat → Nat → M (Ring A × List A) Nat
  | 0, it, _, k => do
    dropSlice dp it.owned
    return k
  | _ + 1, [], _, k => pure k
  | _ + 1, .panic :: r, _, _ => M.onUnwind M.panic (dropSlice dp (It.owned r))
  | n + 1, .item value :: r, p, k => do
    M.onFst (forceWrite E N p value)
    writeLoop dp n r (← rawAddAssign E N p 1) (← uadd E k 1)

/-- src/ring_buffer/mod.rs:654-663, the checks of `insert_from`. -/
def insertFromChecks (index insertSize : Nat) : M (Ring A) Unit := do
  M.panicIf ((← uadd E (← getLen) insertSize) > N)
  M.panicIf (index > (← getLen))

/-- src/ring_buffer/mod.rs:688-704, the second half of `insert_from`: fill the gap, pretending to be empty meanwhile. -/
def fillGap (dp : A → Bool) (index insertSize : Nat) (it : It A) : M (Ring A × List A) Unit := do
  let p ← M.onFst (raw E N index)
  let length ← M.onFst getLen
  M.onFst (setLen 0)
  let inserted ← writeLoop E N dp insertSize it p 0
  M.assert (inserted = insertSize)
  M.onFst (setLen length)

/-- src/ring_buffer/mod.rs:648-705 `insert_from`; `len1` is what `iter.len()` does (it is called once).  If it panics, or a check
fails, the iterator is dropped by unwinding.  Simplification: should the shifting itself panic (it cannot, as is proved), the iterator's
items would be dropped too. -/
def insertFrom (dp : A → Bool) (index : Nat) (len1 : Option Nat) (it : It A) : M (Ring A × List A) Unit := do
  let insertSize ← M.onUnwind (M.lenCall len1) (dropSlice dp it.owned)
  M.onUnwind (M.onFst (insertFromChecks E N index insertSize)) (dropSlice dp it.owned)
  if index = (← M.onFst getLen) then extend E N dp it
  else
    let rightCount ← usub E (← M.onFst getLen) index
    if rightCount < index then M.onFst (shiftRight E N index insertSize)
    else M.onFst (shiftLeft E N index insertSize)
    fillGap E N dp index insertSize it

/-- src/ring_buffer/mod.rs:727-730, `while i != target { write(i, read(i + 1)); i += 1 }`. -/
def closeUpLoop (target : Nat) : Nat → Nat → M (Ring A) Unit
  | 0, _ => M.diverge
  | f + 1, i => do
    if i ≠ target then
      let p ← rawAdd E N i 1
      forceWrite E N i (← forceRead E N p)
      closeUpLoop target f (← rawAddAssign E N i 1)
    else pure ()

/-- src/ring_buffer/mod.rs:734-737, `while i != self.origin { write(i, read(i - 1)); i -= 1 }`. -/
def closeDownLoop : Nat → Nat → M (Ring A) Unit
  | 0, _ => M.diverge
  | f + 1, i => do
    if i ≠ (← getOrigin) then
      let p ← rawSub E N i 1
      forceWrite E N i (← forceRead E N p)
      closeDownLoop f (← rawSubAssign E N i 1)
    else pure ()

/-- src/ring_buffer/mod.rs:715-742 `remove`. -/
def remove (index : Nat) : M (Ring A) A := do
  M.panicIf (index ≥ (← getLen))
  let value ← forceRead E N (← raw E N index)
  let rightCount ← usub E (← getLen) index
  if rightCount < index then
    setLen (← usub E (← getLen) 1)
    let i ← raw E N index
    let target ← raw E N (← getLen)
    closeUpLoop E N target E.W i
  else
    let i ← raw E N index
    closeDownLoop E N E.W i
    setOrigin (← rawAddAssign E N (← getOrigin) 1)
    setLen (← usub E (← getLen) 1)
  return value

/-! ### Clone, FromIterator, collect_from -/

/-- src/ring_buffer/mod.rs:777-780, the loop of `clone`; the state is `out`, `src` the memory of `self` (read through `ptr`).
`cl a = none` means that `a.clone()` panics. -/
def cloneBody (cl : A → Option A) (src : Mem A) (i : Nat) : M (Ring A) Unit := do
  M.debugAssert E (i < N)
  match cl (← memRead N src i) with
  | none => M.panic
  | some b =>
    forceWrite E N i b
    setLen (← uadd E (← getLen) 1)

/-- src/ring_buffer/mod.rs:770-782 `clone`; `out` is a local, dropped if a `clone` of an item panics. -/
def clone (dp : A → Bool) (cl : A → Option A) : M (Ring A × List A) (Ring A) := do
  let self ← M.onFst M.get
  let out ← new E N
  let it ← M.onFst (range E N)
  let r ← M.withLocal { out with origin := self.origin, length := 0 }
    (M.onFst (M.onFst (forIdx E N it (cloneBody E N cl self.mem))))
    (dropLocal E N dp)
  return r.2

/-- src/ring_buffer/mod.rs:941-945 `from_iter`; the partially filled local is dropped on panic. -/
def fromIter (dp : A → Bool) (it : It A) : M (List A) (Ring A) := fun log => (do
  let buffer ← M.onUnwind (new E N) (dropSlice dp it.owned)
  let r ← M.withLocal (σ := Unit) buffer (M.atFst (extend E N dp it)) (dropLocal E N dp)
  return r.2 : M (Unit × List A) (Ring A)) ((), log) |>.mapState (·.2)

/-- The `from_iter(iter.take(count))` loop with a borrowed iterator (mod.rs:287, 874-878, 941-945): `count` items still to
take. -/
def takeLoop (dp : A → Bool) : Nat → M ((Ring A × It A) × List A) Unit
  | 0 => pure ()
  | count + 1 => do
    match (← M.onFst (M.onSnd itNext)) with
    | none => pure ()
    | some a =>
      M.atFst (pushBackOwned E N dp a)
      takeLoop dp count

/-- src/ring_buffer/mod.rs:283-292 `collect_from`; the state is `(iterator, drop log)`.  The buffer, still local to `from_iter`
or already to `collect_from`, is dropped on panic. -/
def collectFrom (dp : A → Bool) (count : Nat) : M (It A × List A) (Ring A) := do
  let buffer ← new E N
  let r ← M.withLocal buffer (do
    takeLoop E N dp count
    M.panicIf ((← M.onFst (M.onFst getLen)) < count)) (dropLocal E N dp)
  return r.2

/-! ### std::io (items are bytes in the source; the model is generic) -/

/-- src/ring_buffer/mod.rs:908-916 `io::Write::write`. -/
def write (buf : List A) : M (Ring A) Nat := do
  let maxNew ← usub E N (← getLen)
  let buf := if buf.length > maxNew then buf.take maxNew else buf
  copyFromSlice E N buf (← rawAdd E N (← getOrigin) (← getLen))
  setLen (← uadd E (← getLen) buf.length)
  return buf.length

/-- src/ring_buffer/mod.rs:931-933, the loop of `read`: the items written to the output buffer (`unwrap` panics on `None`). -/
def readLoop : Nat → M (Ring A) (List A)
  | 0 => pure []
  | n + 1 => do
    match (← popFront E N) with
    | none => M.panic
    | some a => return a :: (← readLoop n)

/-- src/ring_buffer/mod.rs:926-936 `io::Read::read` with an output buffer of length `bufLen`. -/
def read (bufLen : Nat) : M (Ring A) (Nat × List A) := do
  let readSize := min bufLen (← getLen)
  if readSize = 0 then return (0, [])
  else
    let out ← readLoop E N readSize
    return (readSize, out)

/-! ### Slices (slice.rs).  `Slice` and `SliceMut` have the same code; the buffer is in the state. -/

/-- src/ring_buffer/mod.rs:347-351, the start computed by `parse_range`. -/
def parseStart (lo : Bound) : M (Ring A) Nat :=
  match lo with
  | .unbounded => pure 0
  | .included i => pure i
  | .excluded _ => M.panic

/-- src/ring_buffer/mod.rs:352-356, the end computed by `parse_range`. -/
def parseStop (hi : Bound) : M (Ring A) Nat :=
  match hi with
  | .unbounded => getLen
  | .included i => uadd E i 1
  | .excluded i => pure i

/-- src/ring_buffer/mod.rs:345-362 `parse_range`, which `slice` (366-371) and `slice_mut` (375-380) wrap. -/
def slice (lo hi : Bound) : M (Ring A) Span := do
  let start ← parseStart lo
  let stop ← parseStop E hi
  M.panicIf (stop > (← getLen) ∨ start > stop)
  return ⟨start, stop⟩

/-- src/ring_buffer/slice.rs:139-147 and 420-428 `From<&RingBuffer>`. -/
def sliceAll : M (Ring A) Span := do return ⟨0, (← getLen)⟩

/-- src/ring_buffer/slice.rs:29-31 and 264-266 `len`. -/
def sliceLen (s : Span) : M (Ring A) Nat := usub E s.stop s.start

/-- src/ring_buffer/slice.rs:54-56, 312-314 `get_unchecked`. -/
def sliceGetUnchecked (s : Span) (i : Nat) : M (Ring A) A := do getUnchecked E N (← uadd E s.start i)

/-- src/ring_buffer/slice.rs:38-44, 273-279 `get`. -/
def sliceGet (s : Span) (i : Nat) : M (Ring A) (Option A) := do
  if i ≥ (← sliceLen E s) then return none else return some (← sliceGetUnchecked E N s i)

/-- src/ring_buffer/slice.rs:322-324 `get_unchecked_mut`: the slot the `&mut A` refers to. -/
def sliceGetUncheckedMut (s : Span) (i : Nat) : M (Ring A) Nat := do getUncheckedMut E N (← uadd E s.start i)

/-- src/ring_buffer/slice.rs:286-292 `get_mut` on a `SliceMut`: the slot the `&mut A` refers to, if there is one. -/
def sliceGetMut (s : Span) (i : Nat) : M (Ring A) (Option Nat) := do
  if i ≥ (← sliceLen E s) then return none else return some (← sliceGetUncheckedMut E N s i)

/-- src/ring_buffer/slice.rs:286-292 `get_mut` on a `SliceMut`, replacing the item. -/
def sliceReplace (s : Span) (i : Nat) (v : A) : M (Ring A) A := do swapIf N (← sliceGetMut E N s i) v

/-- src/ring_buffer/slice.rs:166-168, 444-446 `index`. -/
def sliceIndex (s : Span) (i : Nat) : M (Ring A) A := do index E N (← uadd E s.start i)

/-- src/ring_buffer/slice.rs:452-454 `index_mut`: the slot the `&mut A` refers to. -/
def sliceIndexMut (s : Span) (i : Nat) : M (Ring A) Nat := do indexMut E N (← uadd E s.start i)

/-- src/ring_buffer/slice.rs:452-454 `index_mut`, replacing the item. -/
def sliceSetIndex (s : Span) (i : Nat) (v : A) : M (Ring A) A := do swapAt N (← sliceIndexMut E N s i) v

/-- src/ring_buffer/slice.rs:61-68, 329-336 `iter`. -/
def sliceIter (s : Span) : M (Ring A) IdxIter := do
  let left ← rawAdd E N (← getOrigin) s.start
  let r ← rawAdd E N (← getOrigin) s.start
  let right ← rawAdd E N r (← sliceLen E s)
  return { left := left, right := right, remaining := (← sliceLen E s) }

/-- src/ring_buffer/slice.rs:342-348 `iter_mut`. -/
def sliceIterMut (s : Span) : M (Ring A) IdxIter := do
  iterMutSlice E N (← rawAdd E N (← getOrigin) s.start) (← sliceLen E s)

/-- Everything seen through `slice.iter()` (slice.rs:61-68, iter.rs:22-29). -/
def sliceItems (s : Span) : M (Ring A) (List A) := do
  let it ← sliceIter E N s
  collectIter E N (it.remaining + 1) it

/-- src/ring_buffer/slice.rs:77-81, 358-362, the start of a sub-slice. -/
def subStart (s : Span) (lo : Bound) : M (Ring A) Nat :=
  match lo with
  | .unbounded => pure s.start
  | .included i => uadd E s.start i
  | .excluded _ => M.panic

/-- src/ring_buffer/slice.rs:82-86, 363-367, the end of a sub-slice. -/
def subStop (s : Span) (hi : Bound) : M (Ring A) Nat :=
  match hi with
  | .unbounded => pure s.stop
  | .included i => do uadd E (← uadd E s.start i) 1
  | .excluded i => uadd E s.start i

/-- src/ring_buffer/slice.rs:75-98, 356-379 `slice` of a slice. -/
def subSlice (s : Span) (lo hi : Bound) : M (Ring A) Span := do
  let start ← subStart E s lo
  let stop ← subStop E s hi
  M.panicIf (start < s.start ∨ stop > s.stop ∨ start > stop)
  return ⟨start, stop⟩

/-- src/ring_buffer/slice.rs:102-123, 383-405 `split_at`. -/
def splitAt (s : Span) (i : Nat) : M (Ring A) (Span × Span) := do
  M.panicIf (i > (← sliceLen E s))
  let m ← uadd E s.start i
  return (⟨s.start, m⟩, ⟨m, s.stop⟩)

/-- The client narrows a slice step by step: `slice.slice(lo..hi)` (slice.rs:75-98, 356-379) or one half of `slice.split_at(i)`
(slice.rs:102-123, 383-405). -/
def narrow : List Cut → Span → M (Ring A) Span
  | [], s => pure s
  | .sub lo hi :: r, s => do narrow r (← subSlice E s lo hi)
  | .left i :: r, s => do narrow r (← splitAt E s i).1
  | .right i :: r, s => do narrow r (← splitAt E s i).2

/-- `buffer.slice(lo..hi)` (mod.rs:366-380) narrowed by `cuts`. -/
def sliceVia (lo hi : Bound) (cuts : List Cut) : M (Ring A) Span := do narrow E cuts (← slice E lo hi)

/-- Writing through `iter_mut` of a `SliceMut` (slice.rs:342-348, iter.rs:95-103): as `mutate`. -/
def sliceMutate (s : Span) (f : List A → List A) : M (Ring A) Unit := do
  let l ← sliceItems E N s
  if (f l).length = l.length then assignLoop E N (f l) (← sliceIterMut E N s)
  else pure ()

/-- The `iter().cloned().collect()` loop of `to_owned` (slice.rs:132, 414; mod.rs:874-878); the state is
`((out, self), drop log)`. -/
def ownedLoop (dp : A → Bool) (cl : A → Option A) : Nat → IdxIter → M ((Ring A × Ring A) × List A) Unit
  | 0, _ => M.diverge
  | f + 1, it => do
    match (← M.onFst (M.onSnd (iterNext E N it))) with
    | none => pure ()
    | some (a, it') =>
      match cl a with
      | none => M.panic
      | some b =>
        M.atFst (pushBackOwned E N dp b)
        ownedLoop dp cl f it'

/-- src/ring_buffer/slice.rs:128-133, 410-415 `to_owned`. -/
def sliceToOwned (dp : A → Bool) (cl : A → Option A) (s : Span) : M (Ring A × List A) (Ring A) := do
  let it ← M.onFst (sliceIter E N s)
  let buffer ← new E N
  let r ← M.withLocal buffer (ownedLoop E N dp cl (it.remaining + 1) it) (dropLocal E N dp)
  return r.2

/-! ### Comparison, hashing -/

/-- src/ring_buffer/mod.rs:818-820 `eq` of two buffers; the state is `(self, other)`. -/
def eqRing (eq : A → A → Bool) : M (Ring A × Ring A) Bool := do
  let n ← M.onFst getLen
  let m ← M.onSnd getLen
  let l ← M.onFst (items E N)
  let k ← M.onSnd (items E N)
  return decide (n = m) && seqEq eq l k

/-- src/ring_buffer/mod.rs:830-833 `eq` with anything that borrows as `[A]`. -/
def eqPrim (eq : A → A → Bool) (k : List A) : M (Ring A) Bool := do
  let n ← getLen
  let l ← items E N
  return decide (n = k.length) && seqEq eq l k

/-- src/ring_buffer/slice.rs:200-204, 486-490 `eq` of a slice with anything that borrows as `[A]`. -/
def sliceEqPrim (eq : A → A → Bool) (s : Span) (k : List A) : M (Ring A) Bool := do
  let n ← sliceLen E s
  let l ← sliceItems E N s
  return decide (n = k.length) && seqEq eq l k

/-- src/ring_buffer/mod.rs:840-851 `eq` of a buffer with a slice (`s`) of another one, and slice.rs:190-192, 476-478 the other way
round (with `eq` swapped); the state is `(self, the slice's buffer)`. -/
def eqSlice (eq : A → A → Bool) (s : Span) : M (Ring A × Ring A) Bool := do
  let n ← M.onFst getLen
  let m ← M.onSnd (sliceLen E s)
  let l ← M.onFst (items E N)
  let k ← M.onSnd (sliceItems E N s)
  return decide (n = m) && seqEq eq l k

/-- src/ring_buffer/slice.rs:174-184, 460-470 `eq` of two slices. -/
def eqSlices (eq : A → A → Bool) (s t : Span) : M (Ring A × Ring A) Bool := do
  let n ← M.onFst (sliceLen E s)
  let m ← M.onSnd (sliceLen E t)
  let l ← M.onFst (sliceItems E N s)
  let k ← M.onSnd (sliceItems E N t)
  return decide (n = m) && seqEq eq l k

/-- src/ring_buffer/mod.rs:859-861 `partial_cmp`. -/
def partialCmp (cmp : A → A → Option Ordering) : M (Ring A × Ring A) (Option Ordering) := do
  let l ← M.onFst (items E N)
  let k ← M.onSnd (items E N)
  return seqPartialCmp cmp l k

/-- src/ring_buffer/mod.rs:867-869 `cmp`. -/
def cmp (cmp : A → A → Ordering) : M (Ring A × Ring A) Ordering := do
  let l ← M.onFst (items E N)
  let k ← M.onSnd (items E N)
  return seqCmp cmp l k

/-- src/ring_buffer/slice.rs:212-222, 498-508 `partial_cmp` of slices. -/
def slicePartialCmp (cmp : A → A → Option Ordering) (s t : Span) : M (Ring A × Ring A) (Option Ordering) := do
  let l ← M.onFst (sliceItems E N s)
  let k ← M.onSnd (sliceItems E N t)
  return seqPartialCmp cmp l k

/-- src/ring_buffer/slice.rs:220-222, 506-508 `cmp` of slices. -/
def sliceCmp (cmp : A → A → Ordering) (s t : Span) : M (Ring A × Ring A) Ordering := do
  let l ← M.onFst (sliceItems E N s)
  let k ← M.onSnd (sliceItems E N t)
  return seqCmp cmp l k

/-- src/ring_buffer/mod.rs:899-903 `hash`: no length prefix. -/
def hash {H : Type} (h : A → List (Feed H)) : M (Ring A) (List (Feed H)) := do
  return hashItems h (← items E N)

/-- src/ring_buffer/slice.rs:234-238, 520-524 `hash` of a slice. -/
def sliceHash {H : Type} (h : A → List (Feed H)) (s : Span) : M (Ring A) (List (Feed H)) := do
  return hashItems h (← sliceItems E N s)

/-- src/ring_buffer/mod.rs:890-895 `Debug::fmt`. -/
def fmt : M (Ring A) (List (Fmt A)) := do
  return [.text "RingBuffer", .list (← items E N)]

/-- src/ring_buffer/slice.rs:225-230 and 511-516 `Debug::fmt` of a slice. -/
def sliceFmt (s : Span) : M (Ring A) (List (Fmt A)) := do
  return [.text "RingBuffer", .list (← sliceItems E N s)]

/-! ### refpool -/

/-- src/ring_buffer/refpool.rs:9-15 `default_uninit`: only origin and length are written. -/
def defaultUninit : M (Ring A) Unit := do
  setOrigin (← rawFrom E N 0)
  setLen 0

/-- src/ring_buffer/refpool.rs:30-34, the body of the loop of `clone_uninit`; the state is the target. -/
def cloneUninitBody (cl : A → Option A) (src : Mem A) (i : Nat) : M (Ring A) Unit := do
  M.debugAssert E (i < N)
  match cl (← memRead N src i) with
  | none => M.panic
  | some b => setMem (← memWrite N (← getMem) i b)

/-- src/ring_buffer/refpool.rs:22-35 `clone_uninit`; the state is `target`, `self` the source. -/
def cloneUninit (cl : A → Option A) (self : Ring A) : M (Ring A) Unit := do
  setOrigin self.origin
  setLen self.length
  let right ← rawAdd E N self.origin self.length
  forIdx E N { remaining := self.length, left := self.origin, right := right } (cloneUninitBody E N cl self.mem)

/-! ### arbitrary -/

/-- The end of `collect::<Result<..>>`: the container, or, after an `Err`, the error, the container being dropped. -/
def arbitraryEnd (dp : A → Bool) (whole : Bool) (c : Ring A) : M (List A) (Option (Ring A)) := fun log =>
  if whole then .ok (some c) log
  else ((do drop E N dp; return none : M (Ring A × List A) (Option (Ring A))) (c, log)).mapState (·.2)

/-- src/arbitrary.rs:41-47 `u.arbitrary_iter()?.take(CAPACITY).collect()`: `gen` is what the generator yields (`none` = an `Err`).
Simplification as for `Chunk`. -/
def arbitrary (dp : A → Bool) (gen : List (Option A)) : M (List A) (Option (Ring A)) := do
  let taken := gen.take N
  let good := taken.takeWhile Option.isSome
  let c ← fromIter E N dp (It.ofList (good.filterMap id))
  arbitraryEnd E N dp (good.length = taken.length) c

end Ring
end Verif
