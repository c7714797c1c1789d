import Verif.Chunk.Model
/-
Model of `InlineArray<A, T>` (src/inline_array/mod.rs) and its iterators (src/inline_array/iter.rs), at the level of bytes: the
array is `size_of::<T>()` bytes at some address, into which the code places a `usize` and elements at computed offsets.

Conventions: `E` is the build environment, `L` the layout of the types involved.  A method taking `&mut self` is an
`M (Inline A)` computation; where destructors run the second component of the state is the drop log.
-/
namespace Verif

/-! ### Type layouts -/

/-- Sizes and alignments, as the compiler reports them, of the types an `InlineArray<A, T>` involves
(src/inline_array/mod.rs:107-109, 129-147). -/
structure Layout (A : Type) where
  /-- `size_of::<T>()` -/
  hostSize : Nat
  /-- `align_of::<T>()` -/
  hostAlign : Nat
  /-- `size_of::<A>()` -/
  elemSize : Nat
  /-- `align_of::<A>()` -/
  elemAlign : Nat
  /-- `size_of::<usize>()` -/
  headerSize : Nat
  /-- `align_of::<usize>()` -/
  headerAlign : Nat
  /-- `align_of::<(u64, usize)>()` -/
  pairAlign : Nat
  /-- the value of `A` when `A` is a zero-sized type with a value -/
  zst : Option A

/-- The rules of the Rust reference ("Type layout") the compiler guarantees: alignments are powers of two, a size is a multiple of the
alignment and at most `isize::MAX`, a tuple is at least as aligned as its fields, `usize` is not zero-sized; and a zero-sized type
has at most one value.  (Not code of the crate; the crate relies on it, src/inline_array/mod.rs:78-106.) -/
structure Layout.Valid {A : Type} (E : Env) (L : Layout A) : Prop where
  hostAlign : ∃ k, L.hostAlign = 2 ^ k
  elemAlign : ∃ k, L.elemAlign = 2 ^ k
  headerAlign : ∃ k, L.headerAlign = 2 ^ k
  pairAlign : ∃ k, L.pairAlign = 2 ^ k
  host : L.hostAlign ∣ L.hostSize
  elem : L.elemAlign ∣ L.elemSize
  header : L.headerAlign ∣ L.headerSize
  header_pos : 0 < L.headerSize
  pair : L.headerAlign ≤ L.pairAlign
  host_max : 2 * L.hostSize < E.W
  zst : L.elemSize = 0 → ∀ a : A, L.zst = some a

/-- `n` rounded up to a multiple of `a`. -/
def roundUp (n a : Nat) : Nat := (n + a - 1) / a * a

/-- Rust reference, `repr(C)` structs: the fields `(size, align)` are placed in order, each at the next multiple of its alignment.
Returns the offsets and the end of the last field. -/
def reprC : Nat → List (Nat × Nat) → List Nat × Nat
  | cur, [] => ([], cur)
  | cur, (size, align) :: r =>
    let o := roundUp cur align
    let rest := reprC (o + size) r
    (o :: rest.1, rest.2)

namespace Layout
variable {A : Type} (L : Layout A)
/-- src/inline_array/mod.rs:107-109, the fields `_header_align`, `_phantom`, `data` as `(size, align)`. -/
def fields : List (Nat × Nat) := [(0, L.pairAlign), (0, 1), (L.hostSize, L.hostAlign)]
/-- `align_of::<InlineArray<A, T>>()` (src/inline_array/mod.rs:76-110): the largest alignment of a field. -/
def align : Nat := L.fields.foldl (fun m f => max m f.2) 1
/-- `size_of::<InlineArray<A, T>>()` (src/inline_array/mod.rs:76-110). -/
def size : Nat := roundUp (reprC 0 L.fields).2 L.align
/-- Offset of the field `data` (src/inline_array/mod.rs:109). -/
def dataOffset : Nat := (reprC 0 L.fields).1.getD 2 0
end Layout

/-! ### Bytes -/

/-- One byte of memory: uninitialised, the `k`-th byte of the `usize` `n`, or the `k`-th byte of the element `a`. -/
inductive Byte (A : Type) where
  | uninit
  | len (n k : Nat)
  | elem (a : A) (k : Nat)
deriving DecidableEq

/-- src/inline_array/mod.rs:76-110 `struct InlineArray`: where it is in memory and the bytes of its `data` field. -/
structure Inline (A : Type) where
  addr : Nat
  bytes : Nat → Byte A

/-- Overwrite `n` bytes from offset `off`. -/
def splice {A : Type} (b : Nat → Byte A) (off n : Nat) (f : Nat → Byte A) : Nat → Byte A :=
  fun j => if off ≤ j ∧ j < off + n then f (j - off) else b j

/-- A pointer derived from an inline array: into its bytes at an offset, or `NonNull::<A>::dangling()` (non-null, aligned for `A`, not
pointing to any memory). -/
inductive Ptr where
  | dangling
  | at (off : Nat)
deriving DecidableEq

namespace Inline
variable {A : Type} (E : Env) (L : Layout A)

/-- Is the pointer a multiple of `al`?  (`ptr as usize % al == 0`; a dangling pointer is aligned for the element type, the only type it
is used with.) -/
def isAligned (s : Inline A) (al : Nat) : Ptr → Bool
  | .dangling => true
  | .at off => (s.addr + L.dataOffset + off) % al == 0

/-- `ptr.add(n)` for a pointer to values of `size` bytes: undefined behaviour if the result is outside the `size_of::<T>()` bytes of
`data`. -/
def ptrAdd {σ : Type} (size : Nat) (p : Ptr) (n : Nat) : M σ Ptr :=
  match p with
  | .dangling => if n * size = 0 then pure .dangling else M.ub
  | .at off => if off + n * size ≤ L.hostSize then pure (.at (off + n * size)) else M.ub

/-- Reading a `usize`: undefined behaviour if misaligned, out of bounds, or the bytes are not those of one `usize`. -/
def loadLen (p : Ptr) : M (Inline A) Nat := fun s =>
  match p with
  | .dangling => .ub
  | .at off =>
    if isAligned L s L.headerAlign p = true ∧ off + L.headerSize ≤ L.hostSize then
      match s.bytes off with
      | .len n _ =>
        if (List.range L.headerSize).all (fun k => match s.bytes (off + k) with
          | .len n' k' => n' == n && k' == k
          | _ => false) = true then .ok n s else .ub
      | _ => .ub
    else .ub

/-- Writing a `usize`: undefined behaviour if misaligned or out of bounds. -/
def storeLen (p : Ptr) (n : Nat) : M (Inline A) Unit := fun s =>
  match p with
  | .dangling => .ub
  | .at off =>
    if isAligned L s L.headerAlign p = true ∧ off + L.headerSize ≤ L.hostSize then
      .ok () { s with bytes := splice s.bytes off L.headerSize (.len n) }
    else .ub

/-- Reading an element (`ptr::read`, or dereferencing a reference): undefined behaviour if misaligned, out of bounds, or the bytes are not
those of one element.  Reading a zero-sized element reads no bytes. -/
def loadElem [DecidableEq A] (p : Ptr) : M (Inline A) A := fun s =>
  if isAligned L s L.elemAlign p = true then
    if L.elemSize = 0 then
      match L.zst with
      | some a => .ok a s
      | none => .ub
    else match p with
      | .dangling => .ub
      | .at off =>
        if off + L.elemSize ≤ L.hostSize then
          match s.bytes off with
          | .elem a _ =>
            if (List.range L.elemSize).all (fun k => s.bytes (off + k) == .elem a k) = true then .ok a s else .ub
          | _ => .ub
        else .ub
  else .ub

/-- Writing an element (`ptr::write`): undefined behaviour if misaligned or out of bounds. -/
def storeElem (p : Ptr) (v : A) : M (Inline A) Unit := fun s =>
  if isAligned L s L.elemAlign p = true then
    if L.elemSize = 0 then .ok () s
    else match p with
      | .dangling => .ub
      | .at off =>
        if off + L.elemSize ≤ L.hostSize then
          .ok () { s with bytes := splice s.bytes off L.elemSize (.elem v) }
        else .ub
  else .ub

/-- May `n` elements be accessed at the pointer? (`ptr::copy`, `from_raw_parts`): aligned, and no byte outside `data`. -/
def spanOk (s : Inline A) (p : Ptr) (n : Nat) : Bool :=
  isAligned L s L.elemAlign p && match p with
  | .dangling => n * L.elemSize == 0
  | .at off => decide (off + n * L.elemSize ≤ L.hostSize)

/-- The bytes `ptr::copy(src, dst, n)` leaves in the destination (`memmove`). -/
def copyBytes (src : Nat → Byte A) (p : Ptr) (dst : Nat → Byte A) (q : Ptr) (n : Nat) : Nat → Byte A :=
  match p, q with
  | .at o, .at o' => splice dst o' (n * L.elemSize) (fun k => src (o + k))
  | _, _ => dst

/-- `ptr::copy(src, dst, n)` within one array. -/
def copyWithin (p q : Ptr) (n : Nat) : M (Inline A) Unit := fun s =>
  if spanOk L s p n = true ∧ spanOk L s q n = true then
    .ok () { s with bytes := copyBytes L s.bytes p s.bytes q n }
  else .ub

/-- `ptr::copy(src, dst, n)` from the first array into the second. -/
def copyAcross (p q : Ptr) (n : Nat) : M (Inline A × Inline A) Unit := fun s =>
  if spanOk L s.1 p n = true ∧ spanOk L s.2 q n = true then
    .ok () (s.1, { s.2 with bytes := copyBytes L s.1.bytes p s.2.bytes q n })
  else .ub

/-- Reading `n` consecutive elements. -/
def loadMany [DecidableEq A] (p : Ptr) : Nat → M (Inline A) (List A)
  | 0 => pure []
  | n + 1 => do
    let a ← loadElem L p
    return a :: (← loadMany (← ptrAdd L L.elemSize p 1) n)

/-- `from_raw_parts(ptr, n)` and looking at the slice: all `n` elements must be accessible and initialised. -/
def slice [DecidableEq A] (p : Ptr) (n : Nat) : M (Inline A) (List A) := do
  let s ← M.get
  if spanOk L s p n = true then loadMany L p n else M.ub

/-- Writing consecutive elements. -/
def storeMany (p : Ptr) : List A → M (Inline A) Unit
  | [] => pure ()
  | a :: r => do
    storeElem L p a
    storeMany (← ptrAdd L L.elemSize p 1) r

/-! ### Constants -/

/-- src/inline_array/mod.rs:112-126 `capacity`. -/
def capacity (hostSize headerSize elemSize elemAlign containerAlign : Nat) : Nat :=
  if elemSize = 0 then E.W - 1
  else if elemAlign ≤ containerAlign ∧ hostSize > headerSize then (hostSize - headerSize) / elemSize
  else 0

/-- src/inline_array/mod.rs:141-147 `CAPACITY`. -/
def cap : Nat := capacity E L.hostSize L.headerSize L.elemSize L.elemAlign L.align
/-- src/inline_array/mod.rs:133 `HEADER_FIRST`. -/
def headerFirst : Bool := decide (L.headerAlign ≥ L.elemAlign)
/-- src/inline_array/mod.rs:136 `ELEMENT_SKIP`. -/
def elementSkip : Nat := if headerFirst L = true then 1 else 0
/-- src/inline_array/mod.rs:138 `HEADER_SKIP`. -/
def headerSkip : Nat := cap E L * (1 - elementSkip L)

/-! ### Pointers -/

/-- src/inline_array/mod.rs:149-160 `len_const` and 162-173 `len_mut` (the same address). -/
def lenPtr : M (Inline A) Ptr := do
  let p ← ptrAdd L L.elemSize (.at 0) (headerSkip E L)
  let s ← M.get
  M.debugAssert E (isAligned L s L.headerAlign p = true)
  return p

/-- src/inline_array/mod.rs:175-189 `data` and 191-205 `data_mut` (the same address). -/
def dataPtr : M (Inline A) Ptr := do
  if cap E L = 0 then return .dangling
  else
    let p ← ptrAdd L L.headerSize (.at 0) (elementSkip L)
    let s ← M.get
    M.debugAssert E (isAligned L s L.elemAlign p = true)
    return p

/-- src/inline_array/mod.rs:207-212 `ptr_at` and 214-219 `ptr_at_mut`. -/
def ptrAt (index : Nat) : M (Inline A) Ptr := do
  M.debugAssert E (index < cap E L)
  ptrAdd L L.elemSize (← dataPtr E L) index

/-- src/inline_array/mod.rs:221-224 `read_at`. -/
def readAt [DecidableEq A] (index : Nat) : M (Inline A) A := do loadElem L (← ptrAt E L index)

/-- src/inline_array/mod.rs:226-229 `write_at`. -/
def writeAt (index : Nat) (value : A) : M (Inline A) Unit := do storeElem L (← ptrAt E L index) value

/-! ### The public operations -/

/-- src/inline_array/mod.rs:231-236 `len`. -/
def len : M (Inline A) Nat := do loadLen L (← lenPtr E L)

/-- `*self.len_mut() = n` (src/inline_array/mod.rs:381, 382, 399, 436). -/
def setLen (n : Nat) : M (Inline A) Unit := do storeLen L (← lenPtr E L) n

/-- `*self.len_mut() += 1` (src/inline_array/mod.rs:304, 341). -/
def incLen : M (Inline A) Unit := do
  let p ← lenPtr E L
  storeLen L p (← uadd E (← loadLen L p) 1)

/-- `*self.len_mut() -= 1` (src/inline_array/mod.rs:318, 359). -/
def decLen : M (Inline A) Unit := do
  let p ← lenPtr E L
  storeLen L p (← usub E (← loadLen L p) 1)

/-- src/inline_array/mod.rs:238-243 `is_empty`. -/
def isEmpty : M (Inline A) Bool := do return decide ((← len E L) = 0)

/-- src/inline_array/mod.rs:245-250 `is_full`. -/
def isFull : M (Inline A) Bool := do return decide ((← len E L) ≥ cap E L)

/-- src/inline_array/mod.rs:273-289, the part of `new` after the local `self_` was made. -/
def newBody : M (Inline A) Unit := do
  let s ← M.get
  M.assert (s.addr = s.addr + L.dataOffset)
  M.assert ((s.addr + L.dataOffset) % L.headerAlign = 0)
  M.assert (L.size = L.hostSize ∨ L.hostAlign < L.align)
  let p ← dataPtr E L
  M.assert (isAligned L s L.elemAlign p = true)
  let p ← dataPtr E L
  M.assert (isAligned L s L.elemAlign p = true)
  M.assert (elementSkip L = 0 ∨ headerSkip E L = 0)
  storeLen L (← lenPtr E L) 0

/-- src/inline_array/mod.rs:260-291 `new` (and 415-419 `Default`).  The compiler places the value at a multiple of its alignment: at `k`
times the alignment, for any `k`.  If an assertion failed after the local was made, unwinding would drop it and read its uninitialised
length: undefined behaviour. -/
def new (k : Nat) : M Unit (Inline A) := fun _ =>
  if L.hostSize > L.headerSize then
    if cap E L = 0 ∨ L.align % L.elemAlign = 0 then
      match newBody E L { addr := k * L.align, bytes := fun _ => .uninit } with
      | .ok _ s => .ok s ()
      | .panic _ => .ub
      | .abort => .abort
      | .ub => .ub
      | .diverge => .diverge
    else .panic ()
  else .panic ()

/-- Moving the array (passing it, returning it, storing it somewhere): its bytes are copied to another aligned address.  (Not a function of
the crate: any safe program does it.) -/
def moveTo (k : Nat) : M (Inline A) Unit := fun s => .ok () { s with addr := k * L.align }

/-- src/inline_array/mod.rs:298-306 `push`. -/
def push (value : A) : M (Inline A) Unit := do
  M.panicIf (← isFull E L)
  writeAt E L (← len E L) value
  incLen E L

/-- src/inline_array/mod.rs:313-322 `pop`. -/
def pop [DecidableEq A] : M (Inline A) (Option A) := do
  if (← isEmpty E L) then return none
  else
    decLen E L
    return some (← readAt E L (← len E L))

/-- src/inline_array/mod.rs:330-343 `insert`. -/
def insert (index : Nat) (value : A) : M (Inline A) Unit := do
  M.panicIf (← isFull E L)
  M.panicIf (index > (← len E L))
  let src ← ptrAt E L index
  copyWithin L src (← ptrAdd L L.elemSize src 1) (← usub E (← len E L) index)
  storeElem L src value
  incLen E L

/-- src/inline_array/mod.rs:352-364 `remove`. -/
def remove [DecidableEq A] (index : Nat) : M (Inline A) (Option A) := do
  if index ≥ (← len E L) then return none
  else
    let src ← ptrAt E L index
    let value ← loadElem L src
    decLen E L
    copyWithin L (← ptrAdd L L.elemSize src 1) src (← usub E (← len E L) index)
    return some value

/-- src/inline_array/mod.rs:380-382, the moving part of `split_off`; the state is `(self, out)`. -/
def splitOffMove (index : Nat) : M (Inline A × Inline A) Unit := do
  let p ← M.onFst (ptrAt E L index)
  let q ← M.onSnd (dataPtr E L)
  let n ← M.onFst (do usub E (← len E L) index)
  copyAcross L p q n
  M.onSnd (setLen E L (← M.onFst (do usub E (← len E L) index)))
  M.onFst (setLen E L index)

/-- Run a two-array computation whose second array is the local `out` (its length is 0 until everything has been moved into it, so
nothing is dropped with it by unwinding), returning the local. -/
def withOut (out : Inline A) (x : M (Inline A × Inline A) Unit) : M (Inline A) (Inline A) := fun s =>
  match x (s, out) with
  | .ok _ t => .ok t.2 t.1
  | .panic t => .panic t.1
  | .abort => .abort
  | .ub => .ub
  | .diverge => .diverge

/-- A constructor call inside a method. -/
def make {σ : Type} (x : M Unit (Inline A)) : M σ (Inline A) := fun s => (x ()).mapState (fun _ => s)

/-- src/inline_array/mod.rs:373-386 `split_off`; the new array is made at `k` times the alignment. -/
def splitOff (k index : Nat) : M (Inline A) (Inline A) := do
  M.panicIf (index > (← len E L))
  let out ← make (new E L k)
  if index < (← len E L) then withOut out (splitOffMove E L index)
  else return out

/-- src/inline_array/mod.rs:442-447 `deref`, 449-453 `deref_mut`: the slice of the contents (also `borrow`, `as_ref`, `iter`:
455-477, 553-567). -/
def items [DecidableEq A] : M (Inline A) (List A) := do
  slice L (← dataPtr E L) (← len E L)

/-- src/inline_array/mod.rs:388-391 `drop_contents` and 409-413 `Drop`; the state is `(array, drop log)`. -/
def drop [DecidableEq A] (dp : A → Bool) : M (Inline A × List A) Unit := do
  dropSlice dp (← M.onFst (items E L))

/-- src/inline_array/mod.rs:396-401 `clear`. -/
def clear [DecidableEq A] (dp : A → Bool) : M (Inline A × List A) Unit := do
  drop E L dp
  M.onFst (setLen E L 0)

/-- Slice indexing through `Deref` (src/inline_array/mod.rs:442-447): panics out of range. -/
def index [DecidableEq A] (i : Nat) : M (Inline A) A := do
  match (← items E L)[i]? with
  | some a => return a
  | none => M.panic

/-- `<[A]>::get` through `Deref` (src/inline_array/mod.rs:442-447). -/
def get [DecidableEq A] (i : Nat) : M (Inline A) (Option A) := do return (← items E L)[i]?

/-- Writing through `&mut [A]` (src/inline_array/mod.rs:449-453 `deref_mut`, 461-465, 473-477, 561-567): the client replaces the contents
of the slice by `f` of them.  A slice cannot change its length, so `f` must preserve it; if it does not, the call is not expressible
and the model leaves the array alone. -/
def mutate [DecidableEq A] (f : List A → List A) : M (Inline A) Unit := do
  let l ← items E L
  if (f l).length = l.length then storeMany L (← dataPtr E L) (f l)
  else pure ()

/-- `mem::replace(&mut array[i], value)` through `DerefMut` (src/inline_array/mod.rs:449-453): panics out of range. -/
def set [DecidableEq A] (i : Nat) (value : A) : M (Inline A) A := do
  let old ← index E L i
  storeElem L (← ptrAdd L L.elemSize (← dataPtr E L) i) value
  return old

/-! ### Clone, FromIterator, Extend -/

/-- One element of the source during `clone`: `self.get_unchecked(i)` goes through `deref` (src/inline_array/mod.rs:432). -/
def itemAt [DecidableEq A] (i : Nat) : M (Inline A) A := do
  match (← items E L)[i]? with
  | some a => return a
  | none => M.ub

/-- `clone` of one element: `cl a = none` means that it panics. -/
def cloneOne {σ : Type} (cl : A → Option A) (a : A) : M σ A :=
  match cl a with
  | some b => pure b
  | none => M.panic

/-- src/inline_array/mod.rs:430-434, the loop of `clone` over `i..i + n`; the state is `(copy, self)`. -/
def cloneLoop [DecidableEq A] (cl : A → Option A) : Nat → Nat → M (Inline A × Inline A) Unit
  | 0, _ => pure ()
  | n + 1, i => do
    let a ← M.onSnd (itemAt E L i)
    let b ← cloneOne cl a
    M.onFst (writeAt E L i b)
    cloneLoop cl n (i + 1)

/-- src/inline_array/mod.rs:424-440 `clone`; `copy` is a local whose length stays 0 until all clones are made.  The state is
`(self, drop log)`. -/
def clone [DecidableEq A] (dp : A → Bool) (cl : A → Option A) (k : Nat) : M (Inline A × List A) (Inline A) := do
  let copy ← make (new E L k)
  let r ← M.withLocal copy
    (M.onFst (do
      cloneLoop E L cl (← M.onSnd (len E L)) 0
      M.onFst (setLen E L (← M.onSnd (len E L)))))
    (M.atFst (drop E L dp))
  return r.2

/-- `push(value)` with an owned value while destructors are tracked: if it panics the argument is dropped by unwinding.
(src/inline_array/mod.rs:298) -/
def pushOwned (dp : A → Bool) (value : A) : M (Inline A × List A) Unit :=
  M.onUnwind (M.onFst (push E L value)) (dropOne dp value)

/-- src/inline_array/mod.rs:575-582, 594-601 `extend` (also the loop of `from_iter`, 546-548).  The iterator is owned by the loop; if the
loop unwinds, the items still in it are dropped. -/
def extend (dp : A → Bool) : It A → M (Inline A × List A) Unit
  | [] => pure ()
  | .panic :: r => M.onUnwind M.panic (dropSlice dp (It.owned r))
  | .item a :: r => do
    M.onUnwind (pushOwned E L dp a) (dropSlice dp (It.owned r))
    extend dp r

/-- src/inline_array/mod.rs:540-551 `from_iter`; if `new` panics the iterator is dropped, if the loop panics the partially filled local
is. -/
def fromIter [DecidableEq A] (dp : A → Bool) (k : Nat) (it : It A) : M (List A) (Inline A) := fun log => (do
  let chunk ← M.onUnwind (make (new E L k)) (dropSlice dp it.owned)
  let r ← M.withLocal (σ := Unit) chunk (M.atFst (extend E L dp it)) (M.atFst (drop E L dp))
  return r.2 : M (Unit × List A) (Inline A)) ((), log) |>.mapState (·.2)

/-! ### Iterators -/

/-- src/inline_array/iter.rs:13-15 `Iter::next` and 46-48 `Drain::next`. -/
def iterNext [DecidableEq A] : M (Inline A) (Option A) := remove E L 0

/-- src/inline_array/iter.rs:23-25 `Iter::next_back` and 56-58 `Drain::next_back`. -/
def iterNextBack [DecidableEq A] : M (Inline A) (Option A) := pop E L

/-- src/inline_array/iter.rs:17-19 and 50-52 `size_hint`. -/
def sizeHint : M (Inline A) (Nat × Option Nat) := do return ((← len E L), some (← len E L))

/-! ### Comparison, hashing -/

/-- src/inline_array/mod.rs:478-486 `PartialEq<Slice>::eq`; `other` is what `other.borrow()` returns. -/
def eqSlice [DecidableEq A] {B : Type} (eq : A → B → Bool) (other : List B) : M (Inline A) Bool := do
  return seqEq eq (← items E L) other

/-- src/inline_array/mod.rs:490-497 `partial_cmp`; the state is `(self, other)`. -/
def partialCmp [DecidableEq A] (cmp : A → A → Option Ordering) : M (Inline A × Inline A) (Option Ordering) := do
  let l ← M.onFst (items E L)
  let k ← M.onSnd (items E L)
  return seqPartialCmp cmp l k

/-- src/inline_array/mod.rs:499-506 `cmp`. -/
def cmp [DecidableEq A] (cmp : A → A → Ordering) : M (Inline A × Inline A) Ordering := do
  let l ← M.onFst (items E L)
  let k ← M.onSnd (items E L)
  return seqCmp cmp l k

/-- src/inline_array/mod.rs:518-530 `hash`: the items in order, no length prefix. -/
def hash [DecidableEq A] {H : Type} (h : A → List (Feed H)) : M (Inline A) (List (Feed H)) := do
  return hashItems h (← items E L)

/-- src/inline_array/mod.rs:478-486 `eq` where the other operand is an array, too (perhaps in another host, `L'`): its `borrow()` is its slice.
The state is `(self, other)`. -/
def eqInline [DecidableEq A] (L' : Layout A) (eq : A → A → Bool) : M (Inline A × Inline A) Bool := do
  let l ← M.onFst (items E L)
  let k ← M.onSnd (items E L')
  return seqEq eq l k

/-- src/inline_array/mod.rs:508-516 `Debug::fmt`. -/
def fmt [DecidableEq A] : M (Inline A) (List (Fmt A)) := do
  return [.text "Chunk", .list (← items E L)]

/-! ### Conversion into a chunk -/

/-- src/sized_chunk/mod.rs:823-830, the part of `From<&mut InlineArray>` after the assertion; `N` is the capacity of the chunk.
Simplification: the bytes of the elements are copied as elements (`from_raw_parts`), so copying uninitialised bytes would count as
undefined behaviour. -/
def toChunkMove [DecidableEq A] (N : Nat) : M (Inline A) (Chunk A) := do
  let n ← len E L
  let l ← slice L (← dataPtr E L) n
  if l.length ≤ N then
    setLen E L 0
    return { left := 0, right := n, mem := Mem.uninit.putList 0 l }
  else M.ub

/-- src/sized_chunk/mod.rs:816-832 `From<&mut InlineArray<A, T>> for Chunk<A, N>`. -/
def toChunk [DecidableEq A] (N : Nat) : M (Inline A) (Chunk A) := do
  M.assert (cap E L ≤ N ∨ (← len E L) ≤ N)
  toChunkMove E L N

/-- src/sized_chunk/mod.rs:809-814 `From<InlineArray<A, T>> for Chunk<A, N>`: the array is owned by the call and dropped when it returns or
panics; the state is `(array, drop log)`. -/
def intoChunk [DecidableEq A] (dp : A → Bool) (N : Nat) : M (Inline A × List A) (Chunk A) := do
  let c ← M.onUnwind (M.onFst (toChunk E L N)) (drop E L dp)
  drop E L dp
  return c

/-! ### arbitrary -/

/-- The end of `collect::<Result<..>>`: the container, or, after an `Err`, the error, the container being dropped. -/
def arbitraryEnd [DecidableEq A] (dp : A → Bool) (whole : Bool) (c : Inline A) : M (List A) (Option (Inline A)) := fun log =>
  if whole then .ok (some c) log
  else ((do drop E L dp; return none : M (Inline A × List A) (Option (Inline A))) (c, log)).mapState (·.2)

/-- src/arbitrary.rs:84-90 `u.arbitrary_iter()?.take(CAPACITY).collect()`, as in `Chunk.arbitrary`. -/
def arbitrary [DecidableEq A] (dp : A → Bool) (k : Nat) (gen : List (Option A)) : M (List A) (Option (Inline A)) := do
  let taken := gen.take (cap E L)
  let good := taken.takeWhile Option.isSome
  let c ← fromIter E L dp k (It.ofList (good.filterMap id))
  arbitraryEnd E L dp (good.length = taken.length) c

end Inline
end Verif
