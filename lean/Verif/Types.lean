import Verif.Basic
/-
What the compiler derives from the declarations of the crate's types, without looking at any method: whether they may be sent to, or shared with,
other threads (auto traits), and whether a lifetime or an item type in them may be shortened (variance). For types built from raw pointers and
`MaybeUninit` this is where a wrong declaration would make safe code unsound, whatever the methods do.
-/
namespace Verif.Types

/-- Types, as far as auto traits and variance look at them. `A` is the item type, `T` the host type of an `InlineArray`, `'a` the one lifetime. -/
inductive Ty where
  /-- `usize`, `Bitmap<N>`, `()`: freely sent and shared, mentions no parameter -/
  | plain
  /-- `A` -/
  | item
  /-- `T` -/
  | host
  /-- a struct or tuple of two -/
  | both (s t : Ty)
  /-- `[t; N]`, `MaybeUninit<t>`, `PhantomData<t>`, `Option<t>`, any sequence of `t` -/
  | many (t : Ty)
  /-- `&'a t` -/
  | ref (t : Ty)
  /-- `&'a mut t` -/
  | refMut (t : Ty)
  /-- `*mut t` -/
  | ptrMut (t : Ty)

/-! ### The declarations -/

/-- The public types of the crate. -/
inductive Public where
  | chunk | chunkIter | chunkDrain
  | ring | ringIter | ringIterMut | ringDrain | ringOwnedIter | ringSlice | ringSliceMut
  | sparse | sparseIter | sparseIterMut | sparseDrain | sparseOptionIter | sparseOptionIterMut | sparseOptionDrain
  | inline | inlineIter | inlineDrain
  deriving DecidableEq

/-- src/sized_chunk/mod.rs:93-97: `left`, `right`, `data`. -/
def chunkFields : Ty := .both .plain (.both .plain (.many (.many .item)))
/-- src/ring_buffer/mod.rs:60-64: `origin`, `length`, `data`. -/
def ringFields : Ty := .both .plain (.both .plain (.many (.many .item)))
/-- src/sparse_chunk/mod.rs:51-57: `map`, `data`. -/
def sparseFields : Ty := .both .plain (.many (.many .item))
/-- src/inline_array/mod.rs:77-110: `_header_align`, `_phantom`, `data`. -/
def inlineFields : Ty := .both (.many (.both .plain .plain)) (.both (.many .item) (.many .host))

/-- The fields of the public types. -/
def Public.fields : Public → Ty
  | chunk => chunkFields
  | chunkIter => chunkFields                                              -- src/sized_chunk/iter.rs:6-8
  | chunkDrain => .refMut chunkFields                                     -- src/sized_chunk/iter.rs:46-48
  | ring => ringFields
  | ringIter => .both (.ref ringFields) (.both .plain (.both .plain .plain)) -- src/ring_buffer/iter.rs:12-17
  | ringIterMut => .both (.ptrMut .item) (.both .plain (.both .plain (.both .plain (.many (.ref .plain))))) -- src/ring_buffer/iter.rs:54-60
  | ringDrain => .refMut ringFields                                       -- src/ring_buffer/iter.rs:132-134
  | ringOwnedIter => ringFields                                           -- src/ring_buffer/iter.rs:163-165
  | ringSlice => .both (.ref ringFields) .plain                           -- src/ring_buffer/slice.rs:20-23
  | ringSliceMut => .both (.refMut ringFields) .plain                     -- src/ring_buffer/slice.rs:255-258
  | sparse => sparseFields
  | sparseIter => .both (.ref .plain) (.ref sparseFields)                 -- src/sparse_chunk/iter.rs:6-12; `BitmapIter<'a, N>` borrows a bitmap
  | sparseIterMut => .both .plain (.refMut sparseFields)                  -- src/sparse_chunk/iter.rs:30-36
  | sparseDrain => sparseFields                                           -- src/sparse_chunk/iter.rs:65-70
  | sparseOptionIter => .both .plain (.ref sparseFields)                  -- src/sparse_chunk/iter.rs:92-98
  | sparseOptionIterMut => .both .plain (.refMut sparseFields)            -- src/sparse_chunk/iter.rs:128-134
  | sparseOptionDrain => .both .plain sparseFields                        -- src/sparse_chunk/iter.rs:171-177
  | inline => inlineFields
  | inlineIter => inlineFields                                            -- src/inline_array/iter.rs:6-8
  | inlineDrain => .refMut inlineFields                                   -- src/inline_array/iter.rs:39-41

/-! ### What the compiler derives -/

/-- Which of the parameters are `Send` and `Sync`. -/
structure Marks where
  itemSend : Prop
  itemSync : Prop
  hostSend : Prop
  hostSync : Prop

/-- `t: Sync`, by the rules of the language: `&t` and `&mut t` are if `t` is, raw pointers never are, structures are if their fields are. -/
def Sync (k : Marks) : Ty → Prop
  | .plain => True
  | .item => k.itemSync
  | .host => k.hostSync
  | .both s t => Sync k s ∧ Sync k t
  | .many t => Sync k t
  | .ref t => Sync k t
  | .refMut t => Sync k t
  | .ptrMut _ => False

/-- `t: Send`, by the rules of the language: `&t` is if `t` is `Sync`, `&mut t` if `t` is `Send`, raw pointers never are. -/
def Send (k : Marks) : Ty → Prop
  | .plain => True
  | .item => k.itemSend
  | .host => k.hostSend
  | .both s t => Send k s ∧ Send k t
  | .many t => Send k t
  | .ref t => Sync k t
  | .refMut t => Send k t
  | .ptrMut _ => False

/-- Does `t` mention the item type? -/
def HasItem : Ty → Prop
  | .plain => False
  | .item => True
  | .host => False
  | .both s t => HasItem s ∨ HasItem t
  | .many t | .ref t | .refMut t | .ptrMut t => HasItem t

/-- Does `t` mention the lifetime? -/
def HasLife : Ty → Prop
  | .plain | .item | .host => False
  | .both s t => HasLife s ∨ HasLife t
  | .many t | .ptrMut t => HasLife t
  | .ref _ | .refMut _ => True

/-- Is `t` covariant in the item type? `&t` is if `t` is; `&mut t` and `*mut t` are invariant, so only if `t` does not mention it. -/
def Covariant : Ty → Prop
  | .plain | .item | .host => True
  | .both s t => Covariant s ∧ Covariant t
  | .many t | .ref t => Covariant t
  | .refMut t | .ptrMut t => ¬ HasItem t

/-- Is `t` covariant in the lifetime? -/
def LifeCovariant : Ty → Prop
  | .plain | .item | .host => True
  | .both s t => LifeCovariant s ∧ LifeCovariant t
  | .many t | .ref t => LifeCovariant t
  | .refMut t | .ptrMut t => ¬ HasLife t

/-! ### The specification -/

/-- What access to items a value of the type gives its owner, by its methods. -/
inductive Access where
  /-- it yields items, or `&mut` to them -/
  | exclusive
  /-- it yields `&` to items that others may be looking at too -/
  | shared
  deriving DecidableEq

/-- Only `Iter` of `RingBuffer` and `SparseChunk`, `OptionIter` and `Slice` are limited to `&A`. -/
def Public.access : Public → Access
  | ringIter | ringSlice | sparseIter | sparseOptionIter => .shared
  | _ => .exclusive

/-- Is an `InlineArray`, with its host type, inside? -/
def Public.hosted : Public → Bool
  | inline | inlineIter | inlineDrain => true
  | _ => false

/-- The type of what a value of the type hands out, in terms of safe types. -/
def Public.means : Public → Ty
  | chunk | chunkIter | ring | ringOwnedIter | sparse | sparseDrain | sparseOptionDrain | inline | inlineIter => .many .item
  | chunkDrain | ringDrain | inlineDrain => .refMut (.many .item)
  | ringIter | ringSlice | sparseIter | sparseOptionIter => .many (.ref .item)
  | ringIterMut | ringSliceMut | sparseIterMut | sparseOptionIterMut => .many (.refMut .item)

/-- Values: items (of `V`), addresses, and what is made of them. -/
inductive Val (V : Type) where
  | blank
  | item (v : V)
  | pair (x y : Val V)
  | seq (l : List (Val V))
  | addr (n : Nat)

/-- What has been promised about memory: which values the cell may hold, and until when it is there. -/
structure Promise (V : Type) where
  may : Val V → Prop
  till : Nat

/-- The values of a (safe) type, if items have to satisfy `P` and `'a` ends at `a`. Through `&'a t` the cell is seen to hold a `t`; what may be written
through `&'a mut t` is exactly what the cell may hold. -/
def Means {V : Type} (mem : Nat → Promise V) (P : V → Prop) (a : Nat) : Ty → Val V → Prop
  | .plain, _ => True
  | .item, v => ∃ x, v = .item x ∧ P x
  | .host, _ => True
  | .both s t, v => ∃ x y, v = .pair x y ∧ Means mem P a s x ∧ Means mem P a t y
  | .many t, v => ∃ l, v = .seq l ∧ ∀ x ∈ l, Means mem P a t x
  | .ref t, v => ∃ n, v = .addr n ∧ (∀ x, (mem n).may x → Means mem P a t x) ∧ a ≤ (mem n).till
  | .refMut t, v => ∃ n, v = .addr n ∧ (∀ x, (mem n).may x ↔ Means mem P a t x) ∧ a ≤ (mem n).till
  | .ptrMut _, _ => True

end Verif.Types
