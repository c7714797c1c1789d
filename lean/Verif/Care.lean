import Verif.Chunk.Model
import Verif.Ring.Model
import Verif.Sparse.Model
import Verif.Inline.Model
/-
Cloning and destroying when the elements' own `clone` and destructor have effects.

In the container models the destructor of an element is a log entry and perhaps a panic, and `clone` a pure function that may panic.  Here both are any
programs on a state `τ` of the user's: they can count, keep a registry, panic the third time they are called, and so on.  The methods which
clone or destroy are modelled again, calling them.
-/
namespace Verif
variable {A σ τ α : Type}

/-- What the element type's `Clone::clone` and `Drop::drop` do. -/
structure Elem (τ A : Type) where
  clone : A → M τ A
  drop : A → M τ Unit

/-- Destroying the items one by one, stopping where a destructor panics. -/
def Elem.dropEach (el : Elem τ A) : List A → M τ Unit
  | [] => pure ()
  | a :: r => do
    el.drop a
    el.dropEach r

/-- `ptr::drop_in_place::<[A]>` (compiler-generated): destroys the items in order.  If one destructor panics the others still run, and the panic goes on
afterwards; if a second one panics the process aborts, there and then. -/
def Elem.dropSlice (el : Elem τ A) : List A → M τ Unit
  | [] => pure ()
  | a :: r => do
    M.onUnwind (el.drop a) (el.dropEach r)
    el.dropSlice r

namespace Chunk
variable (E : Env) (N : Nat) (el : Elem τ A)

/-- src/sized_chunk/mod.rs:99-103 `Drop`. -/
def dropBy : M (Chunk A × τ) Unit := do
  M.onSnd (el.dropSlice (← M.onFst (asSlice E N)))

/-- src/sized_chunk/mod.rs:407-412 `drop_left`. -/
def dropLeftBy (index : Nat) : M (Chunk A × τ) Unit := do
  if index > 0 then
    let l ← M.onFst (asSlice E N)
    M.panicIf (index > l.length)
    M.onSnd (el.dropSlice (l.take index))
    M.onFst (do setLeft (← uadd E (← getLeft) index))
  else pure ()

/-- src/sized_chunk/mod.rs:419-424 `drop_right`. -/
def dropRightBy (index : Nat) : M (Chunk A × τ) Unit := do
  if index ≠ (← M.onFst (len E)) then
    let l ← M.onFst (asSlice E N)
    M.panicIf (index > l.length)
    M.onSnd (el.dropSlice (l.drop index))
    M.onFst (do setRight (← uadd E (← getLeft) index))
  else pure ()

/-- src/sized_chunk/mod.rs:675-679 `clear`. -/
def clearBy : M (Chunk A × τ) Unit := do
  M.onSnd (el.dropSlice (← M.onFst (asSlice E N)))
  M.onFst (setLeft 0)
  M.onFst (setRight 0)

/-- src/sized_chunk/mod.rs:113-119, the loop of `clone` over `self.left..self.right`; the state is `out` and the user's. -/
def cloneLoopBy (src : Mem A) : Nat → Nat → M (Chunk A × τ) Unit
  | 0, _ => pure ()
  | n + 1, i => do
    let a ← memRead N src i
    let b ← M.onSnd (el.clone a)
    M.onFst (forceWrite N i b)
    M.onFst (do setRight (← uadd E i 1))
    cloneLoopBy src n (i + 1)

/-- src/sized_chunk/mod.rs:109-121 `clone`; `out` is a local, dropped if a `clone` of an item panics. -/
def cloneBy : M (Chunk A × τ) (Chunk A) := do
  let self ← M.onFst M.get
  let r ← M.withLocal { left := self.left, right := self.left, mem := Mem.uninit }
    (M.atFst (cloneLoopBy E N el self.mem (self.right - self.left) self.left))
    (M.atFst (dropBy E N el))
  return r.2

end Chunk

namespace Ring
variable (E : Env) (N : Nat) (el : Elem τ A)

/-- src/ring_buffer/mod.rs:134-136 `force_drop`. -/
def forceDropBy (i : Nat) : M (Ring A × τ) Unit := do
  M.onSnd (el.drop (← M.onFst (forceRead E N i)))

/-- src/ring_buffer/mod.rs:66-75 `Drop`. -/
def dropBy : M (Ring A × τ) Unit := do
  forIdx E N (← M.onFst (range E N)) (forceDropBy E N el)

/-- src/ring_buffer/mod.rs:465-476 `drop_left`. -/
def dropLeftBy (index : Nat) : M (Ring A × τ) Unit := do
  if index > 0 then
    M.panicIf (index > (← M.onFst getLen))
    forIdx E N (takeIdx index (← M.onFst (range E N))) (forceDropBy E N el)
    M.onFst (do setOrigin (← rawAddAssign E N (← getOrigin) index))
    M.onFst (do setLen (← usub E (← getLen) index))
  else pure ()

/-- src/ring_buffer/mod.rs:483-494 `drop_right`. -/
def dropRightBy (index : Nat) : M (Ring A × τ) Unit := do
  M.panicIf (index > (← M.onFst getLen))
  if index = (← M.onFst getLen) then pure ()
  else
    forIdx E N (← skipIdx E N index (← M.onFst (range E N))) (forceDropBy E N el)
    M.onFst (setLen index)

/-- src/ring_buffer/mod.rs:752-758 `clear`. -/
def clearBy : M (Ring A × τ) Unit := do
  forIdx E N (← M.onFst (range E N)) (forceDropBy E N el)
  M.onFst (do setOrigin (← rawFrom E N 0))
  M.onFst (setLen 0)

/-- src/ring_buffer/mod.rs:777-780, the body of the loop of `clone`; the state is `out` and the user's. -/
def cloneBodyBy (src : Mem A) (i : Nat) : M (Ring A × τ) Unit := do
  M.debugAssert E (i < N)
  let b ← M.onSnd (el.clone (← memRead N src i))
  M.onFst (forceWrite E N i b)
  M.onFst (do setLen (← uadd E (← getLen) 1))

/-- src/ring_buffer/mod.rs:770-782 `clone`; `out` is a local, dropped if a `clone` of an item panics. -/
def cloneBy : M (Ring A × τ) (Ring A) := do
  let self ← M.onFst M.get
  let out ← new E N
  let it ← M.onFst (range E N)
  let r ← M.withLocal { out with origin := self.origin, length := 0 }
    (M.atFst (forIdx E N it (cloneBodyBy E N el self.mem)))
    (M.atFst (dropBy E N el))
  return r.2

end Ring

namespace Sparse
variable (N : Nat) (el : Elem τ A)

/-- `ptr::drop_in_place(&mut self.values_mut()[index])` (src/sparse_chunk/mod.rs:67). -/
def dropAtBy (i : Nat) : M (Sparse A × τ) Unit := do
  M.onSnd (el.drop (← M.onFst (forceRead N i)))

/-- src/sparse_chunk/mod.rs:63-70 `drop`. -/
def dropBy : M (Sparse A × τ) Unit := do
  let bits ← M.onFst getMap
  forBits N bits (dropAtBy N el) (N + 1) 0

/-- Dropping the value returned by `insert`, if any. -/
def dropOptBy : Option A → M (σ × τ) Unit
  | none => pure ()
  | some a => M.onSnd (el.drop a)

/-- `out.insert(index, value);` as a statement: the returned old value is dropped; if it panics, the argument is (src/sparse_chunk/mod.rs:80). -/
def insertOwnedBy (i : Nat) (v : A) : M (Sparse A × τ) Unit := do
  let old ← M.onUnwind (M.onFst (insert N i v)) (M.onSnd (el.drop v))
  dropOptBy el old

/-- src/sparse_chunk/mod.rs:79-81, the body of the loop of `clone`; the state is `((out, self), the user's)`. -/
def cloneBodyBy (i : Nat) : M ((Sparse A × Sparse A) × τ) Unit := do
  let a ← M.onFst (M.onSnd (index N i))
  let b ← M.onSnd (el.clone a)
  M.atFst (insertOwnedBy N el i b)

/-- src/sparse_chunk/mod.rs:77-83 `clone`; `out` is a local, dropped if a `clone` of an item panics. -/
def cloneBy : M (Sparse A × τ) (Sparse A) := do
  let bits ← M.onFst getMap
  let r ← M.withLocal new (forBits N bits (cloneBodyBy N el) (N + 1) 0) (M.atFst (dropBy N el))
  return r.2

end Sparse

namespace Inline
variable [DecidableEq A] (E : Env) (L : Layout A) (el : Elem τ A)

/-- src/inline_array/mod.rs:388-391 `drop_contents` and 409-413 `Drop`. -/
def dropBy : M (Inline A × τ) Unit := do
  M.onSnd (el.dropSlice (← M.onFst (items E L)))

/-- src/inline_array/mod.rs:396-401 `clear`. -/
def clearBy : M (Inline A × τ) Unit := do
  dropBy E L el
  M.onFst (setLen E L 0)

/-- src/inline_array/mod.rs:430-434, the loop of `clone` over `i..i + n`; the state is `((copy, self), the user's)`. -/
def cloneLoopBy : Nat → Nat → M ((Inline A × Inline A) × τ) Unit
  | 0, _ => pure ()
  | n + 1, i => do
    let a ← M.onFst (M.onSnd (itemAt E L i))
    let b ← M.onSnd (el.clone a)
    M.onFst (M.onFst (writeAt E L i b))
    cloneLoopBy n (i + 1)

/-- src/inline_array/mod.rs:424-440 `clone`; `copy` is a local whose length stays 0 until all clones are made. -/
def cloneBy (k : Nat) : M (Inline A × τ) (Inline A) := do
  let copy ← make (new E L k)
  let r ← M.withLocal copy
    (do
      cloneLoopBy E L el (← M.onFst (M.onSnd (len E L))) 0
      M.onFst (do M.onFst (setLen E L (← M.onSnd (len E L)))))
    (M.atFst (dropBy E L el))
  return r.2

end Inline
end Verif
