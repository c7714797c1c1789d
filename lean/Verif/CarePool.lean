import Verif.CareSpec
/-
`clone_uninit` (the `refpool` feature) when the elements' own `clone` has effects: as Verif/Care.lean, for src/*/refpool.rs.

`target` is memory nobody has initialised, which `clone_uninit` never destroys, not even on a panic: refpool owns it, and forgets it.
-/
namespace Verif
variable {A σ τ : Type}

namespace Chunk
variable (N : Nat) (el : Elem τ A)

/-- src/sized_chunk/refpool.rs:30-32, the loop of `clone_uninit` over `i..i + n`; the state is `(target, the user's)`. -/
def cloneUninitLoopBy (src : Mem A) : Nat → Nat → M (Chunk A × τ) Unit
  | 0, _ => pure ()
  | n + 1, i => do
    let a ← memRead N src i
    let b ← M.onSnd (el.clone a)
    M.onFst (forceWrite N i b)
    cloneUninitLoopBy src n (i + 1)

/-- src/sized_chunk/refpool.rs:22-33 `clone_uninit`; the state is `(target, the user's)`, `self` is only read. -/
def cloneUninitBy (self : Chunk A) : M (Chunk A × τ) Unit := do
  M.onFst (setLeft self.left)
  M.onFst (setRight self.right)
  cloneUninitLoopBy N el self.mem (self.right - self.left) self.left

end Chunk

namespace Ring
variable (E : Env) (N : Nat) (el : Elem τ A)

/-- src/ring_buffer/refpool.rs:30-34, the body of the loop of `clone_uninit`; the state is `(target, the user's)`. -/
def cloneUninitBodyBy (src : Mem A) (i : Nat) : M (Ring A × τ) Unit := do
  M.debugAssert E (i < N)
  let b ← M.onSnd (el.clone (← memRead N src i))
  M.onFst (do setMem (← memWrite N (← getMem) i b))

/-- src/ring_buffer/refpool.rs:22-35 `clone_uninit`; the state is `(target, the user's)`, `self` is only read. -/
def cloneUninitBy (self : Ring A) : M (Ring A × τ) Unit := do
  M.onFst (setOrigin self.origin)
  M.onFst (setLen self.length)
  let right ← M.onFst (rawAdd E N self.origin self.length)
  forIdx E N { remaining := self.length, left := self.origin, right := right } (cloneUninitBodyBy E N el self.mem)

end Ring

namespace Sparse
variable (N : Nat) (el : Elem τ A)

/-- src/sparse_chunk/refpool.rs:31-33, the body of the loop of `clone_uninit`; the state is `((target, self), the user's)`. -/
def cloneUninitBodyBy (i : Nat) : M ((Sparse A × Sparse A) × τ) Unit := do
  let a ← M.onFst (M.onSnd (index N i))
  let b ← M.onSnd (el.clone a)
  M.onFst (M.onFst (do setMem (← memWrite N (← getMem) i b)))

/-- src/sparse_chunk/refpool.rs:25-34 `clone_uninit`; the state is `((target, self), the user's)`. -/
def cloneUninitBy : M ((Sparse A × Sparse A) × τ) Unit := do
  let bits ← M.onFst (M.onSnd getMap)
  M.onFst (M.onFst (fun c => .ok () { c with map := bits }))
  forBits N bits (cloneUninitBodyBy N el) (N + 1) 0

end Sparse
end Verif
