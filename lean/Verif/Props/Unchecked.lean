import Verif.Props.RingSlices
import Verif.Props.SparseOps
/-
C80: the `unsafe` accessors do what their safe counterparts do wherever their safety contract is met, and nothing else.
-/
namespace Verif
variable {A : Type}

namespace Ring
open Chunk (dbg64 rel64)
variable {E : Env} {N : Nat} {c : Ring A} {l : List A}

/-- C80. `get_unchecked(i)` with `i` in range is the `i`-th item, and the buffer is untouched. -/
theorem C80_get_unchecked (hW : 2 * N < E.W) (h : View E N c l) (i : Nat) (hi : i < l.length) :
    getUnchecked E N i c = .ok l[i] c := by
  have hs := getUnchecked_sat (E := E) (c := c) (Q := fun r s => r = l[i] ∧ s = c) (P := fun _ => False) (B := False)
    hW (h.rep hW) (List.getElem?_eq_getElem hi) ⟨rfl, rfl⟩
  cases hx : getUnchecked E N i c <;> rw [hx] at hs <;> simp [Sat] at hs
  rw [hs.1, hs.2]

/-- C80. Replacing an item through `get_unchecked_mut(i)` with `i` in range gives the old item and changes exactly that one. -/
theorem C80_get_unchecked_mut (hW : 2 * N < E.W) (h : View E N c l) (i : Nat) (hi : i < l.length) (v : A) :
    Returns (View E N) ((do swapAt N (← getUncheckedMut E N i) v) c) l[i] (l.set i v) := by
  obtain ⟨s, e, h3⟩ := swapAt_eq (h.rep hW) hi v
  have hle := (h.rep hW).le
  exact ⟨s, by simp [getUncheckedMut_eq hW (h.rep hW).org (show i < N by omega), e], h3.view hW⟩

/-- C80. The same for slices (of either kind) of the positions `a..b`: with `i` below the slice's length, `get_unchecked(i)`
is the slice's `i`-th item, and replacing through `get_unchecked_mut(i)` changes exactly that item. -/
theorem C80_slices (hW : 2 * N < E.W) (h : View E N c l) {a b : Nat} (h1 : a ≤ b) (h2 : b ≤ l.length) (i : Nat)
    (hi : i < b - a) (v : A) :
    sliceGetUnchecked E N ⟨a, b⟩ i c = .ok (l[a + i]'(by omega)) c ∧
    Returns (View E N) ((do swapAt N (← sliceGetUncheckedMut E N ⟨a, b⟩ i) v) c) (l[a + i]'(by omega)) (l.set (a + i) v) := by
  have hle := (h.rep hW).le
  have hu : ∀ s : Ring A, uadd E a i s = .ok (a + i) s := by intro s; unfold uadd; rw [if_pos (by omega)]; rfl
  refine ⟨by simp [sliceGetUnchecked, hu, C80_get_unchecked hW h (a + i) (by omega)], ?_⟩
  obtain ⟨s, e, h3⟩ := C80_get_unchecked_mut hW h (a + i) (by omega) v
  exact ⟨s, by simpa [sliceGetUncheckedMut, hu] using e, h3⟩

/-- C80 is not vacuous: the second item of the wrapped `seam` sits at the start of the storage. -/
example : getUnchecked dbg64 3 1 seam = .ok 20 seam ∧
    Returns (View dbg64 3) ((do swapAt 3 (← getUncheckedMut dbg64 3 1) 7) seam) 20 [10, 7] :=
  ⟨rfl, _, rfl, rfl, by decide, by decide⟩

/-- The contract is needed: past the end, `get_unchecked` is undefined behaviour in a release build. -/
theorem C80_ring_contract_needed : getUnchecked rel64 3 2 seam = .ub := rfl
end Ring

namespace Sparse
variable {N : Nat} {c : Sparse A} {m : SMap A}

/-- C80. `get_unchecked(i)` at an inhabited index is the value there, and the chunk is untouched. -/
theorem C80_sparse_get_unchecked (h : View N c m) {i : Nat} {a : A} (hi : i < N) (ha : m i = some a) :
    getUnchecked N i c = .ok a c := by
  simp [getUnchecked, getMem, memRead, hi, h.rep.mem i a hi ha]

/-- C80. Replacing the value through `get_unchecked_mut(i)` at an inhabited index gives the old value and changes exactly that
entry. -/
theorem C80_sparse_get_unchecked_mut (h : View N c m) {i : Nat} {a : A} (hi : i < N) (ha : m i = some a) (v : A) :
    Returns (View N) (replaceUnchecked N i v c) a (fun j => if j = i then some v else m j) := by
  refine ⟨⟨c.map, c.mem.put i v⟩, ?_, (h.rep.put ha v).view⟩
  simp [replaceUnchecked, getUnchecked, getMem, memRead, hi, h.rep.mem i a hi ha, memWrite, setMem]

/-- The contract is needed: at an index that is not inhabited, `get_unchecked` is undefined behaviour. -/
theorem C80_sparse_contract_needed : getUnchecked 4 2 (new : Sparse Nat) = .ub := rfl
end Sparse
end Verif
