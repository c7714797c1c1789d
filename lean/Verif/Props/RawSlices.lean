import Verif.Props.ChunkHistory
import Verif.Props.InlineHistory
import Verif.Props.SparseOps
/-
C86: every slice the crate builds with `from_raw_parts` covers initialised items only (the contract of that function: "`data` must point
to `len` consecutive properly initialized values").
-/
namespace Verif

/-- C86. The slice a `Chunk` derefs to covers initialised items only, and as many as its length. -/
theorem Chunk.C86_chunk {A : Type} {E : Env} {N : Nat} {dp : A → Bool} {cl : A → Option A} (hN : 2 * N < E.W) {c : Chunk A}
    (h : Chunk.Reachable E N dp cl c) : ∃ l, Chunk.asSlice E N c = .ok l c ∧ Chunk.len E c = .ok l.length c := by
  obtain ⟨l, h1, -, h2, -⟩ := Chunk.C02_length_and_flags hN h
  exact ⟨l, h1, h2⟩

/-- C86. The slice an `InlineArray` derefs to covers initialised items only, and as many as its length. -/
theorem Inline.C86_inline_array {A : Type} [DecidableEq A] {E : Env} {L : Layout A} {dp : A → Bool} {cl : A → Option A} (hv : L.Valid E)
    {s : Inline A} (h : Inline.Reachable E L dp cl s) : ∃ l, Inline.items E L s = .ok l s ∧ Inline.len E L s = .ok l.length s := by
  obtain ⟨l, h1, -, h2, -⟩ := Inline.C59_length_and_flags hv h
  exact ⟨l, h1, h2⟩

namespace Sparse
variable {A : Type} {N : Nat}

/-- src/sparse_chunk/mod.rs:94-96 `values()` (and 99-101 `values_mut()`), with the contract of `from_raw_parts` enforced: all `N` slots
must hold a value.  (Everywhere else in the model only the slot that is then accessed must.) -/
def values (N : Nat) : M (Sparse A) (List A) := do memSlice N (← getMem) 0 N

/-- src/sparse_chunk/mod.rs:193-202 `get` and 222-224 `get_unchecked`, with the contract of `from_raw_parts` enforced. -/
def getStrict (N i : Nat) : M (Sparse A) (Option A) := do
  if i ≥ N then return none
  else if (← bmGet N (← getMap) i) = true then return (← values N)[i]?
  else return none

/-- C86 fails for `SparseChunk`: reading the one item of `SparseChunk::<_, 2>::unit(0, x)` builds a slice over a slot that was never
written. -/
theorem C86_get_counterexample (E : Env) (x : A) :
    ∃ w c, (machine E 2 (fun _ => false) some).run [.ctor (.unit 0 x)] World.empty = .ok [.handle 0] w ∧ w.heap 0 = some c ∧
      getStrict 2 0 c = .ub := by
  refine ⟨_, _, rfl, rfl, rfl⟩

/-- C86 (partial: only when no slot is vacant).  Reading from a full `SparseChunk` builds a slice of initialised items, and the answer is the
one the rest of the model gives. -/
theorem C86_full_partial {c : Sparse A} {m : SMap A} (h : View N c m) (hf : ∀ i, i < N → m i ≠ none) (i : Nat) :
    getStrict N i c = get N i c := by
  have hr := h.rep
  have hc : ∃ l, c.mem.collect 0 N = some l := by
    refine ⟨List.ofFn (n := N) fun j => (m j).get (by simpa [Option.isSome_iff_ne_none] using hf j j.2), ?_⟩
    rw [Mem.collect_eq_some]
    refine ⟨by simp, fun j hj => ?_⟩
    obtain ⟨a, ha⟩ := Option.ne_none_iff_exists'.1 (hf j hj)
    rw [Nat.zero_add, hr.mem j a hj ha]
    simp [hj, ha]
  obtain ⟨l, hl⟩ := hc
  have hl' := (Mem.collect_eq_some _ _ _ _).1 hl
  have hv : values N c = .ok l c := by simp [values, getMem, memSlice, hl]
  by_cases hi : i ≥ N
  · simp [getStrict, get, hi]
  · have h1 := hl'.2 i (by omega)
    rw [Nat.zero_add, List.getElem?_eq_getElem (by omega)] at h1
    have hi' : i < N := by omega
    have hm : c.map i = true := by
      rw [hr.map i hi']; exact Option.isSome_iff_ne_none.2 (hf i hi')
    have e1 : bmGet N c.map i c = .ok true c := by simp [bmGet, hi', hm]
    have e2 : getUnchecked N i c = .ok (l[i]'(by omega)) c := by simp [getUnchecked, getMem, memRead, hi', h1]
    have e3 : getMap c = .ok c.map c := rfl
    simp only [getStrict, get, hi, if_false, M.bind_run, e3, Out.andThen_ok, e1, if_true, hv, e2, M.pure_run]
    rw [List.getElem?_eq_getElem (by omega)]

/-- C86, exactly when `values()` is allowed: when every slot has been written. -/
theorem C86_values_iff_partial (c : Sparse A) : values N c ≠ .ub ↔ ∀ i, i < N → c.mem i ≠ none := by
  have key : (∃ l, c.mem.collect 0 N = some l) ↔ ∀ i, i < N → c.mem i ≠ none := by
    constructor
    · rintro ⟨l, hl⟩ i hi
      obtain ⟨h1, h2⟩ := (Mem.collect_eq_some _ _ _ _).1 hl
      rw [← Nat.zero_add i, h2 i hi, List.getElem?_eq_getElem (by omega)]
      simp
    · intro h
      refine ⟨List.ofFn (n := N) fun j => (c.mem j).get (by simpa [Option.isSome_iff_ne_none] using h j j.2), ?_⟩
      rw [Mem.collect_eq_some]
      refine ⟨by simp, fun j hj => ?_⟩
      simp [hj]
  rw [← key]
  have e : values N c = match c.mem.collect 0 N with | some l => .ok l c | none => .ub := by
    simp only [values, getMem, M.bind_run, Out.andThen_ok, memSlice, Nat.zero_add, Nat.le_refl, if_true]
    cases c.mem.collect 0 N <;> rfl
  rw [e]
  cases c.mem.collect 0 N <;> simp

/-- C86 is not vacuous: a full `SparseChunk<_, 2>` made with `pair(0, 7, 1, 8)`, read at 1. -/
example : ∃ w c, (machine Chunk.dbg64 2 (fun _ => false) some).run [.ctor (.pair 0 7 1 8)] World.empty = .ok [.handle 0] w ∧ w.heap 0 = some c ∧
    (getStrict 2 1 c).seen = some (some 8) := ⟨_, _, rfl, rfl, rfl⟩
end Sparse
end Verif
