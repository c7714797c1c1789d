import Verif.Basic
/-
How much of a container's storage a call rewrites: the specification used for the documented costs ("O(1)", "O(n) for the number of
items shifted").
-/
namespace Verif
variable {A : Type}

/-- Of the `N` slots, at most `k` hold something different afterwards. -/
def Mem.Rewritten (N k : Nat) (before after : Mem A) : Prop :=
  ∃ slots : List Nat, slots.length ≤ k ∧ ∀ j, j < N → j ∉ slots → after j = before j

theorem Mem.Rewritten.of_range {N k a n : Nat} {m m' : Mem A} (hn : n ≤ k) (h : ∀ j, ¬ (a ≤ j ∧ j < a + n) → m' j = m j) : Mem.Rewritten N k m m' :=
  ⟨List.range' a n, by simpa using hn, fun j _ hj => h j (by simpa [List.mem_range'_1] using hj)⟩

theorem Mem.Rewritten.none (N k : Nat) (m : Mem A) : Mem.Rewritten N k m m := ⟨[], by simp, fun _ _ _ => rfl⟩

theorem Mem.Rewritten.mono {N k k' : Nat} {m m' : Mem A} (h : Mem.Rewritten N k m m') (hk : k ≤ k') : Mem.Rewritten N k' m m' := by
  obtain ⟨s, h1, h2⟩ := h
  exact ⟨s, by omega, h2⟩

theorem Mem.Rewritten.put {N k : Nat} {m m' : Mem A} (h : Mem.Rewritten N k m m') (p : Nat) (v : A) : Mem.Rewritten N (k + 1) m (m'.put p v) := by
  obtain ⟨s, h1, h2⟩ := h
  refine ⟨p :: s, by simpa using h1, fun j hN hj => ?_⟩
  simp only [List.mem_cons, not_or] at hj
  simp only [Mem.put, if_neg hj.1]
  exact h2 j hN hj.2

end Verif
