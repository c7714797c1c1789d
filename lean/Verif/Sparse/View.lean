import Verif.Sparse.Bal
/-
How the property theorems observe a sparse chunk: only through `get`.
-/
namespace Verif
namespace Sparse
variable {A : Type}

/-- `c.get(i)` is `m i` for every `i` (and does nothing else). -/
def View (N : Nat) (c : Sparse A) (m : SMap A) : Prop := ∀ i, get N i c = .ok (m i) c

/-- A chunk the client can get hold of: it is alive after some history of calls from nothing. -/
def Reachable (E : Env) (N : Nat) (dp : A → Bool) (cl : A → Option A) (c : Sparse A) : Prop :=
  ∃ ops os w h, (machine E N dp cl).run ops World.empty = .ok os w ∧ w.heap h = some c

variable {E : Env} {N : Nat} {dp : A → Bool} {cl : A → Option A}

theorem view_iff {c : Sparse A} {m : SMap A} : View N c m ↔ Rep N c m := by
  constructor
  · intro h
    have key : ∀ i, i < N → c.map i = (m i).isSome ∧ ∀ a, m i = some a → c.mem i = some a := by
      intro i hi
      have hn : ¬ N ≤ i := by omega
      have := h i
      simp only [get, ge_iff_le, hn, if_false, getMap, bmGet, hi, if_true, M.bind_run, Out.andThen_ok, M.pure_run, M.ite_run, getUnchecked,
        getMem, memRead] at this
      cases hb : c.map i with
      | false =>
        rw [hb] at this
        simp only [Bool.false_eq_true, if_false] at this
        injection this with h1 h2
        rw [← h1]; simp
      | true =>
        rw [hb] at this
        simp only [if_true] at this
        cases hc : c.mem i with
        | none => rw [hc] at this; simp at this
        | some b =>
          rw [hc] at this
          simp only [M.pure_run, Out.andThen_ok] at this
          injection this with h1 h2
          rw [← h1]; simp
    refine ⟨fun i hi => (key i hi).1, fun i a hi => (key i hi).2 a, fun i hi => ?_⟩
    have := h i
    simp only [get, ge_iff_le, hi, if_true, M.ite_run, M.pure_run] at this
    injection this with h1 h2
    exact h1.symm
  · intro h i; exact get_eq h i

theorem View.rep {c : Sparse A} {m : SMap A} (h : View N c m) : Rep N c m := view_iff.1 h
theorem Rep.view {c : Sparse A} {m : SMap A} (h : Rep N c m) : View N c m := view_iff.2 h
theorem view_eq_rep : (View N : Sparse A → SMap A → Prop) = Rep N := by
  funext c l; exact propext view_iff

theorem machineRelView (hW : N < E.W) : MachineRel (View N) (machine E N dp cl) (specMachine N dp cl) := by
  rw [view_eq_rep]; exact machineRel hW

theorem Reachable.view (hW : N < E.W) {c : Sparse A} (h : Reachable E N dp cl c) : ∃ m, View N c m := by
  obtain ⟨ops, os, w, i, hr, hc⟩ := h
  have h := (machineRelView hW).run_ref ops (MachineRel.empty_rel (R := View N)) (m := machine E N dp cl)
  rw [hr] at h
  obtain ⟨v, _, hw⟩ := h
  have := hw.heap i
  rw [hc] at this
  cases hv : v.heap i with
  | none => rw [hv] at this; exact this.elim
  | some l => rw [hv] at this; exact ⟨l, this⟩

/-- The index from `N` on hold nothing. -/
theorem View.out {c : Sparse A} {m : SMap A} (h : View N c m) {i : Nat} (hi : N ≤ i) : m i = none := h.rep.out i hi

/-! ### Draining -/

/-- `k` calls of `Drain::next` (iter.rs:78-80). -/
def drainMany (N : Nat) : Nat → M (Sparse A) (List (Option A))
  | 0 => pure []
  | k + 1 => do
    let a ← pop N
    let r ← drainMany N k
    return a :: r

/-- `k` calls of `OptionDrain::next` (iter.rs:185-193) on a drain whose counter is at `i`. -/
def optionDrainMany (N : Nat) (E : Env) : Nat → Nat → M (Sparse A) (List (Option (Option A)))
  | 0, _ => pure []
  | k + 1, i => do
    match (← optionDrainNext N E i) with
    | none => do
      let r ← optionDrainMany N E k i
      return none :: r
    | some p => do
      let r ← optionDrainMany N E k p.2
      return some p.1 :: r

/-- Forget everything below index `i`. -/
def above (i : Nat) (m : SMap A) : SMap A := fun j => if j < i then none else m j
end Sparse
end Verif
