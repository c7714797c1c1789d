import Verif.AliasMethods2
import Verif.Props.AliasMethods
import Verif.Ring.Lemmas5
/-
C102: the methods of `RingBuffer` and `SparseChunk` obey the aliasing rules.
-/
namespace Verif.Alias
open Verif
variable {σ A : Type} {N : Nat} {E : Env}

theorem place_lt {o j : Nat} (hN : 0 < N) : place N o j < N := Nat.mod_lt _ hN
theorem before_lt {o j : Nat} (hN : 0 < N) : before N o j < N := Nat.mod_lt _ hN
theorem place_eq {o j : Nat} (ho : o < N) (hj : j ≤ N) : place N o j = Ring.ridx N o j := by
  unfold place Ring.ridx
  split
  · exact Nat.mod_eq_of_lt ‹_›
  · rw [Nat.mod_eq_sub_mod (by omega), Nat.mod_eq_of_lt (by omega)]
theorem before_eq {o j : Nat} (ho : o < N) (hj : j ≤ N) : before N o j = Ring.rsub N o j := by
  unfold before Ring.rsub
  split
  · rw [Nat.mod_eq_sub_mod (by omega), Nat.mod_eq_of_lt (by omega)]; omega
  · rw [Nat.mod_eq_of_lt (by omega)]; omega

/-! ### The calls are in range, about the two containers, and none is a stale move -/

theorem all_ite {α : Type} {P : α → Prop} {p : Prop} [Decidable p] {xs ys : List α} (h1 : p → ∀ c ∈ xs, P c) (h2 : ¬p → ∀ c ∈ ys, P c) :
    ∀ c ∈ (if p then xs else ys), P c := by split <;> simp_all

/-- What is asked of a call. -/
def Call.Fine (N : Nat) (c : Call) : Prop := c.InRange N ∧ (∀ x ∈ c.boxes, x < 2) ∧ ¬c.Stale

theorem straightCopy_fine {x y frm to n : Nat} (hx : x < 2) (hy : y < 2) (hxy : x ≠ y) (h1 : frm + n ≤ N) (h2 : to ≤ N) :
    ∀ c ∈ straightCopy N x y frm to n, c.Fine N := by
  unfold straightCopy
  apply all_ite <;> intro h
  · have e : place N frm (N - to) = frm + (N - to) := Nat.mod_eq_of_lt (by omega)
    rw [e]
    simp only [List.forall_mem_cons, all_nil, and_true, Call.Fine, Call.InRange, Call.boxes, Call.Stale]
    simp
    omega
  · simp only [List.forall_mem_cons, all_nil, and_true, Call.Fine, Call.InRange, Call.boxes, Call.Stale]
    simp
    omega

theorem ringCopies_fine {x y frm to n : Nat} (hx : x < 2) (hy : y < 2) (hxy : x ≠ y) (h1 : frm < N) (h2 : to < N) (h3 : n ≤ N) :
    ∀ c ∈ ringCopies N x y frm to n, c.Fine N := by
  unfold ringCopies
  apply all_ite <;> intro h
  · rw [List.forall_mem_append]
    exact ⟨straightCopy_fine hx hy hxy (by omega) (by omega),
      straightCopy_fine hx hy hxy (by omega) (Nat.le_of_lt (place_lt (by omega)))⟩
  · exact straightCopy_fine hx hy hxy (by omega) (by omega)

theorem drainFront_fine {x y o n o' n' k : Nat} (hx : x < 2) (hy : y < 2) (hxy : x ≠ y) (ho : o < N) (ho' : o' < N) :
    ∀ c ∈ drainFront N x y o n o' n' k, c.Fine N := by
  unfold drainFront
  (repeat' split) <;>
  simp only [List.forall_mem_cons, List.forall_mem_append, all_nil, and_true, true_and, Call.Fine, Call.InRange, Call.boxes, Call.Stale, not_false_eq_true, hx, hy]
  exact ringCopies_fine hy hx (Ne.symm hxy) ho' (place_lt (by omega)) (by omega)
theorem drainBack_fine {x y o n o' n' k : Nat} (hx : x < 2) (hy : y < 2) (hxy : x ≠ y) (ho' : o' < N) :
    ∀ c ∈ drainBack N x y o n o' n' k, c.Fine N := by
  unfold drainBack
  (repeat' split) <;>
  simp only [List.forall_mem_cons, List.forall_mem_append, all_nil, and_true, true_and, Call.Fine, Call.InRange, Call.boxes, Call.Stale, not_false_eq_true, hx, hy]
  exact ringCopies_fine hy hx (Ne.symm hxy) (place_lt (by omega)) (before_lt (by omega)) (by omega)

theorem RingMethod.fine (m : RingMethod) {o n o' n' : Nat} (ho : o < N) (hn : n ≤ N) (ho' : o' < N) :
    ∀ c ∈ m.calls N o n o' n', c.Fine N := by
  have hN : 0 < N := by omega
  cases m
  case fromFront k => exact drainFront_fine (by decide) (by decide) (by decide) ho' ho
  case fromBack k => exact drainBack_fine (by decide) (by decide) (by decide) ho
  case drainFromFront k => exact drainFront_fine (by decide) (by decide) (by decide) ho ho'
  case drainFromBack k => exact drainBack_fine (by decide) (by decide) (by decide) ho'
  case append =>
    rw [RingMethod.calls, List.forall_mem_cons]
    exact ⟨by simp [Call.Fine, Call.InRange, Call.boxes, Call.Stale], drainFront_fine (by decide) (by decide) (by decide) ho ho'⟩
  case splitOff i =>
    simp only [RingMethod.calls]
    (repeat' split) <;>
    simp only [List.forall_mem_cons, List.forall_mem_append, all_nil, and_true, true_and, Call.Fine, Call.InRange, Call.boxes, Call.Stale, not_false_eq_true,
      Nat.zero_lt_two, Nat.one_lt_two]
    exact ringCopies_fine (by decide) (by decide) (by decide) (place_lt hN) hN (by omega)
  all_goals
    simp only [RingMethod.calls, ringPushFront, ringPushBack, shiftUp, shiftDown]
    (repeat' split) <;>
    simp only [List.forall_mem_cons, List.forall_mem_append, all_map, all_flatMap, all_nil, List.nil_append, List.cons_append,
      Call.Fine, Call.InRange, Call.boxes, Call.Stale, true_and, and_true, not_false_eq_true, place_lt hN, before_lt hN, Nat.zero_lt_two, Nat.one_lt_two, implies_true,
      ho]
  intro j _
  apply all_ite <;> intro _ <;> simp [place_lt hN]

end Verif.Alias
