import Verif.Props.AliasSplit
/-
C99: the pointers inside the containers.
-/
namespace Verif.Alias
open Verif
variable {σ : Type} {N : Nat} {R : Rules σ} {i : σ}

theorem stays_run (b : Nat → Nat) (c : Call) : Stays R i (c.run R N b) := by
  have hm : ∀ x t, Stays R i (mutPtr R N x t) := fun x t => .bind (stays_reMut _ _) fun _ => .bind (stays_reMut _ _) fun _ => stays_raw _ _
  have hd : ∀ x t, Stays R i (dataMut R N x t) := fun x t => .bind (stays_reMut _ _) fun _ => .bind (stays_reMut _ _) fun _ => stays_raw _ _
  have hp : ∀ x t, Stays R i (ptr R N x t) := fun x t => .bind (stays_reShr _ _) fun _ => stays_reShr _ _
  have hc : ∀ x t, Stays R i (dataConst R N x t) := fun x t => .bind (stays_reShr _ _) fun _ => stays_reShr _ _
  have hl : ∀ x t, Stays R i (lenOf R N x t) := fun x t => .bind (stays_reShr _ _) fun _ => stays_read _ _
  have hr : ∀ x t, Stays R i (readLen R N x t) := fun x t => .bind (hc _ _) fun _ => stays_read _ _
  have hs : ∀ x t, Stays R i (setLen R N x t) := fun x t => .bind (hd _ _) fun _ => .bind (stays_read _ _) fun _ => stays_write _ _
  cases c <;> simp only [Call.run] <;> (try split) <;>
    repeat' first
      | exact hm _ _ | exact hd _ _ | exact hp _ _ | exact hc _ _ | exact hl _ _ | exact hr _ _ | exact hs _ _
      | exact stays_reMut _ _ | exact stays_reShr _ _ | exact stays_raw _ _ | exact stays_read _ _ | exact stays_write _ _ | exact .pure _
      | refine .bind ?_ fun _ => ?_
theorem stays_runCalls (b : Nat → Nat) (cs : List Call) : Stays R i (runCalls R N b cs) := by
  induction cs with
  | nil => exact .pure _
  | cons c cs ih => exact .bind (stays_run b c) fun _ => ih

/-- From `s`, with `b x` the borrow of container `x` for every `x` of interest: the calls are accepted exactly if `policy`; afterwards
every borrow which could be used can still be. -/
def CallsExactly (R : Rules σ) (i : σ) (N : Nat) (b : Nat → Nat) (calls : List Call) (policy : Prop) (s : σ) : Prop :=
  ((runCalls R N b calls s).isSome ↔ policy) ∧
  ∀ s', runCalls R N b calls s = some ((), s') →
    Reach R i s' ∧ ∀ y, R.Usable s (b y) (whole y N) → R.Usable s' (b y) (whole y N)

/-- C99, Tree Borrows: every sequence of calls is accepted. -/
theorem C99_pointers_tree_borrows {k : Nat} {s : TB} (hs : Reach TB.rules (TB.start k) s) (b : Nat → Nat) (calls : List Call)
    (hr : ∀ c ∈ calls, c.InRange N) (hb : ∀ c ∈ calls, ∀ x ∈ c.boxes, TB.rules.Usable s (b x) (whole x N)) :
    CallsExactly TB.rules (TB.start k) N b calls True s := by
  suffices h : ∃ s', runCalls TB.rules N b calls s = some ((), s') ∧ TB.Fair N b s s' by
    obtain ⟨s1, e1, f1⟩ := h
    refine ⟨by simp [e1], fun s' e => ⟨stays_runCalls b calls s () s' hs e, fun y hy => ?_⟩⟩
    rw [e1] at e
    cases e
    exact (f1.own y (TB.usable_own (TB.Reach.wf hs) (by simp [whole]) hy)).usable
  have hb' : ∀ c ∈ calls, ∀ x ∈ c.boxes, TB.Own s (b x) (whole x N) :=
    fun c hc x hx => TB.usable_own (TB.Reach.wf hs) (by simp [whole]) (hb c hc x hx)
  clear hb hs
  induction calls generalizing s with
  | nil => exact ⟨s, rfl, .refl⟩
  | cons c cs ih =>
    obtain ⟨s1, e1, f1⟩ := TB.call_ok b c (hr c (by simp)) (hb' c (by simp))
    obtain ⟨s2, e2, f2⟩ := ih (fun c hc => hr c (List.mem_cons_of_mem _ hc))
      (fun c hc x hx => f1.own x (hb' c (List.mem_cons_of_mem _ hc) x hx))
    exact ⟨s2, by simp only [runCalls, P.bind_run, e1, e2, Option.bind_some], f1.trans f2⟩

/-- C99, Stacked Borrows. The full claim would be the same as for Tree Borrows. What holds is that a sequence of calls is accepted
exactly if none of them moves items within a container by a pointer which is older than another borrow of that container. -/
theorem C99_pointers_stacked_borrows_partial {k : Nat} {s : SB} (hs : Reach SB.rules (SB.start k) s) (b : Nat → Nat) (calls : List Call)
    (hr : ∀ c ∈ calls, c.InRange N) (hb : ∀ c ∈ calls, ∀ x ∈ c.boxes, SB.rules.Usable s (b x) (whole x N)) :
    CallsExactly SB.rules (SB.start k) N b calls (∀ c ∈ calls, ¬c.Stale) s := by
  have hb' : ∀ c ∈ calls, ∀ x ∈ c.boxes, SB.Own s (b x) (whole x N) := fun c hc x hx => SB.usable_iff.1 (hb c hc x hx)
  clear hb
  induction calls generalizing s with
  | nil =>
    refine ⟨by simp [runCalls, P.pure_run], fun s' e => ?_⟩
    simp only [runCalls, P.pure_run, Option.some.injEq, Prod.mk.injEq, true_and] at e
    subst e
    exact ⟨hs, fun y h => h⟩
  | cons c cs ih =>
    by_cases hst : c.Stale
    · have e1 := SB.stale_rejected (SB.Reach.wf hs) b c (hr c (by simp)) hst
      simp only [CallsExactly, runCalls, P.bind_run, e1, Option.bind_none]
      exact ⟨by simp [hst], by simp⟩
    · obtain ⟨s1, e1, f1⟩ := SB.call_ok b c (hr c (by simp)) hst (hb' c (by simp))
      obtain ⟨h1, h2⟩ := ih (stays_run b c s () s1 hs e1) (fun c hc => hr c (List.mem_cons_of_mem _ hc))
        (fun c hc x hx => f1.own x (hb' c (List.mem_cons_of_mem _ hc) x hx))
      simp only [CallsExactly, runCalls, P.bind_run, e1, Option.bind_some]
      exact ⟨by rw [h1]; simp [hst], fun s' e => ⟨(h2 s' e).1, fun y hy => (h2 s' e).2 y (SB.usable_iff.2 (f1.own y (SB.usable_iff.1 hy)))⟩⟩

/-- C99 is false of the code under Stacked Borrows: moving two items of a chunk by one place, and removing the first of two items of an
inline array. -/
theorem C99_stale_pointer_counterexample :
    Call.run SB.rules 3 id (.copyWithin 0 0 1 2) (SB.start 1) = none ∧ Call.run SB.rules 3 id (.inlineRemove 0 0 2) (SB.start 1) = none := by
  refine ⟨Option.not_isSome_iff_eq_none.1 ?_, Option.not_isSome_iff_eq_none.1 ?_⟩ <;> decide +kernel

/-- All the calls there are, on two containers, meet the hypotheses. -/
def everyCall : List Call :=
  [.field 0 false, .field 0 true, .len 0, .readAt 0 1, .writeAt 0 2, .dropAt 0 0, .getRef 0 1, .getMut 0 1, .copyTo 0 1 0 1 2, .ringCopy 1 0 0 1 2,
    .slice 0 1 2 1, .sliceMut 0 1 2 2, .values 0 2, .valuesMut 0 1, .inlineLen 1, .inlineSetLen 1, .inlineRead 1 0, .inlineWrite 1 2,
    .inlineInsert 1 0 2, .inlineRemove 1 1 2, .inlineCopy 1 0 1 2, .inlineDeref 1 3 2, .inlineDerefMut 1 3 0]
example : (runCalls SB.rules 3 id everyCall (SB.start 2)).isSome ∧
    (runCalls TB.rules 3 id (.copyWithin 0 0 1 2 :: .inlineRemove 1 0 3 :: everyCall) (TB.start 2)).isSome := by decide +kernel
example : CallsExactly SB.rules (SB.start 2) 3 id everyCall (∀ c ∈ everyCall, ¬c.Stale) (SB.start 2) :=
  C99_pointers_stacked_borrows_partial .init id _ (by simp [everyCall, Call.InRange])
    (fun c hc x hx => SB.start_usable (by
      revert x; revert c
      simp [everyCall, Call.boxes]))
example : CallsExactly TB.rules (TB.start 2) 3 id everyCall True (TB.start 2) :=
  C99_pointers_tree_borrows .init id _ (by simp [everyCall, Call.InRange])
    (fun c hc x hx => TB.start_usable (by
      revert x; revert c
      simp [everyCall, Call.boxes]))

end Verif.Alias
