import Verif.SpecBal
import Verif.Inline.World
/-
Accounting of elements for histories of `InlineArray` calls.
-/
namespace Verif
namespace Inline
variable {A : Type}

/-- Elements the client moves in with each call. -/
def inputs : Inputs A (Ctor A) (Un A) Fork Empty where
  ctor
    | .new _ => []
    | .fromIter _ it => it.owned
  un
    | .push v => [v]
    | .insert _ v => [v]
    | .set _ v => [v]
    | .extend it => it.owned
    | _ => []

/-- Terms of the accounting.  Accounted for exactly: every call, except a `clear` that panicked because a destructor did (see C62);
writing through `&mut [A]` must only rearrange items.  Leaking nothing: every call, except a `clone` that panicked. -/
def terms (dp : A → Bool) : Terms (Un A) Fork where
  accounted
    | .clear, p => p = false ∨ ∀ a, dp a = false
    | .mutate f, _ => ∀ l, (f l).Perm l
    | _, _ => True
  unKeeps _ _ := True
  forkKeeps
    | .clone _, p => p = false
    | _, _ => True
  dropKeeps _ := True

variable [DecidableEq A] {dp : A → Bool} {cl : A → Option A}

theorem _root_.Verif.Spec.remove?_bal {l : List A} (i : Nat) :
    Sat (Spec.remove? i l) (fun r l' => ∀ a, l.count a = ((Res.opt r : Res A).outs ++ l').count a) (fun l' => l' = l) True := by
  intro a
  unfold Res.outs
  by_cases hi : i < l.length
  · rw [List.getElem?_eq_getElem hi]
    have := Spec.count_take_drop l i a
    rw [List.drop_eq_getElem_cons hi] at this
    simp only [Option.toList_some, List.count_append, List.count_cons, List.count_nil] at *
    omega
  · rw [List.getElem?_eq_none (by omega), List.take_of_length_le (by omega), List.drop_eq_nil_of_le (by omega)]
    simp

theorem specBalanced (ok : Prop) [Decidable ok] (N : Nat) : Balanced id (specMachine dp cl ok N) inputs (terms dp) where
  ctor k log := by
    cases k with
    | new k =>
      simp only [specMachine]
      split
      · intro a; simp [inputs]
      · intro a; simp [inputs]
    | fromIter k it =>
      simp only [specMachine, specFromIter]
      split
      · exact Spec.fromIter_bal it log
      · split
        · trivial
        · intro a; simp only [inputs, List.count_append]; omega
  un k l log := by
    cases k with
    | len => exact ask_bal' (by intro a; rfl)
    | isEmpty => exact ask_bal' (by intro a; rfl)
    | isFull => exact ask_bal' (by intro a; rfl)
    | items => exact ask_bal' (by intro a; rfl)
    | index i =>
      refine ask_bal' ?_
      unfold Spec.index; split
      · intro a; rfl
      · rfl
    | get i => exact ask_bal' (by intro a; rfl)
    | push v => exact giving_bal (Spec.pushBack_bal v)
    | pop => exact ask_bal' Spec.popBack?_bal
    | insert i v => exact giving_bal (Spec.insert_bal i v)
    | remove i => exact ask_bal' (Spec.remove?_bal i)
    | set i v => exact giving_bal (Spec.set_bal i v)
    | clear => exact logged_bal (Spec.clear_bal log _ _ (fun h => h.resolve_left (by simp)))
    | extend it =>
      refine logged_bal (Sat.imp (Spec.extend_bal it l log) ?_ ?_ id)
      · exact fun _ s h _ => ⟨[], fun _ => rfl, fun a => by simpa [inputs] using h a⟩
      · exact fun s h _ => ⟨[], fun _ => rfl, fun a => by simpa [inputs] using h a⟩
    | next => exact ask_bal' Spec.popFront?_bal
    | nextBack => exact ask_bal' Spec.popBack?_bal
    | sizeHint => exact ask_bal' (by intro a; rfl)
    | mutate f => exact ask_bal (fun hg => Spec.mutate_bal f hg)
    | moveTo k => exact ask_bal' (by intro a; rfl)
  fork k l log := by
    cases k with
    | splitOff k i => exact Spec.forking_bal (Spec.splitOff_bal i) rfl
    | clone k =>
      simp only [specMachine, M.bind_run, M.pure_run, Spec.cloneLeaky]
      split
      · exact ⟨[], fun _ => rfl, fun a => by simp [optItems, onlyIf]⟩
      · refine ⟨Spec.bornOf cl l, fun h => by simp [terms] at h, fun a => ?_⟩
        simp only [id, List.count_append]; omega
  bin k := k.elim
  dtor l log := Spec.drop_bal log _

end Inline
end Verif
