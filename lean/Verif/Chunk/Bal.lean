import Verif.SpecBal
import Verif.Chunk.World
/-
Accounting of elements for histories of `Chunk` calls.
-/
namespace Verif
namespace Chunk
variable {A : Type}

/-- Elements the client moves in with each call. -/
def inputs : Inputs A (Ctor A) (Un A) Fork Bin where
  ctor
    | .new => []
    | .unit v => [v]
    | .pair v w => [w, v]
    | .collectFrom _ it => it.owned
    | .fromIter it => it.owned
  un
    | .pushFront v => [v]
    | .pushBack v => [v]
    | .set _ v => [v]
    | .insert _ v => [v]
    | .insertOrdered _ v => [v]
    | .insertFrom _ _ it => it.owned
    | .extend it => it.owned
    | .write buf => buf
    | _ => []

/-- Terms of the accounting. Accounted for exactly: every call, except a `drop_left`, `drop_right` or `clear` that
panicked because a destructor did (see C15); writing through `&mut [A]` must only rearrange items. Leaking nothing:
every call, except an `insert_from` that panicked because the iterator yielded fewer items than announced or because
the destructor of a surplus item panicked. -/
def terms (dp : A → Bool) : Terms (Un A) Fork where
  accounted
    | .dropLeft _, p => p = false ∨ ∀ a, dp a = false
    | .dropRight _, p => p = false ∨ ∀ a, dp a = false
    | .clear, p => p = false ∨ ∀ a, dp a = false
    | .mutate f, _ => ∀ l, (f l).Perm l
    | _, _ => True
  unKeeps
    | .insertFrom _ n it, p => p = false ∨ (n ≤ it.items.length ∧ (It.owned (it.drop n)).countP dp = 0)
    | _, _ => True
  forkKeeps _ _ := True
  dropKeeps _ := True

variable [DecidableEq A] {E : Env} {N : Nat} {dp : A → Bool} {cl : A → Option A}

theorem specBalanced : Balanced id (specMachine E N dp cl) inputs (terms dp) where
  ctor k log := by
    cases k with
    | new => intro a; simp [inputs]
    | unit v =>
      refine Spec.making_bal ?_
      unfold Spec.unit; split
      · intro a; rfl
      · trivial
    | pair v w =>
      refine Spec.making_bal ?_
      unfold Spec.pair; split
      · intro a; cnt
      · trivial
    | collectFrom n it => exact Spec.borrowing_bal (Spec.collectFrom_bal n it log)
    | fromIter it => exact Spec.fromIter_bal it log
  un k l log := by
    cases k with
    | len => exact ask_bal' (by intro a; rfl)
    | isEmpty => exact ask_bal' (by intro a; rfl)
    | isFull => exact ask_bal' (by intro a; rfl)
    | asSlice => exact ask_bal' (by intro a; rfl)
    | index i =>
      refine ask_bal' ?_
      unfold Spec.index; split
      · intro a; rfl
      · rfl
    | pushFront v => exact giving_bal (Spec.pushFront_bal v)
    | pushBack v => exact giving_bal (Spec.pushBack_bal v)
    | popFront => exact ask_bal' Spec.popFront_bal
    | popBack => exact ask_bal' Spec.popBack_bal
    | dropLeft i => exact logged_bal (Spec.dropLeft_bal i log _ _ (fun h => h.resolve_left (by simp)))
    | dropRight i => exact logged_bal (Spec.dropRight_bal i log _ _ (fun h => h.resolve_left (by simp)))
    | clear => exact logged_bal (Spec.clear_bal log _ _ (fun h => h.resolve_left (by simp)))
    | set i v => exact giving_bal (Spec.set_bal i v)
    | insert i v => exact giving_bal (Spec.insert_bal i v)
    | insertOrdered f v => exact giving_bal (Spec.insertOrdered_bal f v)
    | insertFrom i n it =>
      dsimp only [specMachine, guarded]
      split
      · exact logged_bal (Spec.insertFrom_bal i n it l log _ _ (fun h => h.resolve_left (by simp)))
      · exact fun _ => ⟨[], fun _ => rfl, fun a => by simp [Res.performed, Res.outs]⟩
    | remove i => exact ask_bal' (Spec.remove_bal i)
    | extend it =>
      refine logged_bal (Sat.imp (Spec.extend_bal it l log) ?_ ?_ id)
      · exact fun _ s h _ => ⟨[], fun _ => rfl, fun a => by simpa [inputs] using h a⟩
      · exact fun s h _ => ⟨[], fun _ => rfl, fun a => by simpa [inputs] using h a⟩
    | next => exact ask_bal' Spec.popFront?_bal
    | nextBack => exact ask_bal' Spec.popBack?_bal
    | sizeHint => exact ask_bal' (by intro a; rfl)
    | mutate f => exact ask_bal (fun hg => Spec.mutate_bal f hg)
    | write buf =>
      have := Spec.write_bal (N := N) (l := l) buf
      refine fun _ => ⟨[], fun _ => rfl, fun a => ?_⟩
      have := this.2 a
      simp only [id, Res.performed, inputs] at *
      cnt
    | read n => exact ask_bal' (Spec.read_bal n)
  fork k l log := by
    cases k with
    | fromFront n =>
      dsimp only [specMachine, guarded]
      split
      · exact Spec.forking_bal (Spec.fromFront_bal n) rfl
      · exact ⟨[], fun _ => rfl, fun a => by simp [optItems, onlyIf]⟩
    | fromBack n =>
      dsimp only [specMachine, guarded]
      split
      · exact Spec.forking_bal (Spec.fromBack_bal n) rfl
      · exact ⟨[], fun _ => rfl, fun a => by simp [optItems, onlyIf]⟩
    | drainFrom => exact Spec.forking_bal Spec.drainFrom_bal rfl
    | splitOff i => exact Spec.forking_bal (Spec.splitOff_bal i) rfl
    | clone =>
      have h := Spec.clone_bal (dp := dp) (l := l) cl log (fun _ => True)
      dsimp only [specMachine]
      apply Sat.bind
      refine Sat.imp h ?_ ?_ id
      · intro r s h
        apply Sat.pure
        exact h
      · exact fun _ h => h
  bin k l l' log := by
    cases k with
    | append => exact Spec.both_bal (Spec.append_bal _)
    | drainFromFront n => exact Spec.both_bal (Spec.drainFromFront_bal n _)
    | drainFromBack n => exact Spec.both_bal (Spec.drainFromBack_bal n _)
  dtor l log := Spec.drop_bal log _

end Chunk
end Verif
