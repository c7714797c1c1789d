import Verif.SpecBal
import Verif.Ring.World
/-
Accounting of elements for histories of `RingBuffer` calls, and histories without panicking destructors.
-/
namespace Verif
namespace Ring
variable {A : Type}

/-- Elements the client moves in with each call. -/
def inputs : Inputs A (Ctor A) (Un A) Fork Bin where
  ctor
    | .new => []
    | .unit v => [v]
    | .pair v w => [w, v]
    | .collectFrom _ it => it.owned
    | .fromIter it => it.owned
  un
    | .replace _ v => [v]
    | .set _ v => [v]
    | .pushFront v => [v]
    | .pushBack v => [v]
    | .insert _ v => [v]
    | .insertOrdered _ v => [v]
    | .insertFrom _ _ it => it.owned
    | .extend it => it.owned
    | .write buf => buf
    | .slice _ _ _ (.replace _ v) => [v]
    | .slice _ _ _ (.set _ v) => [v]
    | _ => []

/-- Terms of the accounting. Accounted for exactly: every call, except a `drop_left`, `drop_right` or `clear` that
panicked because a destructor did (see C35); writing through `iter_mut` must only rearrange items. Leaking nothing:
every call, except an `insert_from` that panicked because the iterator yielded fewer items than announced or because
the destructor of a surplus item panicked, and a buffer whose own drop panicked (the remaining items are not dropped). -/
def terms (dp : A → Bool) : Terms (Un A) Fork where
  accounted
    | .dropLeft _, p => p = false ∨ ∀ a, dp a = false
    | .dropRight _, p => p = false ∨ ∀ a, dp a = false
    | .clear, p => p = false ∨ ∀ a, dp a = false
    | .mutate f, _ => ∀ l, (f l).Perm l
    | .slice _ _ _ (.mutate f), _ => ∀ l, (f l).Perm l
    | _, _ => True
  unKeeps
    | .insertFrom _ n it, p => p = false ∨ (n ≤ it.items.length ∧ (It.owned (it.drop n)).countP dp = 0)
    | _, _ => True
  forkKeeps _ _ := True
  dropKeeps p := p = false

variable {E : Env} {N : Nat} {dp : A → Bool} {cl : A → Option A}

theorem noAsk_bal [DecidableEq A] {α : Type} {f : α → Res A} {g h : Bool → Prop} {l log : List A} {lo hi : Bound} {cuts : List Cut}
    {x : M (List A) α} (hx : ∀ m, Sat (x m) (fun r m' => g false → ∀ a, m.count a = ((f r).outs ++ m').count a) (fun m' => m' = m) True) :
    UnBal [] g h l log (ask (Spec.within lo hi cuts x) f (l, log)) := by
  refine ask_bal (Sat.imp (Spec.within_bal (f := f) (args := []) (g := g false) (x := x) ?_) ?_ (fun _ h => h) id)
  · intro m
    refine Sat.imp (hx m) ?_ (fun _ h => h) id
    intro r m' h hg
    refine ⟨by cases f r <;> rfl, fun a => by simpa using h hg a⟩
  · intro r l' h hg a
    simpa using (h hg).2 a

theorem specSliceBalanced [DecidableEq A] (lo hi : Bound) (cuts : List Cut) (k : SliceOp A) (l log : List A) :
    UnBal (inputs.un (.slice lo hi cuts k)) ((terms dp).accounted (.slice lo hi cuts k)) ((terms dp).unKeeps (.slice lo hi cuts k))
      l log (specSliceCall dp lo hi cuts k (l, log)) := by
  have hg : ∀ {α : Type} {x : M (List A) α} {f : α → Res A} {v : A} {g h : Bool → Prop},
      (∀ m, Sat (x m) (fun r m' => (f r).performed [v] = [v] ∧ ∀ a, ([v] ++ m).count a = ((f r).outs ++ m').count a)
        (fun m' => m' = m) True) → UnBal [v] g h l log (giving dp [v] (Spec.within lo hi cuts x) f (l, log)) := by
    intro α x f v g h hx
    refine giving_bal (Sat.imp (Spec.within_bal (f := f) (args := [v]) (g := True) (x := x) ?_) ?_ (fun _ h => h) id)
    · exact fun m => Sat.imp (hx m) (fun _ _ h _ => h) (fun _ h => h) id
    · exact fun _ _ h => h trivial
  cases k with
  | len => exact noAsk_bal (fun m _ a => rfl)
  | items => exact noAsk_bal (fun m _ a => rfl)
  | get i => exact noAsk_bal (fun m _ a => rfl)
  | index i =>
    dsimp only [specSliceCall, guarded]
    split
    · refine noAsk_bal (fun m => ?_)
      unfold Spec.index; split
      · exact fun _ a => rfl
      · rfl
    · exact fun _ => ⟨[], fun _ => rfl, fun a => by simp [Res.performed, Res.outs]⟩
  | replace i v => exact hg (fun m => Spec.replaceGet_bal i v)
  | set i v =>
    dsimp only [specSliceCall, guarded]
    split
    · exact hg (fun m => Spec.set_bal i v)
    · exact fun _ => ⟨[], fun _ => rfl, fun a => by simp [Res.performed, Res.outs]⟩
  | mutate f =>
    refine noAsk_bal (fun m => ?_)
    exact fun hg => Spec.mutate_bal f hg

theorem specBalanced [DecidableEq A] : Balanced id (specMachine E N dp cl) inputs (terms dp) where
  ctor k log := by
    cases k with
    | new => intro a; simp [inputs]
    | unit v =>
      refine Spec.making_bal ?_
      unfold Spec.unit; split
      · intro a; rfl
      · trivial
    | pair v w =>
      refine Spec.making_bal ?_
      unfold Spec.pair; split
      · intro a; cnt
      · trivial
    | collectFrom n it => exact Spec.borrowing_bal (Spec.collectFrom_bal n it log)
    | fromIter it => exact Spec.fromIter_bal it log
  un k l log := by
    cases k with
    | len => exact ask_bal' (by intro a; rfl)
    | isEmpty => exact ask_bal' (by intro a; rfl)
    | isFull => exact ask_bal' (by intro a; rfl)
    | items => exact ask_bal' (by intro a; rfl)
    | get i => exact ask_bal' (by intro a; rfl)
    | index i =>
      refine ask_bal' ?_
      unfold Spec.index; split
      · intro a; rfl
      · rfl
    | replace i v => exact giving_bal (Spec.replaceGet_bal i v)
    | set i v => exact giving_bal (Spec.set_bal i v)
    | pushFront v => exact giving_bal (Spec.pushFront_bal v)
    | pushBack v => exact giving_bal (Spec.pushBack_bal v)
    | popFront => exact ask_bal' Spec.popFront?_bal
    | popBack => exact ask_bal' Spec.popBack?_bal
    | dropLeft i => exact logged_bal (Spec.dropLeftSeq_bal i log _ _ (fun h => h.resolve_left (by simp)))
    | dropRight i => exact logged_bal (Spec.dropRightSeq_bal i log _ _ (fun h => h.resolve_left (by simp)))
    | clear => exact logged_bal (Spec.clearSeq_bal log _ _ (fun h => h.resolve_left (by simp)))
    | insert i v => exact giving_bal (Spec.insert_bal i v)
    | insertOrdered f v => exact giving_bal (Spec.insertOrdered_bal f v)
    | insertFrom i n it =>
      dsimp only [specMachine, guarded]
      split
      · exact logged_bal (Spec.insertFromOrExtend_bal i n it l log _ _ (fun h => h.resolve_left (by simp)))
      · exact fun _ => ⟨[], fun _ => rfl, fun a => by simp [Res.performed, Res.outs]⟩
    | remove i => exact ask_bal' (Spec.remove_bal i)
    | extend it =>
      refine logged_bal (Sat.imp (Spec.extend_bal it l log) ?_ ?_ id)
      · exact fun _ s h _ => ⟨[], fun _ => rfl, fun a => by simpa [inputs] using h a⟩
      · exact fun s h _ => ⟨[], fun _ => rfl, fun a => by simpa [inputs] using h a⟩
    | next => exact ask_bal' Spec.popFront?_bal
    | nextBack => exact ask_bal' Spec.popBack?_bal
    | sizeHint => exact ask_bal' (by intro a; rfl)
    | mutate f => exact ask_bal (fun hg => Spec.mutate_bal f hg)
    | write buf =>
      dsimp only [specMachine, guarded]
      split
      · have := Spec.write_bal (N := N) (l := l) buf
        refine fun _ => ⟨[], fun _ => rfl, fun a => ?_⟩
        have := this.2 a
        simp only [id, Res.performed, inputs] at *
        cnt
      · exact fun _ => ⟨[], fun _ => rfl, fun a => by simp [Res.performed, Res.outs]⟩
    | read n => exact ask_bal' (Spec.read_bal n)
    | slice lo hi cuts k =>
      dsimp only [specMachine, guarded]
      split
      · exact specSliceBalanced lo hi cuts k l log
      · exact fun _ => ⟨[], fun _ => rfl, fun a => by simp [Res.performed, Res.outs]⟩
  fork k l log := by
    cases k with
    | fromFront n => exact Spec.forking_bal (Spec.fromFront_bal n) rfl
    | fromBack n => exact Spec.forking_bal (Spec.fromBack_bal n) rfl
    | drainFrom => exact Spec.forking_bal Spec.drainFrom_bal rfl
    | splitOff i => exact Spec.forking_bal (Spec.splitOff_bal i) rfl
    | clone =>
      have h := Spec.clone_bal (dp := dp) (l := l) cl log (fun _ => True)
      dsimp only [specMachine]
      apply Sat.bind
      refine Sat.imp h ?_ ?_ id
      · intro r s h
        apply Sat.pure
        exact h
      · exact fun _ h => h
    | toOwned lo hi cuts =>
      have h := Spec.cloneWithin_bal (dp := dp) (l := l) cl lo hi cuts log (fun _ => True)
      dsimp only [specMachine, guarded]
      split
      · apply Sat.bind
        refine Sat.imp h ?_ ?_ id
        · intro r s h
          apply Sat.pure
          exact h
        · exact fun _ h => h
      · exact ⟨[], fun _ => rfl, fun a => by simp [optItems, onlyIf]⟩
  bin k l l' log := by
    cases k with
    | append => exact Spec.both_bal (Spec.append_bal _)
    | drainFromFront n => exact Spec.both_bal (Spec.drainFromFront_bal n _)
    | drainFromBack n => exact Spec.both_bal (Spec.drainFromBack_bal n _)
  dtor l log := Spec.dropSeq_bal log _ (by simp [terms])

theorem specSliceTotal (hd : ∀ a, dp a = false) (lo hi : Bound) (cuts : List Cut) (k : SliceOp A) (s : List A × List A) :
    Runs (specSliceCall dp lo hi cuts k s) := by
  cases k with
  | len => exact ask_total (Spec.within_total (fun _ => by trivial) _)
  | items => exact ask_total (Spec.within_total (fun _ => by trivial) _)
  | get i => exact ask_total (Spec.within_total (fun _ => by trivial) _)
  | index i => exact guarded_total (ask_total (Spec.within_total (fun _ => by unfold Spec.index; split <;> trivial) _))
  | replace i v => exact giving_total hd (Spec.within_total (fun _ => by unfold Spec.replaceGet; split <;> trivial) _)
  | set i v => exact guarded_total (giving_total hd (Spec.within_total (fun _ => by unfold Spec.set; split <;> trivial) _))
  | mutate f => exact ask_total (Spec.within_total (fun _ => by trivial) _)

theorem specTotal (hd : ∀ a, dp a = false) : (specMachine E N dp cl).Total where
  ctor k log := by
    cases k with
    | new => trivial
    | unit v => exact making_total hd (by unfold Spec.unit; split <;> trivial)
    | pair v w => exact making_total hd (by unfold Spec.pair; split <;> trivial)
    | collectFrom n it => exact borrowing_total (Spec.collectFrom_total hd N n _)
    | fromIter it => exact Spec.fromIter_total hd N it log
  un k s := by
    cases k with
    | len => trivial
    | isEmpty => trivial
    | isFull => trivial
    | items => trivial
    | get i => trivial
    | index i => exact ask_total (by unfold Spec.index; split <;> trivial)
    | replace i v => exact giving_total hd (by unfold Spec.replaceGet; split <;> trivial)
    | set i v => exact giving_total hd (by unfold Spec.set; split <;> trivial)
    | pushFront v => exact giving_total hd (by unfold Spec.pushFront; split <;> trivial)
    | pushBack v => exact giving_total hd (by unfold Spec.pushBack; split <;> trivial)
    | popFront => trivial
    | popBack => trivial
    | dropLeft i =>
      refine logged_total ?_
      unfold Spec.dropLeftSeq; split
      · rw [Spec.droppingSeq_total hd]; trivial
      · trivial
    | dropRight i =>
      refine logged_total ?_
      unfold Spec.dropRightSeq; split
      · rw [Spec.droppingSeq_total hd]; trivial
      · trivial
    | clear =>
      refine logged_total ?_
      unfold Spec.clearSeq; rw [Spec.droppingSeq_total hd]; trivial
    | insert i v => exact giving_total hd (by unfold Spec.insert; split <;> trivial)
    | insertOrdered f v =>
      refine giving_total hd ?_
      unfold Spec.insertOrdered Spec.insert
      repeat' split
      all_goals trivial
    | insertFrom i n it => dsimp only [specMachine]; exact guarded_total (logged_total (Spec.insertFromOrExtend_total hd i n it s))
    | remove i => exact ask_total (by unfold Spec.remove; split <;> trivial)
    | extend it => exact logged_total (Spec.extend_total hd N it s)
    | next => trivial
    | nextBack => trivial
    | sizeHint => trivial
    | mutate f => trivial
    | write buf => dsimp only [specMachine]; exact guarded_total (ask_total trivial)
    | read n => trivial
    | slice lo hi cuts k => dsimp only [specMachine]; exact guarded_total (specSliceTotal hd lo hi cuts k s)
  fork k s := by
    cases k with
    | fromFront n => exact forking_total (by unfold Spec.fromFront; split <;> trivial)
    | fromBack n => exact forking_total (by unfold Spec.fromBack; split <;> trivial)
    | drainFrom => trivial
    | splitOff i => exact forking_total (by unfold Spec.splitOff; split <;> trivial)
    | clone =>
      have := Spec.clone_total hd cl s
      simp only [specMachine, M.bind_run, M.pure_run]
      cases hx : Spec.clone dp cl s <;> simp_all [Runs, Sat]
    | toOwned lo hi cuts =>
      dsimp only [specMachine]
      refine guarded_total ?_
      have := Spec.cloneWithin_total hd cl lo hi cuts s
      simp only [M.bind_run, M.pure_run]
      cases hx : Spec.cloneWithin dp cl lo hi cuts s <;> simp_all [Runs, Sat]
  bin k s := by
    cases k with
    | append => exact both_total (by unfold Spec.append; split <;> trivial)
    | drainFromFront n => exact both_total (by unfold Spec.drainFromFront; split <;> trivial)
    | drainFromBack n => exact both_total (by unfold Spec.drainFromBack; split <;> trivial)
  dtor s := by
    simp only [specMachine, Spec.dropSeq]; rw [Spec.droppingSeq_total hd]; trivial

end Ring
end Verif
