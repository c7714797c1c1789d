import Verif.Ledger
import Verif.Sparse.World
/-
Accounting of elements for histories of `SparseChunk` calls.
-/
namespace Verif
namespace Sparse
variable {A : Type}

/-- Elements the client moves in with each call. -/
def inputs : Inputs A (Ctor A) (Un A) Fork (Bin A) where
  ctor
    | .new => []
    | .unit _ v => [v]
    | .pair _ v _ w => [v, w]
    | .fromIter it => MSpec.owned it
  un
    | .insert _ v => [v]
    | .replace _ v => [v]
    | .set _ v => [v]
    | _ => []

/-- Terms of the accounting. Accounted for exactly: every call; writing through `iter_mut` must only rearrange items.  Leaking
nothing: every call, except a chunk whose own drop panicked (the remaining items are not dropped). -/
def terms : Terms (Un A) Fork where
  accounted
    | .mutate f, _ => ∀ l, (f l).Perm l
    | .mutateOpt f, _ => ∀ l, (f l).Perm l
    | _, _ => True
  unKeeps _ _ := True
  forkKeeps _ _ := True
  dropKeeps p := p = false

variable {N : Nat} {dp : A → Bool} {cl : A → Option A} [DecidableEq A]

theorem count_upd {i : Nat} (hi : i < N) (m : SMap A) (o : Option A) (a : A) :
    ((m.upd i o).vals N).count a + (m i).toList.count a = (m.vals N).count a + o.toList.count a := by
  rw [vals_upd hi, vals_at hi m]
  simp only [List.count_append]; omega

/-- The shape of `Balanced.un` on maps. -/
def MBal (N : Nat) (args : List A) (g h : Bool → Prop) (m : SMap A) (log : List A) (o : Out (SMap A × List A) (Res A)) : Prop :=
  Sat o
    (fun r s => g false → ∃ leak, (h false → leak = []) ∧ ∀ a, (r.performed args ++ m.vals N ++ log).count a
        = (r.outs ++ s.1.vals N ++ s.2 ++ leak).count a)
    (fun s => g true → ∃ leak, (h true → leak = []) ∧ ∀ a, (args ++ m.vals N ++ log).count a = (s.1.vals N ++ s.2 ++ leak).count a) True

theorem mgiving_bal {α : Type} {args : List A} {x : M (SMap A) α} {f : α → Res A} {m : SMap A} {log : List A} {g h : Bool → Prop}
    (hx : Sat (x m) (fun r m' => (f r).performed args = args ∧ ∀ a, (args ++ m.vals N).count a = ((f r).outs ++ m'.vals N).count a)
      (fun m' => m' = m) True) : MBal N args g h m log (giving dp args x f (m, log)) := by
  unfold giving ask MBal
  apply Sat.onUnwind
  apply Sat.bind
  apply Sat.onFst
  refine Sat.imp hx ?_ ?_ (fun _ => trivial)
  · rintro r s ⟨h1, h2⟩
    apply Sat.pure
    refine fun _ => ⟨[], fun _ => rfl, fun a => ?_⟩
    have := h2 a
    simp only [h1, List.count_append, List.count_nil] at *
    omega
  · rintro s rfl
    simp only [dropSlice]
    split
    · refine fun _ => ⟨[], fun _ => rfl, fun a => ?_⟩
      simp only [List.count_append, List.count_nil]; omega
    · trivial
    · trivial

theorem mask_bal {α : Type} {x : M (SMap A) α} {f : α → Res A} {m : SMap A} {log : List A} {g h : Bool → Prop}
    (hx : Sat (x m) (fun r m' => g false → ∀ a, (m.vals N).count a = ((f r).outs ++ m'.vals N).count a)
      (fun m' => m' = m) True) : MBal N [] g h m log (ask x f (m, log)) := by
  unfold ask MBal
  apply Sat.bind
  apply Sat.onFst
  refine Sat.imp hx ?_ ?_ (fun _ => trivial)
  · rintro r s h2
    apply Sat.pure
    refine fun hg => ⟨[], fun _ => rfl, fun a => ?_⟩
    have := h2 hg a
    have e : (f r).performed ([] : List A) = [] := by cases f r <;> rfl
    simp only [e, List.count_append, List.count_nil] at *
    omega
  · rintro s rfl
    refine fun _ => ⟨[], fun _ => rfl, fun a => ?_⟩
    simp

omit [DecidableEq A] in
theorem overwrite_full (ks : List Nat) (vs : List A) (m : SMap A) (hn : ks.Nodup) (h : vs.length = ks.length) :
    ks.filterMap (SMap.overwrite ks vs m) = vs := by
  induction ks generalizing vs m with
  | nil => cases vs <;> simp_all
  | cons k ks ih =>
    cases vs with
    | nil => simp at h
    | cons v vs =>
      rw [List.nodup_cons] at hn
      rw [SMap.overwrite, List.filterMap_cons_some (b := v) (by rw [overwrite_not_mem _ _ _ _ hn.1]; simp [SMap.upd])]
      rw [ih vs _ hn.2 (by simpa using h)]

omit [DecidableEq A] in
theorem overwrite_keys_vals (m : SMap A) (vs : List A) (h : vs.length = (m.keys N).length) :
    (SMap.overwrite (m.keys N) vs m).vals N = vs := by
  have key := overwrite_full (m.keys N) vs m (keys_nodup m) h
  generalize hw : SMap.overwrite (m.keys N) vs m = w at key
  have hout : ∀ i, i ∉ m.keys N → w i = m i := by
    intro i hi; rw [← hw, overwrite_not_mem _ _ _ _ hi]
  unfold SMap.vals
  conv => rhs; rw [← key]
  unfold SMap.keys
  rw [List.filterMap_filter]
  apply filterMap_congr'
  intro i hi
  split
  · rfl
  · rename_i hs
    rw [hout i (by simp only [mem_keys, not_and]; intro _; exact hs)]
    simpa using hs

omit [DecidableEq A] in
theorem clone_vals (cl : A → Option A) (m : SMap A) (hb : (Spec.bornOf cl (m.vals N)).length = (m.vals N).length) :
    SMap.vals N (fun i => (m i).bind cl) = Spec.bornOf cl (m.vals N) := by
  have h1 : ∀ l : List A, (Spec.bornOf cl l).length = l.length → l.filterMap cl = Spec.bornOf cl l := by
    intro l
    induction l with
    | nil => simp [Spec.bornOf]
    | cons a r ih =>
      intro h
      unfold Spec.bornOf at h ⊢
      cases hc : cl a with
      | none => simp [hc] at h
      | some b =>
        simp only [hc, List.length_cons, Nat.add_right_cancel_iff] at h
        simp [hc, ih h]
  rw [← h1 _ hb]
  simp only [SMap.vals, List.filterMap_filterMap]

theorem fill_bal (it : It (Option A)) (i : Nat) (s : SMap A × List A) (hm : ∀ j, i ≤ j → s.1 j = none) :
    Sat (MSpec.fill N dp i it s) (fun _ s' => ∀ a, (MSpec.owned it ++ s.1.vals N ++ s.2).count a = (s'.1.vals N ++ s'.2).count a)
      (fun s' => ∀ a, (MSpec.owned it ++ s.1.vals N ++ s.2).count a = (s'.1.vals N ++ s'.2).count a) True := by
  induction it generalizing i s with
  | nil => intro a; simp [MSpec.owned, It.owned]
  | cons e r ih =>
    cases e with
    | panic =>
      simp only [MSpec.fill, MSpec.panicDropping]
      split
      · trivial
      · intro a; simp only [MSpec.owned, It.owned, List.count_append]; omega
    | item o =>
      cases o with
      | none =>
        simp only [MSpec.fill]
        exact ih (i + 1) s (fun j hj => hm j (by omega))
      | some v =>
        simp only [MSpec.fill]
        split
        · rename_i hi
          have := ih (i + 1) (s.1.upd i (some v), s.2) (fun j hj => by
            simp only [SMap.upd]; rw [if_neg (by omega)]; exact hm j (by omega))
          have e : ∀ a, (MSpec.owned (.item (some v) :: r) ++ s.1.vals N ++ s.2).count a
              = (MSpec.owned r ++ (s.1.upd i (some v)).vals N ++ s.2).count a := by
            intro a
            have h1 := count_upd hi s.1 (some v) a
            rw [hm i (Nat.le_refl _)] at h1
            simp only [MSpec.owned, It.owned, List.filterMap_cons, id, List.count_append, List.count_cons, Option.toList, List.count_nil] at h1 ⊢
            omega
          refine Sat.imp this ?_ ?_ id
          · intro _ s' h a; rw [e a]; exact h a
          · intro s' h a; rw [e a]; exact h a
        · simp only [MSpec.panicDropping]
          split
          · trivial
          · intro a
            simp only [MSpec.owned, It.owned, List.filterMap_cons, id, List.count_append, List.count_cons]
            omega

theorem pop_bal (m : SMap A) : Sat (MSpec.pop N m)
    (fun r m' => ∀ a, (m.vals N).count a = ((Res.opt r).outs ++ m'.vals N).count a) (fun m' => m' = m) True := by
  unfold MSpec.pop
  split
  · intro a; simp [Res.outs]
  · rename_i i hf
    intro a
    have hi : i < N := by
      unfold SMap.first at hf
      exact (mem_keys.1 (List.mem_of_mem_head? hf)).1
    have := count_upd hi m none a
    simp only [Res.outs, List.count_append, Option.toList, List.count_nil] at this ⊢
    omega

theorem specBalanced : Balanced (SMap.vals N) (specMachine N dp cl) (inputs (A := A)) terms where
  ctor k log := by
    cases k with
    | new => intro a; simp [inputs, vals_empty]
    | unit i v =>
      simp only [specMachine, MSpec.unit]
      split
      · rename_i hi; intro a; simp [inputs, vals_single hi]
      · split
        · trivial
        · intro a; simp only [inputs, List.count_append]; omega
    | pair i v j w =>
      simp only [specMachine, MSpec.pair]
      split
      · split
        · trivial
        · intro a; simp only [inputs, List.count_append]; omega
      · rename_i hi
        split
        · split
          · trivial
          · intro a; simp only [inputs, List.count_append, List.count_cons, List.count_nil]; omega
        · rename_i hj
          split
          · split
            · split
              · trivial
              · intro a; simp only [inputs, List.count_append]; omega
            · intro a; simp only [inputs, List.count_append, List.count_cons, List.count_nil, vals_single (show j < N by omega)]; omega
          · rename_i hij
            intro a
            have h1 := count_upd (show j < N by omega) (SMap.empty.upd i (some v)) (some w) a
            have e : (SMap.empty.upd i (some v)) j = none := by
              simp only [SMap.upd]; rw [if_neg (fun h => hij h.symm)]; rfl
            rw [e, vals_single (show i < N by omega)] at h1
            simp only [inputs, List.count_append, List.count_cons, List.count_nil, Option.toList] at h1 ⊢
            omega
    | fromIter it =>
      have := fill_bal (N := N) (dp := dp) it 0 (SMap.empty, log) (fun _ _ => rfl)
      simp only [specMachine, MSpec.fromIter]
      cases hx : MSpec.fill N dp 0 it (SMap.empty, log) <;> rw [hx] at this <;> simp only [Sat] at this
      · intro a; have := this a; simpa [inputs, vals_empty] using this
      · dsimp only
        split
        · trivial
        · intro a; have := this a
          simp only [inputs, vals_empty, List.append_nil, List.count_append] at this ⊢
          omega
      · trivial
  un k m log := by
    change MBal N (inputs.un k) _ _ m log _
    cases k with
    | len => exact mask_bal (fun _ a => by simp [Res.outs])
    | isEmpty => exact mask_bal (fun _ a => by simp [Res.outs])
    | isFull => exact mask_bal (fun _ a => by simp [Res.outs])
    | insert i v =>
      refine mgiving_bal ?_
      unfold MSpec.insert; split
      · rename_i hi
        refine ⟨rfl, fun a => ?_⟩
        have := count_upd hi m (some v) a
        simp only [inputs, Res.outs, List.count_append, Option.toList] at this ⊢
        omega
      · rfl
    | remove i =>
      refine mask_bal ?_
      unfold MSpec.remove; split
      · rename_i hi
        intro _ a
        have := count_upd hi m none a
        simp only [Res.outs, List.count_append, Option.toList, List.count_nil] at this ⊢
        omega
      · rfl
    | pop => exact mask_bal (Sat.imp (pop_bal m) (fun _ _ h _ => h) (fun _ h => h) id)
    | get i => exact mask_bal (fun _ a => by simp [Res.outs])
    | index i =>
      refine mask_bal ?_
      unfold MSpec.index; split
      · intro _ a; simp [Res.outs]
      · rfl
    | replace i v =>
      refine mgiving_bal ?_
      unfold MSpec.replaceGet; split
      · rename_i hi
        split
        · rename_i b hb
          refine ⟨rfl, fun a => ?_⟩
          have := count_upd hi m (some v) a
          rw [hb] at this
          simp only [inputs, Res.outs, List.count_append, Option.toList] at this ⊢
          omega
        · exact ⟨rfl, fun a => rfl⟩
      · exact ⟨rfl, fun a => rfl⟩
    | set i v =>
      refine mgiving_bal ?_
      unfold MSpec.setIndex; split
      · rename_i hi
        split
        · rename_i b hb
          refine ⟨rfl, fun a => ?_⟩
          have := count_upd hi m (some v) a
          rw [hb] at this
          simp only [inputs, Res.outs, List.count_append, Option.toList] at this ⊢
          omega
        · rfl
      · rfl
    | firstIndex => exact mask_bal (fun _ a => by simp [Res.outs])
    | indices => exact mask_bal (fun _ a => by simp [Res.outs])
    | items => exact mask_bal (fun _ a => by simp [Res.outs])
    | entries => exact mask_bal (fun _ a => by simp [Res.outs])
    | optionItems => exact mask_bal (fun _ a => by simp [Res.outs])
    | mutate f =>
      refine mask_bal ?_
      intro hg a
      have hp : (f (m.vals N)).Perm (m.vals N) := hg _
      simp only [hp.length_eq, if_true, Res.outs, List.nil_append]
      rw [overwrite_keys_vals m _ (by rw [hp.length_eq, vals_length])]
      exact (hp.count_eq a).symm
    | mutateOpt f =>
      refine mask_bal ?_
      intro hg a
      have hp : (f (m.vals N)).Perm (m.vals N) := hg _
      simp only [hp.length_eq, if_true, Res.outs, List.nil_append]
      rw [overwrite_keys_vals m _ (by rw [hp.length_eq, vals_length])]
      exact (hp.count_eq a).symm
    | next => exact mask_bal (Sat.imp (pop_bal m) (fun _ _ h _ => h) (fun _ h => h) id)
    | sizeHint => exact mask_bal (fun _ a => by simp [Res.outs])
  fork k m log := by
    cases k
    simp only [specMachine, M.bind_run, MSpec.clone, MSpec.panicDropping]
    split
    · rename_i hb
      refine ⟨[], fun _ => rfl, fun a => ?_⟩
      simp only [onlyIf, optItems, clone_vals cl m hb, List.append_nil]
    · split
      · trivial
      · refine ⟨[], fun _ => rfl, fun a => ?_⟩
        simp only [List.count_append, List.count_nil]; omega
  bin k m m' log := by
    cases k
    intro a; simp [Res.outs]
  dtor m log := by
    simp only [specMachine, MSpec.drop]
    split
    · refine ⟨(m.vals N).drop ((m.vals N).findIdx dp + 1), fun h => (by cases h), fun a => ?_⟩
      have : (m.vals N).count a = ((m.vals N).take ((m.vals N).findIdx dp + 1)).count a
          + ((m.vals N).drop ((m.vals N).findIdx dp + 1)).count a := by
        rw [← List.count_append, List.take_append_drop]
      simp only [List.count_append]; omega
    · refine ⟨[], fun _ => rfl, fun a => ?_⟩
      simp only [List.count_append, List.count_nil]; omega

end Sparse
end Verif
