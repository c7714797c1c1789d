import Verif.Ring.Lemmas2
/-
Helper lemmas for `RingBuffer`, continued: destructors, moves into new buffers, iterators, bulk insertion, cloning, io.
-/
namespace Verif

theorem Sat.mAtFst {C σ α L : Type} {x : M (C × L) α} {c : C} {t : σ} {log : L}
    {Q : α → (C × σ) × L → Prop} {P : (C × σ) × L → Prop} {B : Prop}
    (h : Sat (x (c, log)) (fun a p => Q a ((p.1, t), p.2)) (fun p => P ((p.1, t), p.2)) B) :
    Sat (M.atFst x ((c, t), log)) Q P B := by
  unfold M.atFst
  cases hx : x (c, log) <;> simp_all [Sat]

namespace Ring
variable {A : Type} {E : Env} {N : Nat}

theorem Rep.length_le {c : Ring A} {l : List A} (h : Rep N c l) : l.length ≤ N := h.le

theorem sat_new {σ : Type} {s : σ} {Q : Ring A → σ → Prop} {P : σ → Prop} {B : Prop} (hN : 0 < N)
    (h : Q ⟨0, 0, Mem.uninit⟩ s) : Sat ((new E N : M σ (Ring A)) s) Q P B := by
  unfold new
  vc
  exact h

theorem Rep.empty {o : Nat} {m : Mem A} (h : o < N) : Rep N ⟨o, 0, m⟩ [] :=
  Rep.mk' h rfl (Nat.zero_le _) (by simp)

/-! ### Destructors -/

/-- A loop dropping the items at positions `a .. a+r`. -/
theorem sat_dropLoop (hW : 2 * N < E.W) (dp : A → Bool) {c : Ring A} {l : List A} (h : Rep N c l) (log : List A)
    {Q : Unit → Ring A × List A → Prop} {P : Ring A × List A → Prop} {B : Prop} {a r right : Nat} (ha : a + r ≤ l.length)
    (h0 : ((l.drop a).take r).any dp = false → Q () (c, log ++ (l.drop a).take r))
    (h1 : ((l.drop a).take r).any dp = true →
      P (c, log ++ ((l.drop a).take r).take (((l.drop a).take r).findIdx dp + 1))) :
    Sat (forIdx E N ⟨r, ridx N c.origin a, right⟩ (forceDrop E N dp) (c, log)) Q P B := by
  have h' := h
  obtain ⟨k1, k2, k3, k4⟩ := h'
  refine sat_forIdx hW k1 (I := fun k s => s = (c, log ++ (l.drop a).take (k - a)) ∧ ((l.drop a).take (k - a)).any dp = false)
    r a _ (by omega) ?_ ?_ ?_
  · simp
  · rintro k s q1 q2 ⟨rfl, q3⟩
    unfold forceDrop
    apply Sat.bind
    apply Sat.onFst
    have hk : k < l.length := by omega
    have e : l[k]? = some l[k] := List.getElem?_eq_getElem hk
    refine sat_forceReadL k1 (by omega) (h.cell' e).2 ?_
    have e2 : (l.drop a).take (k + 1 - a) = (l.drop a).take (k - a) ++ [l[k]] := by
      rw [show k + 1 - a = (k - a) + 1 by omega, List.take_add_one]
      congr 1
      rw [List.getElem?_drop, show a + (k - a) = k by omega, e]; rfl
    apply Sat.dropOne
    · intro hd
      refine ⟨?_, ?_⟩
      · rw [e2, List.append_assoc]
      · rw [e2]; simpa [hd] using q3
    · intro hd
      have e3 : ((l.drop a).take r).take (k + 1 - a) = (l.drop a).take (k + 1 - a) := by
        rw [List.take_take, Nat.min_eq_left (by omega)]
      have e4 : ((l.drop a).take r).take (k - a) = (l.drop a).take (k - a) := by
        rw [List.take_take, Nat.min_eq_left (by omega)]
      have e5 : ((l.drop a).take r)[k - a]? = some l[k] := by
        rw [List.getElem?_take, if_pos (by omega), List.getElem?_drop, show a + (k - a) = k by omega, e]
      generalize hD : (l.drop a).take r = D at *
      have hlt : k - a < D.length := by grind
      have hfi : D.findIdx dp = k - a := by
        rw [List.findIdx_eq hlt]
        refine ⟨by grind, ?_⟩
        intro j hj
        rw [← e4] at q3
        have := List.any_eq_false.1 q3 D[j] (by
          rw [List.mem_iff_getElem?]
          exact ⟨j, by rw [List.getElem?_take, if_pos hj]; exact List.getElem?_eq_getElem (by omega)⟩)
        simpa using this
      have hany : D.any dp = true := by
        rw [List.any_eq_true]
        exact ⟨l[k], List.mem_of_getElem? e5, hd⟩
      have := h1 hany
      rw [hfi, show k - a + 1 = k + 1 - a by omega, e3, e2] at this
      rwa [List.append_assoc]
  · rintro s ⟨rfl, q⟩
    rw [Nat.add_sub_cancel_left] at q ⊢
    exact h0 q

theorem sat_dropLoop0 (hW : 2 * N < E.W) (dp : A → Bool) {c : Ring A} {l : List A} (h : Rep N c l) (log : List A)
    {Q : Unit → Ring A × List A → Prop} {P : Ring A × List A → Prop} {B : Prop} {r right : Nat} (ha : r ≤ l.length)
    (h0 : (l.take r).any dp = false → Q () (c, log ++ l.take r))
    (h1 : (l.take r).any dp = true → P (c, log ++ (l.take r).take ((l.take r).findIdx dp + 1))) :
    Sat (forIdx E N ⟨r, c.origin, right⟩ (forceDrop E N dp) (c, log)) Q P B := by
  have := sat_dropLoop (right := right) (a := 0) (r := r) (Q := Q) (P := P) (B := B) hW dp h log (by omega)
    (by simpa only [List.drop_zero] using h0) (by simpa only [List.drop_zero] using h1)
  rwa [ridx_zero h.org] at this

theorem droppingSeq_no {dp : A → Bool} {d l l' log : List A} (h : d.any dp = false) :
    Spec.droppingSeq dp d l l' log = .ok () (l', log ++ d) := by simp only [Spec.droppingSeq, h]; simp
theorem droppingSeq_yes {dp : A → Bool} {d l l' log : List A} (h : d.any dp = true) :
    Spec.droppingSeq dp d l l' log = .panic (l, log ++ d.take (d.findIdx dp + 1)) := by
  simp only [Spec.droppingSeq, h]; simp

theorem drop_ref (hW : 2 * N < E.W) (dp : A → Bool) {c : Ring A} {l : List A} (h : Rep N c l) (log : List A) :
    Ref (RelLog (Rep N)) (drop E N dp (c, log)) (Spec.dropSeq dp (l, log)) := by
  unfold drop Ref Spec.dropSeq
  apply Sat.bind
  apply Sat.onFst
  refine sat_range hW h.org (by rw [h.len]; exact h.le) ?_
  rw [h.len]
  refine sat_dropLoop0 hW dp h log (Nat.le_refl _) ?_ ?_
  · intro hd
    rw [List.take_length] at hd ⊢
    rw [droppingSeq_no hd]; exact ⟨_, rfl, h, rfl⟩
  · intro hd
    rw [List.take_length] at hd ⊢
    rw [droppingSeq_yes hd]; exact ⟨_, rfl, h, rfl⟩

theorem clear_ref (hN : 0 < N) (hW : 2 * N < E.W) (dp : A → Bool) {c : Ring A} {l : List A} (h : Rep N c l) (log : List A) :
    Ref (RelLog (Rep N)) (clear E N dp (c, log)) (Spec.clearSeq dp (l, log)) := by
  unfold clear Ref Spec.clearSeq
  apply Sat.bind
  apply Sat.onFst
  refine sat_range hW h.org (by rw [h.len]; exact h.le) ?_
  rw [h.len]
  apply Sat.bind
  refine sat_dropLoop0 hW dp h log (Nat.le_refl _) ?_ ?_
  · intro hd
    rw [List.take_length] at hd ⊢
    rw [droppingSeq_no hd]
    vc
    exact ⟨_, rfl, Rep.empty hN, rfl⟩
  · intro hd
    rw [List.take_length] at hd ⊢
    rw [droppingSeq_yes hd]; exact ⟨_, rfl, h, rfl⟩

theorem dropLeft_ref (hW : 2 * N < E.W) (dp : A → Bool) (i : Nat) {c : Ring A} {l : List A} (h : Rep N c l) (log : List A) :
    Ref (RelLog (Rep N)) (dropLeft E N dp i (c, log)) (Spec.dropLeftSeq dp i (l, log)) := by
  have h' := h
  obtain ⟨h1, h2, h3, h4⟩ := h'
  unfold dropLeft Ref Spec.dropLeftSeq
  simp only
  by_cases hi : i ≤ l.length
  · rw [if_pos hi]
    vc
    · refine sat_range hW h1 (by omega) ?_
      unfold takeIdx
      simp only
      rw [show min i c.length = i by omega]
      apply Sat.bind
      refine sat_dropLoop0 hW dp h log hi ?_ ?_
      · intro hd
        rw [droppingSeq_no hd]
        vc
        refine ⟨_, rfl, Rep.mk' (ridx_lt h1 (by omega)) (by simp; omega) (by simp; omega) ?_, rfl⟩
        intro j hj
        simp only [List.length_drop] at hj
        rw [lm_ridx h1 (by omega), h4 _ (by omega)]; grind
      · intro hd
        rw [droppingSeq_yes hd]; exact ⟨_, rfl, h, rfl⟩
    · have : i = 0 := by omega
      subst this
      refine ⟨(l, log), ?_, h, rfl⟩
      simp [Spec.droppingSeq]
  · rw [if_neg hi]
    vc
    exact ⟨_, rfl, h, rfl⟩

theorem dropRight_ref (hW : 2 * N < E.W) (dp : A → Bool) (i : Nat) {c : Ring A} {l : List A} (h : Rep N c l) (log : List A) :
    Ref (RelLog (Rep N)) (dropRight E N dp i (c, log)) (Spec.dropRightSeq dp i (l, log)) := by
  have h' := h
  obtain ⟨h1, h2, h3, h4⟩ := h'
  unfold dropRight Ref Spec.dropRightSeq
  simp only
  by_cases hi : i ≤ l.length
  · rw [if_pos hi]
    vc
    · have : i = l.length := by omega
      subst this
      refine ⟨(l, log), ?_, h, rfl⟩
      simp [Spec.droppingSeq]
    · refine sat_range hW h1 (by omega) ?_
      have := sat_skipIdx (N := N) (E := E) (right := ridx N c.origin c.length) hW h1 i 0 c.length (c, log) (by omega) (by omega)
        (Q := fun it s => it = ⟨c.length - i, ridx N c.origin i, ridx N c.origin c.length⟩ ∧ s = (c, log))
        (P := fun _ => False) (B := False) ⟨by simp, rfl⟩
      rw [ridx_zero h1] at this
      apply Sat.bind
      refine Sat.imp this ?_ (by simp) (by simp)
      rintro _ _ ⟨rfl, rfl⟩
      apply Sat.bind
      have e : (l.drop i).take (c.length - i) = l.drop i := by
        rw [List.take_of_length_le]; simp; omega
      refine sat_dropLoop hW dp h log (by omega) ?_ ?_
      · rw [e]
        intro hd
        rw [droppingSeq_no hd]
        vc
        refine ⟨_, rfl, Rep.mk' h1 (by simp; omega) (by simp; omega) ?_, rfl⟩
        intro j hj
        simp only [List.length_take] at hj
        rw [h4 _ (by omega)]; grind
      · rw [e]
        intro hd
        rw [droppingSeq_yes hd]; exact ⟨_, rfl, h, rfl⟩
  · rw [if_neg hi]
    vc
    exact ⟨_, rfl, h, rfl⟩

theorem dropLocal_sat {σ : Type} (hW : 2 * N < E.W) (dp : A → Bool) {c : Ring A} {l : List A} (h : Rep N c l) (t : σ) (log : List A)
    {P : (Ring A × σ) × List A → Prop} {B : Prop}
    (h0 : l.any dp = false → P ((c, t), log ++ l)) (h1 : l.any dp = true → B) :
    Sat (dropLocal E N dp ((c, t), log)) (fun _ s => P s) (fun _ => B) B := by
  unfold dropLocal
  apply Sat.mAtFst
  unfold drop
  apply Sat.bind
  apply Sat.onFst
  refine sat_range hW h.org (by rw [h.len]; exact h.le) ?_
  rw [h.len]
  refine sat_dropLoop0 hW dp h log (Nat.le_refl _) ?_ ?_
  · rw [List.take_length]; exact h0
  · rw [List.take_length]; exact h1

/-! ### Moves into a new buffer -/

theorem fromFront_ref (hN : 0 < N) (hW : 2 * N < E.W) (dp : A → Bool) (n : Nat) {c : Ring A} {l : List A} (h : Rep N c l)
    (log : List A) :
    RefV (Rep N) (RelLog (Rep N)) (fromFront E N dp n (c, log)) (M.onFst (Spec.fromFront n) (l, log)) := by
  have hle := h.le
  unfold fromFront RefV
  apply Sat.bind
  apply sat_new hN
  apply Sat.bind
  apply Sat.withLocal
  apply Sat.onFst
  refine Sat.imp (drainFromFront_ref hW (Rep.empty hN) h n) ?_ ?_ ?_
  · rintro _ ⟨s1, s2⟩ ⟨t, ht, hr1, hr2⟩
    apply Sat.pure
    simp only [Spec.drainFromFront] at ht
    split at ht
    · rename_i hc
      simp at hc ht; subst ht
      refine ⟨_, (l.drop n, log), ?_, hr1, hr2, rfl⟩
      simp [Spec.fromFront, hc]
    · cases ht
  · rintro ⟨s1, s2⟩ ⟨t, ht, hr1, hr2⟩
    simp only [Spec.drainFromFront] at ht
    split at ht
    · cases ht
    · rename_i hc
      simp at hc ht; subst ht
      apply dropLocal_sat hW dp hr1
      · intro _
        refine ⟨(l, log), ?_, hr2, by simp⟩
        simp [Spec.fromFront, show ¬ n ≤ l.length by omega]
      · intro hd; simp at hd
  · intro hb; simp only [Spec.drainFromFront] at hb; split at hb <;> cases hb

theorem fromBack_ref (hN : 0 < N) (hW : 2 * N < E.W) (dp : A → Bool) (n : Nat) {c : Ring A} {l : List A} (h : Rep N c l)
    (log : List A) :
    RefV (Rep N) (RelLog (Rep N)) (fromBack E N dp n (c, log)) (M.onFst (Spec.fromBack n) (l, log)) := by
  have hle := h.le
  unfold fromBack RefV
  apply Sat.bind
  apply sat_new hN
  apply Sat.bind
  apply Sat.withLocal
  apply Sat.onFst
  refine Sat.imp (drainFromBack_ref hW (Rep.empty hN) h n) ?_ ?_ ?_
  · rintro _ ⟨s1, s2⟩ ⟨t, ht, hr1, hr2⟩
    apply Sat.pure
    simp only [Spec.drainFromBack] at ht
    split at ht
    · rename_i hc
      simp at hc ht; subst ht
      refine ⟨_, (l.take (l.length - n), log), ?_, hr1, hr2, rfl⟩
      simp [Spec.fromBack, hc]
    · cases ht
  · rintro ⟨s1, s2⟩ ⟨t, ht, hr1, hr2⟩
    simp only [Spec.drainFromBack] at ht
    split at ht
    · cases ht
    · rename_i hc
      simp at hc ht; subst ht
      apply dropLocal_sat hW dp hr1
      · intro _
        refine ⟨(l, log), ?_, hr2, by simp⟩
        simp [Spec.fromBack, show ¬ n ≤ l.length by omega]
      · intro hd; simp at hd
  · intro hb; simp only [Spec.drainFromBack] at hb; split at hb <;> cases hb

theorem drainFrom_ref (hN : 0 < N) (hW : 2 * N < E.W) (dp : A → Bool) {c : Ring A} {l : List A} (h : Rep N c l)
    (log : List A) :
    RefV (Rep N) (RelLog (Rep N)) (drainFrom E N dp (c, log)) (M.onFst Spec.drainFrom (l, log)) := by
  unfold drainFrom
  have := fromFront_ref hN hW dp l.length h log
  simp only [M.bind_run, M.onFst_run, getLen, Out.mapState_ok, Out.andThen_ok, h.len]
  simpa [Spec.fromFront, Spec.drainFrom] using this

theorem splitOff_ref (hN : 0 < N) (hW : 2 * N < E.W) (dp : A → Bool) (i : Nat) {c : Ring A} {l : List A} (h : Rep N c l)
    (log : List A) :
    RefV (Rep N) (RelLog (Rep N)) (splitOff E N dp i (c, log)) (M.onFst (Spec.splitOff i) (l, log)) := by
  have h' := h
  obtain ⟨h1, h2, h3, h4⟩ := h'
  simp only [M.onFst_run, Spec.splitOff]
  unfold splitOff RefV
  by_cases hi : i ≤ l.length
  · rw [if_pos hi]
    vc
    · apply sat_new hN
      have : i = l.length := by omega
      subst this
      refine ⟨_, _, rfl, ?_, ?_, rfl⟩
      · simpa using Rep.empty hN
      · simpa using h
    · apply sat_new hN
      vc
      apply Sat.withLocal
      vc
      have e0 : ridx N 0 0 = 0 := ridx_zero hN
      rw [← e0]
      refine sat_copyFrom hW h1 hN (by omega) (by omega) ?_
      intro m hm
      vc
      refine ⟨_, _, rfl, Rep.mk' (by rw [e0]; exact hN) (by simp; omega) (by simp; omega) ?_, Rep.mk' h1 (by simp; omega) (by simp; omega) ?_, rfl⟩
      · rw [e0, hm]
        intro j hj
        simp only [List.length_drop] at hj
        unfold Mem.blit
        rw [if_pos (by omega), h4 _ (by omega)]; grind
      · intro j hj
        simp only [List.length_take] at hj
        rw [h4 _ (by omega)]; grind
  · rw [if_neg hi]
    vc
    exact ⟨_, rfl, h, rfl⟩

/-! ### Writing through references -/

theorem sat_assignLoop {Q : Unit → Ring A → Prop} {P : Ring A → Prop} {B : Prop} (hW : 2 * N < E.W) {o right : Nat}
    (vs : List A) (a : Nat) (c : Ring A) (ho : o < N) (ha : a + vs.length ≤ N)
    (hs : ∀ j, a ≤ j → j < a + vs.length → ∃ x, lm N o c.mem j = some x)
    (h : ∀ m, lm N o m = (lm N o c.mem).putList a vs → Q () { c with mem := m }) :
    Sat (assignLoop E N vs ⟨vs.length, ridx N o a, right⟩ c) Q P B := by
  induction vs generalizing a c with
  | nil =>
    unfold assignLoop
    exact h c.mem (by rw [Mem.putList_nil])
  | cons v vs ih =>
    simp only [List.length_cons] at ha hs ⊢
    unfold assignLoop
    apply Sat.bind
    apply sat_idxNext hW ho ha
    · intro hz; omega
    · intro _
      simp only
      obtain ⟨x, hx⟩ := hs a (by omega) (by omega)
      simp only [lm, show a < N by omega, if_true] at hx
      apply Sat.bind
      unfold assignAt
      vc
      refine Sat.memRead (ridx_lt ho (by omega)) hx ?_
      vc
      refine ih (a + 1) _ (by omega) ?_ ?_
      · intro j q1 q2
        dsimp only
        rw [lm_put (by omega)]
        obtain ⟨y, hy⟩ := hs j (by omega) (by omega)
        exact ⟨y, by unfold Mem.put; rw [if_neg (by omega)]; exact hy⟩
      · intro m hm
        apply h m
        rw [hm]
        dsimp only
        rw [lm_put (by omega), Mem.putList_cons]

theorem sat_iterMut {c : Ring A} {Q : IdxIter → Ring A → Prop} {P : Ring A → Prop} {B : Prop} (hW : 2 * N < E.W) (h1 : c.origin < N)
    (h2 : c.length ≤ N) (hq : Q ⟨c.length, c.origin, ridx N c.origin c.length⟩ c) : Sat (iterMut E N c) Q P B := by
  unfold iterMut iterMutSlice
  vc
  exact hq

theorem mutate_ref (hW : 2 * N < E.W) {c : Ring A} {l : List A} (h : Rep N c l) (f : List A → List A) :
    Ref (Rep N) (mutate E N f c) (Spec.mutate f l) := by
  unfold mutate Ref Spec.mutate
  apply Sat.bind
  refine sat_items hW h ?_
  by_cases hf : (f l).length = l.length
  · rw [if_pos hf, if_pos hf]
    apply Sat.bind
    refine sat_iterMut hW h.org (by rw [h.len]; exact h.le) ?_
    have h1 := h.org
    have h3 := h.le
    have := sat_assignLoop (E := E) (right := ridx N c.origin c.length) (Q := fun a s => ∃ t, Out.ok () (f l) = Out.ok a t ∧ Rep N s t)
      (P := fun s => ∃ t, Out.ok () (f l) = Out.panic t ∧ Rep N s t) (B := (Out.ok () (f l) : Out (List A) Unit) = .abort)
      hW (f l) 0 c h1 (by omega)
      (by intro j q1 q2; rw [h.cell j (by omega)]; exact ⟨_, List.getElem?_eq_getElem (by omega)⟩)
      (by
        intro m hm
        refine ⟨_, rfl, Rep.mk' h1 (by rw [h.len, hf]) (by omega) ?_⟩
        rw [hm]
        intro j hj
        unfold Mem.putList
        rw [if_pos (by omega)]; simp)
    rw [ridx_zero h1, hf, ← h.len] at this
    exact this
  · rw [if_neg hf, if_neg hf]
    exact ⟨_, rfl, h⟩

end Ring
end Verif
