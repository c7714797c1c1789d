import Verif.Ring.Lemmas3
/-
Helper lemmas for `RingBuffer`, continued: iterators, bulk insertion, cloning, io, slices.
-/
namespace Verif

theorem Sat.unbind {σ α β : Type} {x : M σ β} {f : β → M σ α} {s : σ} {Q : α → σ → Prop} {P : σ → Prop} {B : Prop}
    (h : Sat ((x >>= f) s) Q P B) : Sat (x s) (fun a s' => Sat (f a s') Q P B) P B := by
  simp only [M.bind_run] at h
  cases hx : x s <;> rw [hx] at h <;> simp_all [Sat]

namespace Ring
variable {A : Type} {E : Env} {N : Nat}

theorem pushBackOwned_ref (hW : 2 * N < E.W) (dp : A → Bool) (v : A) {c : Ring A} {l : List A} (h : Rep N c l)
    (log : List A) : Ref (RelLog (Rep N)) (pushBackOwned E N dp v (c, log))
      (if l.length < N then .ok () (l ++ [v], log) else Spec.panicDropping dp [v] l log) := by
  unfold pushBackOwned Ref
  apply Sat.onUnwind
  apply Sat.onFst
  refine Sat.imp (pushBack_ref hW h v) ?_ ?_ ?_
  · rintro a s ⟨t, ht, hr⟩
    simp only [Spec.pushBack] at ht
    split at ht <;> simp at ht
    subst ht
    rw [if_pos (by assumption)]
    exact ⟨_, rfl, hr, rfl⟩
  · rintro s ⟨t, ht, hr⟩
    simp only [Spec.pushBack] at ht
    split at ht <;> simp at ht
    subst ht
    rw [if_neg (by assumption)]
    apply Sat.dropOne
    · intro hd; simp only [Spec.panicDropping, List.any_cons, hd]; simp; exact ⟨hr, rfl⟩
    · intro hd; simp [Spec.panicDropping, hd]
  · intro hb
    simp only [Spec.pushBack] at hb
    split at hb <;> cases hb

theorem extend_ref (hW : 2 * N < E.W) (dp : A → Bool) (it : It A) {c : Ring A} {l : List A} (h : Rep N c l)
    (log : List A) : Ref (RelLog (Rep N)) (extend E N dp it (c, log)) (Spec.extend N dp it (l, log)) := by
  induction it generalizing c l with
  | nil => simp only [extend, Spec.extend]; exact ⟨_, rfl, h, rfl⟩
  | cons e r ih =>
    cases e with
    | panic =>
      simp only [extend, Spec.extend, Spec.panicDropping]
      apply Sat.onUnwind
      apply Sat.panic
      apply Sat.unwindDrop
      · intro hd; simp [hd]; exact ⟨h, rfl⟩
      · intro hd; simp [hd]
    | item a =>
      simp only [extend, Spec.extend]
      apply Sat.bind
      apply Sat.onUnwind
      refine Sat.imp (pushBackOwned_ref hW dp a h log) ?_ ?_ ?_
      · rintro _ ⟨c', log'⟩ ⟨t, ht, hr⟩
        split at ht
        · simp at ht; subst ht
          rw [if_pos (by assumption)]
          obtain ⟨hr1, hr2⟩ := hr
          simp only at hr1 hr2
          subst hr2
          exact ih hr1
        · simp only [Spec.panicDropping] at ht; split at ht <;> simp at ht
      · rintro ⟨c', log'⟩ ⟨t, ht, hr⟩
        split at ht
        · simp at ht
        · rw [if_neg (by assumption)]
          simp only [Spec.panicDropping, List.any_cons, List.any_nil, Bool.or_false] at ht
          split at ht
          · simp at ht
          · rename_i hd
            simp at ht; subst ht
            obtain ⟨hr1, hr2⟩ := hr
            simp only at hr1 hr2
            subst hr2
            have hd' : dp a = false := by simpa using hd
            apply Sat.unwindDrop
            · intro hd2; simp only [Spec.panicDropping, List.any_cons, hd', hd2]
              refine ⟨_, by simp; rfl, hr1, by simp⟩
            · intro hd2; simp [Spec.panicDropping, hd2]
      · intro hb
        split at hb
        · cases hb
        · rw [if_neg (by assumption)]
          simp only [Spec.panicDropping] at hb ⊢
          split at hb
          · rename_i hd
            have : dp a = true := by simpa using hd
            simp [this]
          · cases hb

theorem fromIter_ref (hN : 0 < N) (hW : 2 * N < E.W) (dp : A → Bool) (it : It A) (log : List A) :
    RefV (Rep N) Eq (fromIter E N dp it log) (Spec.fromIter N dp it log) := by
  unfold fromIter RefV Spec.fromIter
  apply Chunk.Sat.mapState'
  apply Sat.bind
  apply Sat.onUnwind
  apply sat_new hN
  apply Sat.bind
  apply Sat.withLocal
  apply Sat.mAtFst
  refine Sat.imp (extend_ref hW dp it (Rep.empty hN) log) ?_ ?_ ?_
  · rintro _ ⟨c', log'⟩ ⟨t, ht, hr⟩
    rw [ht]
    obtain ⟨hr1, hr2⟩ := hr
    simp only at hr1 hr2; subst hr2
    exact ⟨_, _, rfl, hr1, rfl⟩
  · rintro ⟨c', log'⟩ ⟨t, ht, hr⟩
    rw [ht]
    obtain ⟨hr1, hr2⟩ := hr
    simp only at hr1 hr2; subst hr2
    apply dropLocal_sat hW dp hr1
    · intro hd; simp [hd]
    · intro hd; simp [hd]
  · intro hb
    rw [hb]

/-- State of the borrowed-iterator loop. -/
def RelC (N : Nat) (s : (Ring A × It A) × List A) (t : (List A × It A) × List A) : Prop :=
  Rep N s.1.1 t.1.1 ∧ s.1.2 = t.1.2 ∧ s.2 = t.2

/-- `takeLoop` followed by the check of the number of items. -/
def takeBody (E : Env) (N : Nat) (dp : A → Bool) (n total : Nat) : M ((Ring A × It A) × List A) Unit := do
  takeLoop E N dp n
  M.panicIf ((← M.onFst (M.onFst getLen)) < total)

theorem takeBody_ref (hW : 2 * N < E.W) (dp : A → Bool) (n : Nat) {c : Ring A} {l : List A} (h : Rep N c l)
    (it : It A) (log : List A) :
    Ref (RelC N) (takeBody E N dp n (l.length + n) ((c, it), log)) (Chunk.specCollectLoop N dp n l it log) := by
  induction n generalizing c l it with
  | zero =>
    have hl := h.length_le
    simp only [takeBody, takeLoop, Chunk.specCollectLoop]
    simp [hl, getLen, h.len]
    exact ⟨_, rfl, h, rfl, rfl⟩
  | succ n ih =>
    have hl := h.length_le
    simp only [takeBody, takeLoop]
    apply Sat.bind
    apply Sat.bind
    apply Sat.onFst
    apply Sat.onSnd
    cases it with
    | nil =>
      simp only [itNext, Sat]
      simp [Chunk.specCollectLoop, It.items, hl, getLen, h.len]
      exact ⟨h, rfl, rfl⟩
    | cons e r =>
      cases e with
      | panic =>
        simp only [itNext, Sat]
        simp [Chunk.specCollectLoop, It.items, hl]
        exact ⟨h, rfl, rfl⟩
      | item a =>
        simp only [itNext, Sat]
        apply Sat.bind
        apply Sat.mAtFst
        refine Sat.imp (pushBackOwned_ref hW dp a h log) ?_ ?_ ?_
        · rintro _ ⟨c', log'⟩ ⟨t, ht, hr⟩
          by_cases hlt : l.length < N
          · rw [if_pos hlt] at ht
            simp at ht; subst ht
            obtain ⟨hr1, hr2⟩ := hr
            simp only at hr1 hr2
            subst hr2
            have e : Chunk.specCollectLoop N dp (n + 1) l (.item a :: r) log'
                = Chunk.specCollectLoop N dp n (l ++ [a]) r log' := by
              have hN' : N - l.length = N - (l.length + 1) + 1 := by omega
              simp only [Chunk.specCollectLoop, It.items, List.length_cons, List.length_append, List.length_nil,
                Nat.add_le_add_iff_right, List.take_succ_cons, List.drop_succ_cons, hN', List.append_assoc,
                List.singleton_append, Nat.zero_add]
              have e1 : (n ≤ (It.items r).length ∧ l.length + (n + 1) ≤ N) ↔ (n ≤ (It.items r).length ∧ l.length + 1 + n ≤ N) := by omega
              have e2 : ((It.items r).length + 1 + l.length ≤ N) ↔ ((It.items r).length + (l.length + 1) ≤ N) := by omega
              simp only [e1, e2]
            rw [e]
            have := ih hr1 r
            rw [show (l ++ [a]).length + n = l.length + (n + 1) by simp; omega] at this
            exact Sat.unbind this
          · rw [if_neg hlt] at ht
            simp only [Spec.panicDropping] at ht; split at ht <;> simp at ht
        · rintro ⟨c', log'⟩ ⟨t, ht, hr⟩
          by_cases hlt : l.length < N
          · rw [if_pos hlt] at ht; cases ht
          · rw [if_neg hlt] at ht
            have hz : N - l.length = 0 := by omega
            have e1 : ¬ (n + 1 ≤ (It.items (.item a :: r)).length ∧ l.length + (n + 1) ≤ N) := by omega
            have e2 : ¬ ((It.items (.item a :: r)).length + l.length ≤ N) := by
              rw [Chunk.It.items_length_cons_item]; omega
            simp only [Chunk.specCollectLoop]
            rw [if_neg e1, if_neg e2]
            simp only [hz, It.items, List.drop_zero, List.take_succ_cons, List.take_zero]
            simp only [Spec.panicDropping] at ht
            split at ht
            · cases ht
            · rename_i hd
              rw [if_neg hd]
              simp at ht; subst ht
              obtain ⟨hr1, hr2⟩ := hr
              simp only at hr1 hr2
              subst hr2
              refine ⟨_, rfl, ?_⟩; exact ⟨by simpa using hr1, rfl, rfl⟩
        · intro hb
          by_cases hlt : l.length < N
          · rw [if_pos hlt] at hb; cases hb
          · rw [if_neg hlt] at hb
            have hz : N - l.length = 0 := by omega
            have e1 : ¬ (n + 1 ≤ (It.items (.item a :: r)).length ∧ l.length + (n + 1) ≤ N) := by omega
            have e2 : ¬ ((It.items (.item a :: r)).length + l.length ≤ N) := by
              rw [Chunk.It.items_length_cons_item]; omega
            simp only [Chunk.specCollectLoop]
            rw [if_neg e1, if_neg e2]
            simp only [hz, It.items, List.drop_zero, List.take_succ_cons, List.take_zero]
            simp only [Spec.panicDropping] at hb
            split at hb
            · rename_i hd; rw [if_pos hd]
            · cases hb

theorem collectFrom_ref (hN : 0 < N) (hW : 2 * N < E.W) (dp : A → Bool) (n : Nat) (it : It A) (log : List A) :
    RefV (Rep N) Eq (collectFrom E N dp n (it, log)) (Spec.collectFrom N dp n (it, log)) := by
  unfold collectFrom RefV Spec.collectFrom
  apply Sat.bind
  apply sat_new hN
  apply Sat.bind
  apply Sat.withLocal
  have key := takeBody_ref hW dp n (Rep.empty (o := 0) (m := Mem.uninit) hN) it log
  simp only [List.length_nil, Nat.zero_add] at key
  refine Sat.imp key ?_ ?_ ?_
  · rintro _ ⟨⟨c', it'⟩, log'⟩ ⟨t, ht, hr⟩
    simp only [Chunk.specCollectLoop, List.length_nil, Nat.zero_add, List.nil_append, Nat.add_zero, Nat.sub_zero] at ht
    obtain ⟨hr1, hr2, hr3⟩ := hr
    split at ht
    · rename_i hc
      simp at ht; subst ht
      simp only at hr1 hr2 hr3
      subst hr2; subst hr3
      rw [if_pos hc.1, if_pos hc.2]
      exact ⟨_, _, rfl, hr1, rfl⟩
    · split at ht
      · cases ht
      · split at ht <;> cases ht
  · rintro ⟨⟨c', it'⟩, log'⟩ ⟨t, ht, hr⟩
    simp only [Chunk.specCollectLoop, List.length_nil, Nat.zero_add, List.nil_append, Nat.add_zero, Nat.sub_zero] at ht
    obtain ⟨hr1, hr2, hr3⟩ := hr
    split at ht
    · cases ht
    · rename_i hc
      split at ht
      · rename_i hc2
        simp at ht; subst ht
        simp only at hr1 hr2 hr3
        subst hr2; subst hr3
        have hc3 : ¬ n ≤ it.items.length := by omega
        rw [if_neg hc3, if_pos hc2]
        apply dropLocal_sat hW dp hr1
        · intro hd; simp [hd]
        · intro hd; simp [hd]
      · rename_i hc2
        split at ht
        · cases ht
        · rename_i hd
          simp at ht; subst ht
          simp only at hr1 hr2 hr3
          subst hr2; subst hr3
          have e : (it.items.take (N + 1)).any dp = (it.items.take N).any dp := by
            rw [List.take_add, List.any_append]
            have : (List.take 1 (List.drop N (It.items it))).any dp = false := by simpa using hd
            rw [this]; simp
          by_cases hc3 : n ≤ it.items.length
          · have hc4 : ¬ n ≤ N := by omega
            rw [if_pos hc3, if_neg hc4, e]
            apply dropLocal_sat hW dp hr1
            · intro hd; simp [hd]
            · intro hd; simp [hd]
          · rw [if_neg hc3, if_neg hc2, e]
            apply dropLocal_sat hW dp hr1
            · intro hd; simp [hd]
            · intro hd; simp [hd]
  · intro hb
    simp only [Chunk.specCollectLoop, List.length_nil, Nat.zero_add, List.nil_append, Nat.add_zero, Nat.sub_zero] at hb
    split at hb
    · cases hb
    · rename_i hc
      split at hb
      · cases hb
      · rename_i hc2
        split at hb
        · rename_i hd
          have e : (it.items.take (N + 1)).any dp = true := by
            rw [List.take_add, List.any_append, hd]; simp
          by_cases hc3 : n ≤ it.items.length
          · have hc4 : ¬ n ≤ N := by omega
            rw [if_pos hc3, if_neg hc4, if_pos e]
          · rw [if_neg hc3, if_neg hc2, if_pos e]
        · cases hb

/-! ### insert_from -/

/-- The loop of `insert_from` filling the gap. -/
theorem writeLoop_sat (hW : 2 * N < E.W) (dp : A → Bool) (n : Nat) (it : It A) (o w k : Nat) (c : Ring A) (log : List A)
    (ho : o < N) (hw : w + n ≤ N) (hk : k + n ≤ N) :
    Sat (writeLoop E N dp n it (ridx N o w) k (c, log))
      (fun k' s => ∃ m, s.1 = { c with mem := m } ∧
        ((n ≤ it.items.length ∧ k' = k + n ∧ lm N o m = (lm N o c.mem).putList w (it.items.take n) ∧
            s.2 = log ++ It.owned (it.drop n) ∧ (It.owned (it.drop n)).countP dp = 0) ∨
         (it.items.length < n ∧ k' = k + it.items.length ∧ s.2 = log ∧
            It.owned (it.drop (it.items.length + 1)) = [])))
      (fun s => ∃ m, s.1 = { c with mem := m } ∧
        ((n ≤ it.items.length ∧ s.2 = log ++ It.owned (it.drop n) ∧ (It.owned (it.drop n)).countP dp = 1) ∨
         (it.items.length < n ∧ s.2 = log ++ It.owned (it.drop (it.items.length + 1)) ∧
            (It.owned (it.drop (it.items.length + 1))).any dp = false)))
      ((n ≤ it.items.length ∧ 2 ≤ (It.owned (it.drop n)).countP dp) ∨
       (it.items.length < n ∧ (It.owned (it.drop (it.items.length + 1))).any dp = true)) := by
  induction n generalizing it w k c with
  | zero =>
    simp only [writeLoop]
    apply Sat.bind
    apply Sat.dropSlice
    · intro hd
      apply Sat.pure
      refine ⟨c.mem, rfl, Or.inl ⟨Nat.zero_le _, rfl, ?_, rfl, hd⟩⟩
      simp [Mem.putList_nil]
    · intro hd
      exact ⟨c.mem, rfl, Or.inl ⟨Nat.zero_le _, rfl, hd⟩⟩
    · intro hd
      exact Or.inl ⟨Nat.zero_le _, hd⟩
  | succ n ih =>
    cases it with
    | nil =>
      simp only [writeLoop]
      apply Sat.pure
      refine ⟨c.mem, rfl, Or.inr ⟨by simp [It.items], rfl, rfl, rfl⟩⟩
    | cons e r =>
      cases e with
      | panic =>
        simp only [writeLoop]
        apply Sat.onUnwind
        apply Sat.panic
        apply Sat.unwindDrop
        · intro hd; exact ⟨c.mem, rfl, Or.inr ⟨by simp [It.items], rfl, hd⟩⟩
        · intro hd; exact Or.inr ⟨by simp [It.items], hd⟩
      | item a =>
        simp only [writeLoop]
        apply Sat.bind
        apply Sat.onFst
        have hlt := ridx_lt (j := w) ho (by omega)
        refine sat_forceWrite hlt ?_
        vc
        rw [ridx_ridx ho (by omega)]
        refine Sat.imp (ih r (w + 1) (k + 1) _ (by omega) (by omega)) ?_ ?_ ?_
        · rintro w' s ⟨m, hs, h⟩
          refine ⟨m, hs, ?_⟩
          simp only [It.items, List.length_cons, List.take_succ_cons, List.drop_succ_cons, Nat.add_le_add_iff_right,
            Nat.add_lt_add_iff_right]
          rcases h with ⟨h1, h2, h3, h4⟩ | ⟨h1, h2, h3⟩
          · refine Or.inl ⟨h1, by omega, ?_, h4⟩
            rw [h3]; dsimp only; rw [lm_put (by omega), Mem.putList_cons]
          · exact Or.inr ⟨h1, by omega, h3⟩
        · rintro s ⟨m, hs, h⟩
          refine ⟨m, hs, ?_⟩
          simpa [It.items] using h
        · intro h
          simpa [It.items] using h

/-- Filling a gap of `n` places at position `i`. -/
theorem fillGap_sat (hW : 2 * N < E.W) (dp : A → Bool) (i n : Nat) (it : It A) (c : Ring A) (l log : List A)
    (ho : c.origin < N) (hn : l.length + n ≤ N) (hi : i ≤ l.length) (hl : c.length = l.length + n)
    (q1 : ∀ j, j < i → lm N c.origin c.mem j = l[j]?)
    (q2 : ∀ j, i + n ≤ j → j < l.length + n → lm N c.origin c.mem j = l[j - n]?) :
    Ref (RelLog (Rep N)) (fillGap E N dp i n it (c, log)) (Spec.insertFrom N dp i n it (l, log)) := by
  have hc : l.length + n ≤ N ∧ i ≤ l.length := ⟨hn, hi⟩
  generalize hS : Spec.insertFrom N dp i n it (l, log) = S
  unfold fillGap Ref
  vc
  refine Sat.imp (writeLoop_sat hW dp n it _ i 0 _ log ho (by omega) (by omega)) ?_ ?_ ?_
  · rintro k' ⟨c', log'⟩ ⟨m, hs, h⟩
    simp only [Nat.zero_add] at hs h
    subst hs
    vc
    · rcases h with ⟨p1, p2, p3, p4⟩ | ⟨p1, p2, p3, p4⟩
      · omega
      · rw [← hS, Chunk.specInsertFrom_short hc p1, p4]
        subst p3
        exact ⟨([], log'), by simp [Spec.panicDropping], Rep.empty ho, rfl⟩
    · rcases h with ⟨p1, p2, p3, p4, p5⟩ | ⟨p1, p2, p3, p4⟩
      · rw [← hS, Chunk.specInsertFrom_ok hc p1 p5]
        subst p4
        have hlen : (it.items.take n).length = n := by simp; omega
        generalize it.items.take n = xs at *
        refine ⟨_, rfl, Rep.mk' ho (by simp; omega) (by simp; omega) ?_, rfl⟩
        intro j hj
        have hj' : j < l.length + n := by simp at hj; omega
        rw [p3]
        unfold Mem.putList
        by_cases h1 : j < i
        · rw [if_neg (by omega), q1 j h1]; grind
        · by_cases h2 : j < i + n
          · rw [if_pos (by omega)]; grind
          · rw [if_neg (by omega), q2 j (by omega) hj', List.getElem?_append_right (by simp; omega), List.getElem?_drop]
            congr 1; simp; omega
      · omega
  · rintro ⟨c', log'⟩ ⟨m, hs, h⟩
    simp only at hs h
    subst hs
    rcases h with ⟨p1, p2, p3⟩ | ⟨p1, p2, p3⟩
    · subst p2
      rw [← hS, Chunk.specInsertFrom_late hc p1 p3]
      exact ⟨_, rfl, Rep.empty ho, rfl⟩
    · subst p2
      rw [← hS, Chunk.specInsertFrom_short hc p1]; simp only [Spec.panicDropping, p3]
      exact ⟨_, rfl, Rep.empty ho, rfl⟩
  · rintro (⟨p1, p2⟩ | ⟨p1, p2⟩)
    · rw [← hS, Chunk.specInsertFrom_abort hc p1 p2]
    · rw [← hS, Chunk.specInsertFrom_short hc p1]; simp [Spec.panicDropping, p2]

theorem insertFrom_ref (hW : 2 * N < E.W) (dp : A → Bool) (i n : Nat) (it : It A) {c : Ring A} {l : List A}
    (h : Rep N c l) (log : List A) (hn : E.debug = true ∨ N + n < E.W) :
    Ref (RelLog (Rep N)) (insertFrom E N dp i n it (c, log)) (Spec.insertFromOrExtend N dp i n it (l, log)) := by
  have h' := h
  obtain ⟨h1, h2, h3, h4⟩ := h'
  generalize hS : Spec.insertFromOrExtend N dp i n it (l, log) = S
  unfold insertFrom Ref
  simp only [M.lenCall_some]
  apply Sat.bind
  apply Sat.onUnwind
  apply Sat.onFst
  by_cases hc : l.length + n ≤ N ∧ i ≤ l.length
  · unfold insertFromChecks
    vc
    · -- at the end
      have := extend_ref hW dp it h log
      rw [← hS]
      simp only [Spec.insertFromOrExtend]
      rw [if_pos (by omega)]
      exact this
    · refine sat_shiftRight hW h (by omega) (by omega) ?_
      intro c' a1 a2 a3 a4 _
      have := fillGap_sat hW dp i n it c' l log a1 hc.1 hc.2 a2 a3 a4
      rw [← hS]
      simp only [Spec.insertFromOrExtend]
      rw [if_neg (by omega)]
      exact this
    · refine sat_shiftLeft hW h (by omega) (by omega) ?_
      intro c' a1 a2 a3 a4 _
      have := fillGap_sat hW dp i n it c' l log a1 hc.1 hc.2 a2 a3 a4
      rw [← hS]
      simp only [Spec.insertFromOrExtend]
      rw [if_neg (by omega)]
      exact this
  · unfold insertFromChecks
    have fin : Sat (dropSlice dp it.owned (c, log))
        (fun _ s'' => ∃ t, S = .panic t ∧ RelLog (Rep N) s'' t) (fun _ => S = .abort) (S = .abort) := by
      have e : S = Spec.panicDropping dp it.owned l log := by
        rw [← hS]
        simp only [Spec.insertFromOrExtend]
        rw [if_neg (by omega), Chunk.specInsertFrom_refuse hc]
      rw [e]
      apply Sat.unwindDrop (P := fun s'' => ∃ t, Spec.panicDropping (β := Unit) dp it.owned l log = .panic t ∧ RelLog (Rep N) s'' t)
      · intro hd; simp only [Spec.panicDropping, hd]; exact ⟨_, rfl, h, rfl⟩
      · intro hd; simp only [Spec.panicDropping, hd]; rfl
    rcases hn with hd | hd
    · unfold uadd
      simp only [hd, if_true]
      vc
      all_goals exact fin
    · vc
      all_goals exact fin

/-! ### clone -/

theorem bornOf_length_le (cl : A → Option A) (l : List A) : (Spec.bornOf cl l).length ≤ l.length := by
  induction l with
  | nil => simp [Spec.bornOf]
  | cons a r ih => simp only [Spec.bornOf]; split <;> simp; exact ih

/-- Cloning one more item. -/
theorem bornOf_take_succ (cl : A → Option A) (l : List A) (k : Nat) (a : A) (h : l[k]? = some a)
    (hk : (Spec.bornOf cl (l.take k)).length = k) : Spec.bornOf cl (l.take (k + 1)) =
      Spec.bornOf cl (l.take k) ++ (cl a).toList := by
  induction l generalizing k with
  | nil => simp at h
  | cons b r ih =>
    cases k with
    | zero =>
      simp at h; subst h
      simp only [List.take_succ_cons, List.take_zero, Spec.bornOf]
      cases cl b <;> simp
    | succ k =>
      simp only [List.take_succ_cons, Spec.bornOf] at hk ⊢
      cases hb : cl b with
      | none => rw [hb] at hk; simp at hk
      | some b' =>
        rw [hb] at hk
        simp only [List.length_cons, Nat.add_right_cancel_iff] at hk
        simp only [List.cons_append]
        rw [ih k (by simpa using h) hk]

theorem bornOf_stop (cl : A → Option A) (l : List A) (k : Nat) (a : A) (h : l[k]? = some a) (ha : cl a = none)
    (hk : (Spec.bornOf cl (l.take k)).length = k) : Spec.bornOf cl l = Spec.bornOf cl (l.take k) := by
  induction l generalizing k with
  | nil => simp
  | cons b r ih =>
    cases k with
    | zero =>
      simp at h; subst h
      simp [Spec.bornOf, ha]
    | succ k =>
      simp only [List.take_succ_cons, Spec.bornOf] at hk ⊢
      cases hb : cl b with
      | none => rfl
      | some b' =>
        rw [hb] at hk
        simp only [List.length_cons, Nat.add_right_cancel_iff] at hk
        simp only
        rw [ih k (by simpa using h) hk]

theorem clone_ref (hN : 0 < N) (hW : 2 * N < E.W) (dp : A → Bool) (cl : A → Option A) {c : Ring A} {l : List A} (h : Rep N c l)
    (log : List A) :
    RefV (fun o k => Rep N o k ∧ o.origin = c.origin) (fun s t => s.1 = c ∧ RelLog (Rep N) s t)
      (clone E N dp cl (c, log)) (Spec.clone dp cl (l, log)) := by
  have h' := h
  obtain ⟨h1, h2, h3, h4⟩ := h'
  have hbl := bornOf_length_le cl l
  unfold clone RefV Spec.clone
  apply Sat.bind
  apply Sat.onFst
  apply Sat.get
  apply Sat.bind
  apply sat_new hN
  apply Sat.bind
  apply Sat.onFst
  refine sat_range hW h1 (by omega) ?_
  apply Sat.bind
  apply Sat.withLocal
  apply Sat.onFst
  apply Sat.onFst
  rw [h2]
  refine Sat.imp (Q' := fun _ s => (Spec.bornOf cl l).length = l.length ∧ s.origin = c.origin ∧ Rep N s (Spec.bornOf cl l))
    (P' := fun s => (Spec.bornOf cl l).length < l.length ∧ Rep N s (Spec.bornOf cl l)) (B' := False) ?_ ?_ ?_ ?_
  · refine sat_forIdx0 hW h1 (I := fun k s => s.origin = c.origin ∧ (Spec.bornOf cl (l.take k)).length = k ∧
      Rep N s (Spec.bornOf cl (l.take k))) _ _ h3 ?_ ?_ ?_
    · refine ⟨rfl, by simp [Spec.bornOf], ?_⟩
      simpa [Spec.bornOf] using Rep.empty (m := Mem.uninit) h1
    · rintro k ⟨o', n', m⟩ hk ⟨e1, e2, e3⟩
      dsimp only at e1; subst e1
      obtain ⟨r1, r2, r3, r4⟩ := e3
      dsimp only at r1 r2 r4
      have hl : l[k]? = some l[k] := List.getElem?_eq_getElem hk
      have hm := (h.cell' hl).2
      simp only [lm, show k < N by omega, if_true] at hm
      have hlt := ridx_lt (j := k) h1 (by omega)
      unfold cloneBody
      vc
      refine Sat.memRead hlt hm ?_
      cases hca : cl l[k] with
      | none =>
        simp only
        apply Sat.panic
        have := bornOf_stop cl l k _ hl hca e2
        rw [this]
        exact ⟨by omega, ⟨r1, r2, r3, r4⟩⟩
      | some b =>
        have e4 := bornOf_take_succ cl l k _ hl e2
        rw [hca] at e4
        simp only [Option.toList_some] at e4
        simp only
        vc
        rw [e4]
        refine ⟨rfl, by simp [e2], Rep.mk' h1 (by simp; omega) (by simp; omega) ?_⟩
        rw [lm_put (by omega)]
        grind [Mem.put]
    · rintro s ⟨e1, e2, e3⟩
      rw [List.take_length] at e2 e3
      exact ⟨e2, e1, e3⟩
  · rintro _ s ⟨q1, q2, q3⟩
    simp only [q1, if_true]
    exact ⟨_, _, rfl, ⟨q3, q2⟩, rfl, h, rfl⟩
  · rintro s ⟨q1, q2⟩
    have : ¬ (Spec.bornOf cl l).length = l.length := by omega
    simp only [this, if_false]
    apply dropLocal_sat hW dp q2
    · intro hd
      simp only [Spec.panicDropping, hd]
      exact ⟨_, rfl, trivial, h, rfl⟩
    · intro hd
      simp [Spec.panicDropping, hd]
  · simp

/-! ### io -/

theorem readLoop_ref (hW : 2 * N < E.W) (n : Nat) {c : Ring A} {l : List A} (h : Rep N c l) (hn : n ≤ l.length) :
    Sat (readLoop E N n c) (fun out s => out = l.take n ∧ Rep N s (l.drop n)) (fun _ => False) False := by
  induction n generalizing c l with
  | zero => simp [readLoop, Sat]; exact h
  | succ n ih =>
    cases l with
    | nil => simp at hn
    | cons a r =>
      simp only [readLoop]
      apply Sat.bind
      refine Sat.imp (popFront_ref hW h) ?_ ?_ ?_
      · rintro a' s ⟨t, ht, hr⟩
        simp [Spec.popFront?] at ht
        obtain ⟨rfl, rfl⟩ := ht
        simp only
        apply Sat.bind
        refine Sat.imp (ih hr (by simpa using hn)) ?_ (by simp) (by simp)
        rintro out s' ⟨rfl, hr'⟩
        exact ⟨by simp, by simpa using hr'⟩
      · rintro s ⟨t, ht, hr⟩; simp [Spec.popFront?] at ht
      · intro ht; simp [Spec.popFront?] at ht

theorem read_ref (hW : 2 * N < E.W) (n : Nat) {c : Ring A} {l : List A} (h : Rep N c l) :
    Ref (Rep N) (read E N n c) (Spec.read n l) := by
  unfold read Ref Spec.read
  apply Sat.bind
  rw [getLen_eq h]
  simp only [Sat.eq_1]
  apply Sat.ite
  · intro hz
    apply Sat.pure
    refine ⟨_, ?_, h⟩
    rcases Nat.eq_zero_or_pos n with h0 | h0
    · subst h0; simp
    · have : l = [] := by
        have : l.length = 0 := by omega
        simpa using this
      subst this; simp
  · intro hz
    apply Sat.bind
    refine Sat.imp (readLoop_ref hW _ h (by omega)) ?_ (by simp) (by simp)
    rintro out s ⟨rfl, hr⟩
    apply Sat.pure
    have e1 : l.take (min n l.length) = l.take n := by rw [List.take_eq_take_iff]; omega
    have e2 : l.drop (min n l.length) = l.drop n := by
      rcases Nat.le_total n l.length with h0 | h0
      · rw [Nat.min_eq_left h0]
      · rw [Nat.min_eq_right h0]; simp [h0]
    rw [e2] at hr
    exact ⟨_, by rw [e1], hr⟩

end Ring
end Verif
