import Verif.Chunk.Lemmas
/-
Helper lemmas for `Chunk`, continued: destructors, iterators, bulk insertion, cloning, io.
-/
namespace Verif

section
variable {σ τ α A : Type}
theorem any_false_iff_countP {dp : A → Bool} {l : List A} : l.any dp = false ↔ l.countP dp = 0 := by
  rw [List.countP_eq_zero]; simp
theorem any_true_iff_countP {dp : A → Bool} {l : List A} : l.any dp = true ↔ 1 ≤ l.countP dp := by
  rw [Nat.one_le_iff_ne_zero, ne_eq, ← any_false_iff_countP]; simp

theorem dropSlice_zero {dp : A → Bool} {l : List A} (h : l.countP dp = 0) (s : σ) (log : List A) :
    dropSlice dp l (s, log) = .ok () (s, log ++ l) := by simp [dropSlice, h]
theorem dropSlice_one {dp : A → Bool} {l : List A} (h : l.countP dp = 1) (s : σ) (log : List A) :
    dropSlice dp l (s, log) = .panic (s, log ++ l) := by simp [dropSlice, h]
theorem dropSlice_two {dp : A → Bool} {l : List A} (h : 2 ≤ l.countP dp) (s : σ) (log : List A) :
    dropSlice dp l (s, log) = .abort := by
  unfold dropSlice; split <;> first | rfl | omega

theorem dropping_zero {dp : A → Bool} {d : List A} (h : d.countP dp = 0) (l l' log : List A) :
    Spec.dropping dp d l l' log = .ok () (l', log ++ d) := by simp [Spec.dropping, h]
theorem dropping_one {dp : A → Bool} {d : List A} (h : d.countP dp = 1) (l l' log : List A) :
    Spec.dropping dp d l l' log = .panic (l, log ++ d) := by simp [Spec.dropping, h]
theorem dropping_two {dp : A → Bool} {d : List A} (h : 2 ≤ d.countP dp) (l l' log : List A) :
    Spec.dropping dp d l l' log = .abort := by
  unfold Spec.dropping; split <;> first | rfl | omega

/-- Dropping `d` while already panicking. -/
theorem Sat.unwindDrop {dp : A → Bool} {d : List A} {s : σ} {log : List A} {P : σ × List A → Prop} {B : Prop}
    (h0 : d.any dp = false → P (s, log ++ d)) (h1 : d.any dp = true → B) :
    Sat (Verif.dropSlice dp d (s, log)) (fun _ s'' => P s'') (fun _ => B) B := by
  apply Sat.dropSlice
  · intro h; exact h0 (any_false_iff_countP.2 h)
  · intro h; exact h1 (any_true_iff_countP.2 (by omega))
  · intro h; exact h1 (any_true_iff_countP.2 (by omega))

theorem Mem.putList_nil (m : Mem A) (w : Nat) : m.putList w [] = m := by
  funext j; simp only [Mem.putList, List.length_nil]; split
  · omega
  · rfl
theorem Mem.putList_cons (m : Mem A) (w : Nat) (a : A) (l : List A) :
    (m.put w a).putList (w + 1) l = m.putList w (a :: l) := by
  funext j; grind [Mem.putList, Mem.put]
end

namespace Chunk
variable {A : Type} {E : Env} {N : Nat}

theorem len_eq {c : Chunk A} {l : List A} (h : Rep N c l) : len E c = .ok l.length c := by
  obtain ⟨h1, h2, h3⟩ := h
  have : c.left ≤ c.right := by omega
  simp [len, getLeft, getRight, usub_ok this]; omega
theorem isEmpty_eq {c : Chunk A} {l : List A} (h : Rep N c l) : isEmpty c = .ok l.isEmpty c := by
  obtain ⟨h1, h2, h3⟩ := h
  simp only [isEmpty, getLeft, getRight, M.bind_run, Out.andThen_ok, M.pure_run]
  congr 1
  rw [h1]; cases l <;> simp
theorem isFull_eq {c : Chunk A} {l : List A} (h : Rep N c l) : isFull N c = .ok (decide (l.length = N)) c := by
  obtain ⟨h1, h2, h3⟩ := h
  simp only [isFull, getLeft, getRight, M.bind_run, Out.andThen_ok, M.pure_run]
  congr 1
  apply decide_eq_decide.2; omega
theorem asSlice_eq {c : Chunk A} {l : List A} (h : Rep N c l) : asSlice E N c = .ok l c := by
  have := sat_asSlice (E := E) (Q := fun l' c' => l' = l ∧ c' = c) (P := fun _ => False) (B := False) h ⟨rfl, rfl⟩
  cases hx : asSlice E N c <;> rw [hx] at this <;> simp [Sat] at this
  obtain ⟨rfl, rfl⟩ := this; rfl

/-! ### Destructors -/

theorem drop_ref (dp : A → Bool) {c : Chunk A} {l : List A} (h : Rep N c l) (log : List A) :
    Ref (RelLog (Rep N)) (drop E N dp (c, log)) (Spec.drop dp (l, log)) := by
  unfold drop Ref Spec.drop
  vc
  refine sat_asSlice h ?_
  apply Sat.dropSlice
  · intro hc; rw [dropping_zero hc]; exact ⟨_, rfl, h, rfl⟩
  · intro hc; rw [dropping_one hc]; exact ⟨_, rfl, h, rfl⟩
  · intro hc; rw [dropping_two hc]

theorem clear_ref (dp : A → Bool) {c : Chunk A} {l : List A} (h : Rep N c l) (log : List A) :
    Ref (RelLog (Rep N)) (clear E N dp (c, log)) (Spec.clear dp (l, log)) := by
  unfold clear Ref Spec.clear
  simp only
  vc
  refine sat_asSlice h ?_
  vc
  apply Sat.dropSlice
  · intro hc
    rw [dropping_zero hc]
    vc
    refine ⟨_, rfl, ?_, rfl⟩
    rep
  · intro hc
    rw [dropping_one hc]
    exact ⟨_, rfl, h, rfl⟩
  · intro hc
    rw [dropping_two hc]

theorem dropLeft_ref (hN : N < E.W) (dp : A → Bool) (i : Nat) {c : Chunk A} {l : List A} (h : Rep N c l)
    (log : List A) : Ref (RelLog (Rep N)) (dropLeft E N dp i (c, log)) (Spec.dropLeft dp i (l, log)) := by
  unfold dropLeft Ref Spec.dropLeft
  have h' := h
  obtain ⟨h1, h2, h3⟩ := h'
  simp only
  by_cases hi : i ≤ l.length
  · rw [if_pos hi]
    vc
    · refine sat_asSlice h ?_
      vc
      apply Sat.dropSlice
      · intro hc
        rw [dropping_zero hc]
        vc
        refine ⟨_, rfl, ?_, rfl⟩
        rep
      · intro hc
        rw [dropping_one hc]
        exact ⟨_, rfl, h, rfl⟩
      · intro hc
        rw [dropping_two hc]
    · have : i = 0 := by omega
      subst this
      simp [Spec.dropping]
      exact ⟨h, rfl⟩
  · rw [if_neg hi]
    vc
    refine sat_asSlice h ?_
    vc
    exact ⟨_, rfl, h, rfl⟩

theorem dropRight_ref (hN : N < E.W) (dp : A → Bool) (i : Nat) {c : Chunk A} {l : List A} (h : Rep N c l)
    (log : List A) : Ref (RelLog (Rep N)) (dropRight E N dp i (c, log)) (Spec.dropRight dp i (l, log)) := by
  unfold dropRight Ref Spec.dropRight
  have h' := h
  obtain ⟨h1, h2, h3⟩ := h'
  simp only
  by_cases hi : i ≤ l.length
  · rw [if_pos hi]
    vc
    · refine sat_asSlice h ?_
      vc
      apply Sat.dropSlice
      · intro hc
        rw [dropping_zero hc]
        vc
        refine ⟨_, rfl, ?_, rfl⟩
        rep
      · intro hc
        rw [dropping_one hc]
        exact ⟨_, rfl, h, rfl⟩
      · intro hc
        rw [dropping_two hc]
    · rename_i hne
      have : i = l.length := by omega
      subst this
      simp [Spec.dropping]
      exact ⟨h, rfl⟩
  · rw [if_neg hi]
    vc
    refine sat_asSlice h ?_
    vc
    exact ⟨_, rfl, h, rfl⟩

/-! ### Iterators -/

theorem iterNext_ref (hN : N < E.W) {c : Chunk A} {l : List A} (h : Rep N c l) :
    Ref (Rep N) (iterNext E N c) (Spec.popFront? l) := by
  have h2 := popFront_ref hN h
  simp only [iterNext, M.bind_run, isEmpty_eq h, Out.andThen_ok, M.ite_run, M.pure_run]
  cases l with
  | nil => simp [Spec.popFront?]; exact ⟨_, rfl, h⟩
  | cons a r =>
    simp only [List.isEmpty_cons, Bool.false_eq_true, if_false]
    simp only [Spec.popFront] at h2
    cases hx : popFront E N c <;> rw [hx] at h2 <;> simp [Ref, Sat] at h2
    simp [Spec.popFront?]
    obtain ⟨t, ⟨rfl, rfl⟩, h3⟩ := h2
    exact ⟨_, rfl, h3⟩

theorem iterNextBack_ref {c : Chunk A} {l : List A} (h : Rep N c l) :
    Ref (Rep N) (iterNextBack E N c) (Spec.popBack? l) := by
  have h2 := popBack_ref (E := E) h
  simp only [iterNextBack, M.bind_run, isEmpty_eq h, Out.andThen_ok, M.ite_run, M.pure_run]
  by_cases hl : l = []
  · subst hl; simp [Spec.popBack?]; exact ⟨_, rfl, h⟩
  · have : l.isEmpty = false := by simpa using hl
    simp only [this, Bool.false_eq_true, if_false]
    simp only [Spec.popBack, List.getLast?_eq_some_getLast hl] at h2
    cases hx : popBack E N c <;> rw [hx] at h2 <;> simp [Ref, Sat] at h2
    simp [Spec.popBack?, List.getLast?_eq_some_getLast hl]
    obtain ⟨t, ⟨rfl, rfl⟩, h3⟩ := h2
    exact ⟨_, rfl, h3⟩

theorem sizeHint_eq {c : Chunk A} {l : List A} (h : Rep N c l) :
    sizeHint E c = .ok (l.length, some l.length) c := by
  simp [sizeHint, len_eq h]

/-! ### extend, from_iter, collect_from -/

theorem pushBackOwned_ref (hN : N < E.W) (dp : A → Bool) (v : A) {c : Chunk A} {l : List A} (h : Rep N c l)
    (log : List A) : Ref (RelLog (Rep N)) (pushBackOwned E N dp v (c, log))
      (if l.length < N then .ok () (l ++ [v], log) else Spec.panicDropping dp [v] l log) := by
  unfold pushBackOwned Ref
  apply Sat.onUnwind
  apply Sat.onFst
  refine Sat.imp (pushBack_ref hN h v) ?_ ?_ ?_
  · rintro a s ⟨t, ht, hr⟩
    simp only [Spec.pushBack] at ht
    split at ht <;> simp at ht
    subst ht
    rw [if_pos (by assumption)]
    exact ⟨_, rfl, hr, rfl⟩
  · rintro s ⟨t, ht, hr⟩
    simp only [Spec.pushBack] at ht
    split at ht <;> simp at ht
    subst ht
    rw [if_neg (by assumption)]
    apply Sat.dropOne
    · intro hd; simp only [Spec.panicDropping, List.any_cons, hd]; simp; exact ⟨hr, rfl⟩
    · intro hd; simp [Spec.panicDropping, hd]
  · intro hb
    simp only [Spec.pushBack] at hb
    split at hb <;> cases hb

theorem extend_ref (hN : N < E.W) (dp : A → Bool) (it : It A) {c : Chunk A} {l : List A} (h : Rep N c l)
    (log : List A) : Ref (RelLog (Rep N)) (extend E N dp it (c, log)) (Spec.extend N dp it (l, log)) := by
  induction it generalizing c l with
  | nil => simp only [extend, Spec.extend]; exact ⟨_, rfl, h, rfl⟩
  | cons e r ih =>
    cases e with
    | panic =>
      simp only [extend, Spec.extend, Spec.panicDropping]
      apply Sat.onUnwind
      apply Sat.panic
      apply Sat.unwindDrop
      · intro hd; simp [hd]; exact ⟨h, rfl⟩
      · intro hd; simp [hd]
    | item a =>
      simp only [extend, Spec.extend]
      apply Sat.bind
      apply Sat.onUnwind
      refine Sat.imp (pushBackOwned_ref hN dp a h log) ?_ ?_ ?_
      · rintro _ ⟨c', log'⟩ ⟨t, ht, hr⟩
        split at ht
        · simp at ht; subst ht
          rw [if_pos (by assumption)]
          obtain ⟨hr1, hr2⟩ := hr
          simp only at hr1 hr2
          subst hr2
          exact ih hr1
        · simp only [Spec.panicDropping] at ht; split at ht <;> simp at ht
      · rintro ⟨c', log'⟩ ⟨t, ht, hr⟩
        split at ht
        · simp at ht
        · rw [if_neg (by assumption)]
          simp only [Spec.panicDropping, List.any_cons, List.any_nil, Bool.or_false] at ht
          split at ht
          · simp at ht
          · rename_i hd
            simp at ht; subst ht
            obtain ⟨hr1, hr2⟩ := hr
            simp only at hr1 hr2
            subst hr2
            have hd' : dp a = false := by simpa using hd
            apply Sat.unwindDrop
            · intro hd2; simp only [Spec.panicDropping, List.any_cons, hd', hd2]
              refine ⟨_, by simp; rfl, hr1, by simp⟩
            · intro hd2; simp [Spec.panicDropping, hd2]
      · intro hb
        split at hb
        · cases hb
        · rw [if_neg (by assumption)]
          simp only [Spec.panicDropping] at hb ⊢
          split at hb
          · rename_i hd
            have : dp a = true := by simpa using hd
            simp [this]
          · cases hb

theorem Sat.atFst {σ α : Type} {x : M (Chunk A × List A) α} {c : Chunk A} {t : σ} {log : List A}
    {Q : α → (Chunk A × σ) × List A → Prop} {P : (Chunk A × σ) × List A → Prop} {B : Prop}
    (h : Sat (x (c, log)) (fun a p => Q a ((p.1, t), p.2)) (fun p => P ((p.1, t), p.2)) B) :
    Sat (atFst x ((c, t), log)) Q P B := by
  unfold Chunk.atFst
  cases hx : x (c, log) <;> simp_all [Sat]

theorem dropLocal_sat {σ : Type} (dp : A → Bool) {c : Chunk A} {l : List A} (h : Rep N c l) (t : σ) (log : List A)
    {P : (Chunk A × σ) × List A → Prop} {B : Prop}
    (h0 : l.any dp = false → P ((c, t), log ++ l)) (h1 : l.any dp = true → B) :
    Sat (dropLocal E N dp ((c, t), log)) (fun _ s => P s) (fun _ => B) B := by
  unfold dropLocal
  apply Sat.atFst
  unfold drop
  vc
  refine sat_asSlice h ?_
  apply Sat.unwindDrop (P := fun p => P ((p.1, t), p.2))
  · exact h0
  · exact h1

theorem Sat.mapState' {σ τ α : Type} {f : σ → τ} {o : Out σ α} {Q : α → τ → Prop} {P : τ → Prop} {B : Prop}
    (h : Sat o (fun a s => Q a (f s)) (fun s => P (f s)) B) : Sat (o.mapState f) Q P B := by
  cases o <;> exact h

theorem fromIter_ref (hN : N < E.W) (dp : A → Bool) (it : It A) (log : List A) :
    RefV (Rep N) Eq (fromIter E N dp it log) (Spec.fromIter N dp it log) := by
  unfold fromIter RefV Spec.fromIter
  apply Sat.mapState'
  apply Sat.bind
  apply Sat.withLocal
  apply Sat.atFst
  refine Sat.imp (extend_ref hN dp it Rep.new log) ?_ ?_ ?_
  · rintro _ ⟨c', log'⟩ ⟨t, ht, hr⟩
    rw [ht]
    obtain ⟨hr1, hr2⟩ := hr
    simp only at hr1 hr2; subst hr2
    exact ⟨_, _, rfl, hr1, rfl⟩
  · rintro ⟨c', log'⟩ ⟨t, ht, hr⟩
    rw [ht]
    obtain ⟨hr1, hr2⟩ := hr
    simp only at hr1 hr2; subst hr2
    apply dropLocal_sat dp hr1
    · intro hd; simp [hd]
    · intro hd; simp [hd]
  · intro hb
    rw [hb]

theorem It.items_length_cons_item (a : A) (r : It A) : (It.items (.item a :: r)).length = (It.items r).length + 1 := rfl

/-- State of the borrowed-iterator loop. -/
def RelC (N : Nat) (s : (Chunk A × It A) × List A) (t : (List A × It A) × List A) : Prop :=
  Rep N s.1.1 t.1.1 ∧ s.1.2 = t.1.2 ∧ s.2 = t.2

/-- What the loop of `collect_from` amounts to on lists. -/
def specCollectLoop (N : Nat) (dp : A → Bool) (n : Nat) (l : List A) (it : It A) (log : List A) :
    Out ((List A × It A) × List A) Unit :=
  if n ≤ it.items.length ∧ l.length + n ≤ N then .ok () ((l ++ it.items.take n, it.drop n), log)
  else if it.items.length + l.length ≤ N then
    .panic ((l ++ it.items, it.drop (it.items.length + 1)), log)
  else if ((it.items.drop (N - l.length)).take 1).any dp = true then .abort
  else .panic ((l ++ it.items.take (N - l.length), it.drop (N - l.length + 1)), log ++ (it.items.drop (N - l.length)).take 1)

theorem collectLoop_ref (hN : N < E.W) (dp : A → Bool) (n : Nat) {c : Chunk A} {l : List A} (h : Rep N c l)
    (it : It A) (log : List A) :
    Ref (RelC N) (collectLoop E N dp n ((c, it), log)) (specCollectLoop N dp n l it log) := by
  induction n generalizing c l it with
  | zero =>
    have hl := h.length_le
    simp only [collectLoop, specCollectLoop]
    simp [hl]
    exact ⟨_, rfl, h, rfl, rfl⟩
  | succ n ih =>
    have hl := h.length_le
    simp only [collectLoop]
    apply Sat.bind
    apply Sat.onFst
    apply Sat.onSnd
    cases it with
    | nil =>
      simp only [itNext, Sat]
      simp [specCollectLoop, It.items, hl]
      exact ⟨h, rfl, rfl⟩
    | cons e r =>
      cases e with
      | panic =>
        simp only [itNext, Sat]
        simp [specCollectLoop, It.items, hl]
        exact ⟨h, rfl, rfl⟩
      | item a =>
        simp only [itNext, Sat]
        apply Sat.bind
        apply Sat.atFst
        refine Sat.imp (pushBackOwned_ref hN dp a h log) ?_ ?_ ?_
        · rintro _ ⟨c', log'⟩ ⟨t, ht, hr⟩
          by_cases hlt : l.length < N
          · rw [if_pos hlt] at ht
            simp at ht; subst ht
            obtain ⟨hr1, hr2⟩ := hr
            simp only at hr1 hr2
            subst hr2
            have e : specCollectLoop N dp (n + 1) l (.item a :: r) log'
                = specCollectLoop N dp n (l ++ [a]) r log' := by
              have hN' : N - l.length = N - (l.length + 1) + 1 := by omega
              simp only [specCollectLoop, It.items, List.length_cons, List.length_append, List.length_nil,
                Nat.add_le_add_iff_right, List.take_succ_cons, List.drop_succ_cons, hN', List.append_assoc,
                List.singleton_append, Nat.zero_add]
              have e1 : (n ≤ (It.items r).length ∧ l.length + (n + 1) ≤ N) ↔ (n ≤ (It.items r).length ∧ l.length + 1 + n ≤ N) := by omega
              have e2 : ((It.items r).length + 1 + l.length ≤ N) ↔ ((It.items r).length + (l.length + 1) ≤ N) := by omega
              simp only [e1, e2]
            rw [e]
            exact ih hr1 r
          · rw [if_neg hlt] at ht
            simp only [Spec.panicDropping] at ht; split at ht <;> simp at ht
        · rintro ⟨c', log'⟩ ⟨t, ht, hr⟩
          by_cases hlt : l.length < N
          · rw [if_pos hlt] at ht; cases ht
          · rw [if_neg hlt] at ht
            have hz : N - l.length = 0 := by omega
            have e1 : ¬ (n + 1 ≤ (It.items (.item a :: r)).length ∧ l.length + (n + 1) ≤ N) := by omega
            have e2 : ¬ ((It.items (.item a :: r)).length + l.length ≤ N) := by
              rw [It.items_length_cons_item]; omega
            simp only [specCollectLoop]
            rw [if_neg e1, if_neg e2]
            simp only [hz, It.items, List.drop_zero, List.take_succ_cons, List.take_zero]
            simp only [Spec.panicDropping] at ht
            split at ht
            · cases ht
            · rename_i hd
              rw [if_neg hd]
              simp at ht; subst ht
              obtain ⟨hr1, hr2⟩ := hr
              simp only at hr1 hr2
              subst hr2
              refine ⟨_, rfl, ?_⟩; exact ⟨by simpa using hr1, rfl, rfl⟩
        · intro hb
          by_cases hlt : l.length < N
          · rw [if_pos hlt] at hb; cases hb
          · rw [if_neg hlt] at hb
            have hz : N - l.length = 0 := by omega
            have e1 : ¬ (n + 1 ≤ (It.items (.item a :: r)).length ∧ l.length + (n + 1) ≤ N) := by omega
            have e2 : ¬ ((It.items (.item a :: r)).length + l.length ≤ N) := by
              rw [It.items_length_cons_item]; omega
            simp only [specCollectLoop]
            rw [if_neg e1, if_neg e2]
            simp only [hz, It.items, List.drop_zero, List.take_succ_cons, List.take_zero]
            simp only [Spec.panicDropping] at hb
            split at hb
            · rename_i hd; rw [if_pos hd]
            · cases hb

theorem collectFrom_ref (hN : N < E.W) (dp : A → Bool) (n : Nat) (it : It A) (log : List A) :
    RefV (Rep N) Eq (collectFrom E N dp n (it, log)) (Spec.collectFrom N dp n (it, log)) := by
  unfold collectFrom RefV Spec.collectFrom
  apply Sat.bind
  apply Sat.withLocal
  refine Sat.imp (collectLoop_ref hN dp n Rep.new it log) ?_ ?_ ?_
  · rintro _ ⟨⟨c', it'⟩, log'⟩ ⟨t, ht, hr⟩
    simp only [specCollectLoop, List.length_nil, Nat.zero_add, List.nil_append, Nat.add_zero, Nat.sub_zero] at ht
    obtain ⟨hr1, hr2, hr3⟩ := hr
    split at ht
    · rename_i hc
      simp at ht; subst ht
      simp only at hr1 hr2 hr3
      subst hr2; subst hr3
      rw [if_pos hc.1, if_pos hc.2]
      exact ⟨_, _, rfl, hr1, rfl⟩
    · split at ht
      · cases ht
      · split at ht <;> cases ht
  · rintro ⟨⟨c', it'⟩, log'⟩ ⟨t, ht, hr⟩
    simp only [specCollectLoop, List.length_nil, Nat.zero_add, List.nil_append, Nat.add_zero, Nat.sub_zero] at ht
    obtain ⟨hr1, hr2, hr3⟩ := hr
    split at ht
    · cases ht
    · rename_i hc
      split at ht
      · rename_i hc2
        simp at ht; subst ht
        simp only at hr1 hr2 hr3
        subst hr2; subst hr3
        have hc3 : ¬ n ≤ it.items.length := by omega
        rw [if_neg hc3, if_pos hc2]
        apply dropLocal_sat dp hr1
        · intro hd; simp [hd]
        · intro hd; simp [hd]
      · rename_i hc2
        split at ht
        · cases ht
        · rename_i hd
          simp at ht; subst ht
          simp only at hr1 hr2 hr3
          subst hr2; subst hr3
          have e : (it.items.take (N + 1)).any dp = (it.items.take N).any dp := by
            rw [List.take_add, List.any_append]
            have : (List.take 1 (List.drop N (It.items it))).any dp = false := by simpa using hd
            rw [this]; simp
          by_cases hc3 : n ≤ it.items.length
          · have hc4 : ¬ n ≤ N := by omega
            rw [if_pos hc3, if_neg hc4, e]
            apply dropLocal_sat dp hr1
            · intro hd; simp [hd]
            · intro hd; simp [hd]
          · rw [if_neg hc3, if_neg hc2, e]
            apply dropLocal_sat dp hr1
            · intro hd; simp [hd]
            · intro hd; simp [hd]
  · intro hb
    simp only [specCollectLoop, List.length_nil, Nat.zero_add, List.nil_append, Nat.add_zero, Nat.sub_zero] at hb
    split at hb
    · cases hb
    · rename_i hc
      split at hb
      · cases hb
      · rename_i hc2
        split at hb
        · rename_i hd
          have e : (it.items.take (N + 1)).any dp = true := by
            rw [List.take_add, List.any_append, hd]; simp
          by_cases hc3 : n ≤ it.items.length
          · have hc4 : ¬ n ≤ N := by omega
            rw [if_pos hc3, if_neg hc4, if_pos e]
          · rw [if_neg hc3, if_neg hc2, if_pos e]
        · cases hb

/-! ### insert_from -/

theorem writeLoop_sat (hN : N < E.W) (dp : A → Bool) (n : Nat) (it : It A) (w : Nat) (c : Chunk A) (log : List A)
    (hw : w + min n it.items.length ≤ N) :
    Sat (writeLoop E N dp n it w (c, log))
      (fun w' s => ∃ m, s.1 = { c with mem := m } ∧
        ((n ≤ it.items.length ∧ w' = w + n ∧ m = c.mem.putList w (it.items.take n) ∧
            s.2 = log ++ It.owned (it.drop n) ∧ (It.owned (it.drop n)).countP dp = 0) ∨
         (it.items.length < n ∧ w' = w + it.items.length ∧ s.2 = log ∧
            It.owned (it.drop (it.items.length + 1)) = [])))
      (fun s => ∃ m, s.1 = { c with mem := m } ∧
        ((n ≤ it.items.length ∧ s.2 = log ++ It.owned (it.drop n) ∧ (It.owned (it.drop n)).countP dp = 1) ∨
         (it.items.length < n ∧ s.2 = log ++ It.owned (it.drop (it.items.length + 1)) ∧
            (It.owned (it.drop (it.items.length + 1))).any dp = false)))
      ((n ≤ it.items.length ∧ 2 ≤ (It.owned (it.drop n)).countP dp) ∨
       (it.items.length < n ∧ (It.owned (it.drop (it.items.length + 1))).any dp = true)) := by
  induction n generalizing it w c with
  | zero =>
    simp only [writeLoop]
    apply Sat.bind
    apply Sat.dropSlice
    · intro hd
      apply Sat.pure
      refine ⟨c.mem, rfl, Or.inl ⟨Nat.zero_le _, rfl, ?_, rfl, hd⟩⟩
      simp [Mem.putList_nil]
    · intro hd
      exact ⟨c.mem, rfl, Or.inl ⟨Nat.zero_le _, rfl, hd⟩⟩
    · intro hd
      exact Or.inl ⟨Nat.zero_le _, hd⟩
  | succ n ih =>
    cases it with
    | nil =>
      simp only [writeLoop]
      apply Sat.pure
      refine ⟨c.mem, rfl, Or.inr ⟨by simp [It.items], rfl, rfl, rfl⟩⟩
    | cons e r =>
      cases e with
      | panic =>
        simp only [writeLoop]
        apply Sat.onUnwind
        apply Sat.panic
        apply Sat.unwindDrop
        · intro hd; exact ⟨c.mem, rfl, Or.inr ⟨by simp [It.items], rfl, hd⟩⟩
        · intro hd; exact Or.inr ⟨by simp [It.items], hd⟩
      | item a =>
        simp only [writeLoop]
        simp only [It.items, List.length_cons] at hw
        apply Sat.bind
        apply Sat.onFst
        refine sat_forceWrite (by omega) ?_
        apply Sat.bind
        refine Sat.uadd (by omega) ?_
        refine Sat.imp (ih r (w + 1) _ (by omega)) ?_ ?_ ?_
        · rintro w' s ⟨m, hs, h⟩
          refine ⟨m, hs, ?_⟩
          simp only [It.items, List.length_cons, List.take_succ_cons, List.drop_succ_cons, Nat.add_le_add_iff_right,
            Nat.add_lt_add_iff_right]
          rcases h with ⟨h1, h2, h3, h4⟩ | ⟨h1, h2, h3⟩
          · refine Or.inl ⟨h1, by omega, ?_, h4⟩
            rw [h3, Mem.putList_cons]
          · exact Or.inr ⟨h1, by omega, h3⟩
        · rintro s ⟨m, hs, h⟩
          refine ⟨m, hs, ?_⟩
          simpa [It.items] using h
        · intro h
          simpa [It.items] using h

/-- What `write_from_iter` does when the range it fills is in bounds. -/
theorem writeFromIter_sat (hN : N < E.W) (dp : A → Bool) (n : Nat) (it : It A) (w : Nat) (c : Chunk A)
    (log : List A) (hw : w + n ≤ N) :
    Sat (writeFromIter E N dp w (some n) it (c, log))
      (fun _ s => n ≤ it.items.length ∧ s.1 = { c with mem := c.mem.putList w (it.items.take n) } ∧
        s.2 = log ++ It.owned (it.drop n) ∧ (It.owned (it.drop n)).countP dp = 0)
      (fun s => s.1.left = 0 ∧ s.1.right = 0 ∧
        ((n ≤ it.items.length ∧ s.2 = log ++ It.owned (it.drop n) ∧ (It.owned (it.drop n)).countP dp = 1) ∨
         (it.items.length < n ∧ s.2 = log ++ It.owned (it.drop (it.items.length + 1)) ∧
            (It.owned (it.drop (it.items.length + 1))).any dp = false)))
      ((n ≤ it.items.length ∧ 2 ≤ (It.owned (it.drop n)).countP dp) ∨
       (it.items.length < n ∧ (It.owned (it.drop (it.items.length + 1))).any dp = true)) := by
  unfold writeFromIter
  simp only [M.lenCall_some]
  vc
  apply Sat.onUnwind
  refine Sat.uadd (by omega) ?_
  vc
  refine Sat.imp (writeLoop_sat hN dp n it w _ log (by omega)) ?_ ?_ ?_
  · rintro w' ⟨c', log'⟩ ⟨m, hs, h⟩
    simp only at hs h
    subst hs
    vc
    · rcases h with ⟨h1, h2, h3, h4⟩ | ⟨h1, h2, h3, h4⟩
      · omega
      · refine ⟨rfl, rfl, Or.inr ⟨h1, ?_, ?_⟩⟩
        · rw [h4, h3]; simp
        · rw [h4]; rfl
    · rcases h with ⟨h1, h2, h3, h4, h5⟩ | ⟨h1, h2, h3, h4⟩
      · refine ⟨h1, ?_, h4, h5⟩
        rw [h3]
      · omega
  · rintro ⟨c', log'⟩ ⟨m, hs, h⟩
    simp only at hs h
    subst hs
    exact ⟨rfl, rfl, h⟩
  · exact id

theorem It.any_owned_drop {dp : A → Bool} {it : It A} (k : Nat) (hd : it.owned.any dp = false) :
    (It.owned (it.drop k)).any dp = false := by
  induction k generalizing it with
  | zero => exact hd
  | succ k ih =>
    match it, hd with
    | [], hd => exact hd
    | .panic :: r, hd => exact ih (it := r) hd
    | .item a :: r, hd => exact ih (it := r) (by simp only [It.owned, List.any_cons, Bool.or_eq_false_iff] at hd; exact hd.2)

/-- `write_from_iter` with an iterator that ends (or panics) before it has yielded what it announced. -/
theorem writeFromIter_short (hN : N < E.W) (dp : A → Bool) (n : Nat) (it : It A) (w : Nat) (c : Chunk A)
    (log : List A) (hn : n < E.W) (hw : w + it.items.length ≤ N) (hs : it.items.length < n) (hd : it.owned.any dp = false) :
    Sat (writeFromIter E N dp w (some n) it (c, log)) (fun _ _ => False) (fun s => s.1.left = 0 ∧ s.1.right = 0) False := by
  unfold writeFromIter
  simp only [M.lenCall_some]
  vc
  have key : ∀ e, e ≠ w + it.items.length → Sat ((writeLoop E N dp n it w >>= fun w' => do
        M.assert (e = w')
        M.onFst (setLeft c.left)
        M.onFst (setRight c.right)) (({ left := 0, right := 0, mem := c.mem } : Chunk A), log))
      (fun _ _ => False) (fun s => s.1.left = 0 ∧ s.1.right = 0) False := by
    intro e he
    apply Sat.bind
    refine Sat.imp (writeLoop_sat hN dp n it w _ log (by omega)) ?_ ?_ ?_
    · rintro w' ⟨c', log'⟩ ⟨m, q, h⟩
      simp only at q h
      subst q
      have hne : e ≠ w' := by omega
      vc
      exact ⟨rfl, rfl⟩
    · rintro ⟨c', log'⟩ ⟨m, q, h⟩
      simp only at q
      subst q
      exact ⟨rfl, rfl⟩
    · rintro (⟨h, _⟩ | ⟨_, h⟩)
      · omega
      · rw [It.any_owned_drop _ hd] at h; exact Bool.noConfusion h
  apply Sat.onUnwind
  unfold uadd
  split
  · exact key _ (by omega)
  · split
    · apply Sat.panic
      apply Sat.unwindDrop
      · intro _; exact ⟨rfl, rfl⟩
      · intro h; rw [hd] at h; exact Bool.noConfusion h
    · refine key _ ?_
      intro h
      have : w + n - E.W = (w + n) % E.W := by rw [Nat.mod_eq_sub_mod (by omega), Nat.mod_eq_of_lt (by omega)]
      omega

theorem Rep.empty {c : Chunk A} (h1 : c.left = 0) (h2 : c.right = 0) : Rep N c [] := by
  constructor <;> simp [h1, h2]

section
variable {dp : A → Bool} {i n : Nat} {it : It A} {l log : List A}
theorem specInsertFrom_ok (hc : l.length + n ≤ N ∧ i ≤ l.length) (q1 : n ≤ it.items.length)
    (q4 : (It.owned (it.drop n)).countP dp = 0) : Spec.insertFrom N dp i n it (l, log) =
      .ok () (l.take i ++ it.items.take n ++ l.drop i, log ++ It.owned (it.drop n)) := by
  simp only [Spec.insertFrom, if_pos hc, if_pos q1, q4]
theorem specInsertFrom_late (hc : l.length + n ≤ N ∧ i ≤ l.length) (q1 : n ≤ it.items.length)
    (q4 : (It.owned (it.drop n)).countP dp = 1) : Spec.insertFrom N dp i n it (l, log) =
      .panic ([], log ++ It.owned (it.drop n)) := by
  simp only [Spec.insertFrom, if_pos hc, if_pos q1, q4]
theorem specInsertFrom_abort (hc : l.length + n ≤ N ∧ i ≤ l.length) (q1 : n ≤ it.items.length)
    (q4 : 2 ≤ (It.owned (it.drop n)).countP dp) : Spec.insertFrom N dp i n it (l, log) = .abort := by
  simp only [Spec.insertFrom, if_pos hc, if_pos q1]
  split <;> first | rfl | omega
theorem specInsertFrom_short (hc : l.length + n ≤ N ∧ i ≤ l.length) (q1 : it.items.length < n) :
    Spec.insertFrom N dp i n it (l, log) =
      Spec.panicDropping dp (It.owned (it.drop (it.items.length + 1))) [] log := by
  have q2 : ¬ n ≤ it.items.length := by omega
  simp only [Spec.insertFrom, if_pos hc, if_neg q2]
theorem specInsertFrom_refuse (hc : ¬ (l.length + n ≤ N ∧ i ≤ l.length)) :
    Spec.insertFrom N dp i n it (l, log) = Spec.panicDropping dp it.owned l log := by
  simp only [Spec.insertFrom, if_neg hc]
end

/-- `insert_from` of items that fit makes a gap of the announced size and fills it; if the filling never returns, neither does the call. -/
theorem insertFrom_gap (hN : 2 * N < E.W) (dp : A → Bool) (i n : Nat) (len2 : Option Nat) (it : It A) {c : Chunk A} {l : List A}
    (h : Rep N c l) (log : List A) (hc : l.length + n ≤ N ∧ i ≤ l.length) {Q : Unit → Chunk A × List A → Prop}
    {P : Chunk A × List A → Prop} {B : Prop}
    (hf : ∀ w c', w + n ≤ N → Sat (writeFromIter E N dp w len2 it (c', log)) (fun _ _ => False) P B) :
    Sat (insertFrom E N dp i ⟨some n, len2, it⟩ (c, log)) Q P B := by
  obtain ⟨h1, h2, h3⟩ := h
  unfold insertFrom
  simp only [M.lenCall_some]
  apply Sat.bind
  apply Sat.onUnwind
  apply Sat.onFst
  unfold insertFromChecks
  vc
  all_goals exact Sat.imp (hf _ _ (by omega)) (fun _ _ h => h.elim) (fun _ h => h) id

theorem insertFrom_wide (hN : N < E.W) (dp : A → Bool) (i n : Nat) (it : It A) {c : Chunk A} {l : List A}
    (h : Rep N c l) (log : List A) (hn : E.debug = true ∧ 2 * N < E.W ∨ N + n < E.W) :
    Ref (RelLog (Rep N)) (insertFrom E N dp i ⟨n, n, it⟩ (c, log)) (Spec.insertFrom N dp i n it (l, log)) := by
  have h' := h
  obtain ⟨h1, h2, h3⟩ := h'
  generalize hS : Spec.insertFrom N dp i n it (l, log) = S
  unfold insertFrom Ref
  simp only [M.lenCall_some]
  apply Sat.bind
  apply Sat.onUnwind
  apply Sat.onFst
  by_cases hc : l.length + n ≤ N ∧ i ≤ l.length
  · have hNn : N + n < E.W := by rcases hn with hn | hn <;> omega
    unfold insertFromChecks
    vc
    · -- the left part is shifted down
      refine Sat.imp (writeFromIter_sat (by omega) dp n it _ _ log (by omega)) ?_ ?_ ?_
      · rintro _ ⟨c', log'⟩ ⟨q1, q2, q3, q4⟩
        simp only at q2 q3
        subst q2; subst q3
        vc
        rw [← hS, specInsertFrom_ok hc q1 q4]
        have hlen : (it.items.take n).length = n := by simp; omega
        generalize it.items.take n = xs at *
        refine ⟨_, rfl, ?_, rfl⟩
        rep
      · rintro ⟨c', log'⟩ ⟨e1, e2, ⟨q1, q2, q3⟩ | ⟨q1, q2, q3⟩⟩
        · simp only at q2; subst q2
          rw [← hS, specInsertFrom_late hc q1 q3]
          exact ⟨_, rfl, Rep.empty e1 e2, rfl⟩
        · simp only at q2; subst q2
          rw [← hS, specInsertFrom_short hc q1]; simp only [Spec.panicDropping, q3]
          exact ⟨_, rfl, Rep.empty e1 e2, rfl⟩
      · rintro (⟨q1, q2⟩ | ⟨q1, q2⟩)
        · rw [← hS, specInsertFrom_abort hc q1 q2]
        · rw [← hS, specInsertFrom_short hc q1]; simp [Spec.panicDropping, q2]
    · -- the right part is shifted up
      refine Sat.imp (writeFromIter_sat (by omega) dp n it _ _ log (by omega)) ?_ ?_ ?_
      · rintro _ ⟨c', log'⟩ ⟨q1, q2, q3, q4⟩
        simp only at q2 q3
        subst q2; subst q3
        vc
        rw [← hS, specInsertFrom_ok hc q1 q4]
        have hlen : (it.items.take n).length = n := by simp; omega
        generalize it.items.take n = xs at *
        refine ⟨_, rfl, ?_, rfl⟩
        rep
      · rintro ⟨c', log'⟩ ⟨e1, e2, ⟨q1, q2, q3⟩ | ⟨q1, q2, q3⟩⟩
        · simp only at q2; subst q2
          rw [← hS, specInsertFrom_late hc q1 q3]
          exact ⟨_, rfl, Rep.empty e1 e2, rfl⟩
        · simp only at q2; subst q2
          rw [← hS, specInsertFrom_short hc q1]; simp only [Spec.panicDropping, q3]
          exact ⟨_, rfl, Rep.empty e1 e2, rfl⟩
      · rintro (⟨q1, q2⟩ | ⟨q1, q2⟩)
        · rw [← hS, specInsertFrom_abort hc q1 q2]
        · rw [← hS, specInsertFrom_short hc q1]; simp [Spec.panicDropping, q2]
    · -- everything is moved to the start
      refine Sat.imp (writeFromIter_sat (by omega) dp n it _ _ log (by omega)) ?_ ?_ ?_
      · rintro _ ⟨c', log'⟩ ⟨q1, q2, q3, q4⟩
        simp only at q2 q3
        subst q2; subst q3
        vc
        rw [← hS, specInsertFrom_ok hc q1 q4]
        have hlen : (it.items.take n).length = n := by simp; omega
        generalize it.items.take n = xs at *
        refine ⟨_, rfl, ?_, rfl⟩
        rep
      · rintro ⟨c', log'⟩ ⟨e1, e2, ⟨q1, q2, q3⟩ | ⟨q1, q2, q3⟩⟩
        · simp only at q2; subst q2
          rw [← hS, specInsertFrom_late hc q1 q3]
          exact ⟨_, rfl, Rep.empty e1 e2, rfl⟩
        · simp only at q2; subst q2
          rw [← hS, specInsertFrom_short hc q1]; simp only [Spec.panicDropping, q3]
          exact ⟨_, rfl, Rep.empty e1 e2, rfl⟩
      · rintro (⟨q1, q2⟩ | ⟨q1, q2⟩)
        · rw [← hS, specInsertFrom_abort hc q1 q2]
        · rw [← hS, specInsertFrom_short hc q1]; simp [Spec.panicDropping, q2]
  · unfold insertFromChecks
    have fin : Sat (dropSlice dp it.owned (c, log))
        (fun _ s'' => ∃ t, S = .panic t ∧ RelLog (Rep N) s'' t) (fun _ => S = .abort) (S = .abort) := by
      rw [← hS, specInsertFrom_refuse hc]
      apply Sat.unwindDrop (P := fun s'' => ∃ t, Spec.panicDropping (β := Unit) dp it.owned l log = .panic t ∧ RelLog (Rep N) s'' t)
      · intro hd; simp only [Spec.panicDropping, hd]; exact ⟨_, rfl, h, rfl⟩
      · intro hd; simp only [Spec.panicDropping, hd]; rfl
    rcases hn with ⟨hd, _⟩ | hd
    · unfold uadd
      simp only [hd, if_true]
      vc
      all_goals exact fin
    · vc
      all_goals exact fin

theorem insertFrom_ref (hN : 2 * N < E.W) (dp : A → Bool) (i n : Nat) (it : It A) {c : Chunk A} {l : List A}
    (h : Rep N c l) (log : List A) (hn : E.debug = true ∨ N + n < E.W) :
    Ref (RelLog (Rep N)) (insertFrom E N dp i ⟨n, n, it⟩ (c, log)) (Spec.insertFrom N dp i n it (l, log)) :=
  insertFrom_wide (by omega) dp i n it h log (hn.imp (fun hd => ⟨hd, hN⟩) id)

/-! ### clone -/

theorem cloneLoop_sat (hN : N < E.W) (cl : A → Option A) (src : Mem A) (l done : List A) (i : Nat) (out : Chunk A)
    (hi : i + l.length ≤ N) (hs : ∀ j, j < l.length → src (i + j) = l[j]?)
    (hout : Rep N out done) (hr : out.right = i) :
    Sat (cloneLoop E N cl src l.length i out)
      (fun _ s => (Spec.bornOf cl l).length = l.length ∧ s.left = out.left ∧ Rep N s (done ++ Spec.bornOf cl l))
      (fun s => (Spec.bornOf cl l).length < l.length ∧ Rep N s (done ++ Spec.bornOf cl l)) False := by
  induction l generalizing i done out with
  | nil =>
    simp only [List.length_nil, cloneLoop, Spec.bornOf, List.append_nil]
    exact ⟨trivial, rfl, hout⟩
  | cons a r ih =>
    simp only [List.length_cons] at hi
    have h0 := hs 0 (by simp)
    simp at h0
    simp only [List.length_cons, cloneLoop]
    apply Sat.bind
    refine Sat.memRead (by omega) h0 ?_
    cases hca : cl a with
    | none =>
      simp only
      apply Sat.panic
      simp [Spec.bornOf, hca, hout]
    | some b =>
      simp only
      have hl := hout.right_eq
      have hcell := hout.cell
      vc
      have hrep : Rep N { left := out.left, right := i + 1, mem := out.mem.put i b } (done ++ [b]) := by
        rep
      refine Sat.imp (ih (done ++ [b]) (i + 1) _ (by omega) ?_ hrep rfl) ?_ ?_ ?_
      · intro j hj
        have := hs (j + 1) (by simp; omega)
        simp at this
        rw [← this]; congr 1; omega
      · rintro _ s ⟨q1, q2, q3⟩
        refine ⟨by simp [Spec.bornOf, hca, q1], q2, ?_⟩
        simpa [Spec.bornOf, hca] using q3
      · rintro s ⟨q1, q2⟩
        refine ⟨by simp [Spec.bornOf, hca, q1], ?_⟩
        simpa [Spec.bornOf, hca] using q2
      · exact id

theorem clone_ref (hN : N < E.W) (dp : A → Bool) (cl : A → Option A) {c : Chunk A} {l : List A} (h : Rep N c l)
    (log : List A) :
    RefV (fun o k => Rep N o k ∧ o.left = c.left) (fun s t => s.1 = c ∧ RelLog (Rep N) s t)
      (clone E N dp cl (c, log)) (Spec.clone dp cl (l, log)) := by
  have h' := h
  obtain ⟨h1, h2, h3⟩ := h'
  unfold clone RefV Spec.clone
  apply Sat.bind
  apply Sat.onFst
  apply Sat.get
  apply Sat.bind
  apply Sat.withLocal
  apply Sat.onFst
  apply Sat.onFst
  have e : c.right - c.left = l.length := by omega
  rw [e]
  have h0 : Rep N { left := c.left, right := c.left, mem := (Mem.uninit : Mem A) } [] := by
    constructor <;> simp <;> omega
  refine Sat.imp (cloneLoop_sat (E := E) hN cl c.mem l [] c.left _ (by omega) ?_ h0 rfl) ?_ ?_ ?_
  · intro j hj
    rw [h3 _ (by omega) (by omega)]; congr 1; omega
  · rintro _ s ⟨q1, q2, q3⟩
    simp only [q1, if_true]
    refine ⟨_, _, rfl, ⟨by simpa using q3, q2⟩, rfl, h, rfl⟩
  · rintro s ⟨q1, q2⟩
    have : ¬ (Spec.bornOf cl l).length = l.length := by omega
    simp only [this, if_false]
    apply dropLocal_sat dp q2
    · intro hd
      simp only [List.nil_append] at hd
      simp only [Spec.panicDropping, hd]
      exact ⟨_, rfl, trivial, h, rfl⟩
    · intro hd
      simp only [List.nil_append] at hd
      simp [Spec.panicDropping, hd]
  · simp

/-! ### io -/

theorem extendList_ref (hN : N < E.W) (buf : List A) {c : Chunk A} {l : List A} (h : Rep N c l)
    (hb : l.length + buf.length ≤ N) :
    Sat (extendList E N buf c) (fun _ s => Rep N s (l ++ buf)) (fun _ => False) False := by
  induction buf generalizing c l with
  | nil => simpa [extendList, Sat] using h
  | cons a r ih =>
    simp only [List.length_cons] at hb
    simp only [extendList]
    apply Sat.bind
    refine Sat.imp (pushBack_ref hN h a) ?_ ?_ ?_
    · rintro _ s ⟨t, ht, hr⟩
      simp only [Spec.pushBack] at ht
      rw [if_pos (by omega)] at ht
      simp at ht; subst ht
      have := ih hr (by simp; omega)
      simpa using this
    · rintro s ⟨t, ht, hr⟩
      simp only [Spec.pushBack] at ht
      rw [if_pos (by omega)] at ht
      cases ht
    · intro ht
      simp only [Spec.pushBack] at ht
      rw [if_pos (by omega)] at ht
      cases ht

theorem write_ref (hN : N < E.W) (buf : List A) {c : Chunk A} {l : List A} (h : Rep N c l) :
    Ref (Rep N) (write E N buf c) (Spec.write N buf l) := by
  have hl := h.length_le
  unfold write Ref Spec.write
  apply Sat.bind
  rw [len_eq h]
  simp only [Sat.eq_1]
  apply Sat.bind
  refine Sat.usub (by omega) ?_
  apply Sat.bind
  refine Sat.imp (extendList_ref hN (buf.take (N - l.length)) h (by simp; omega)) ?_ (by simp) (by simp)
  rintro _ s hr
  apply Sat.bind
  rw [len_eq hr]
  simp only [Sat.eq_1]
  refine Sat.usub (by simp) ?_
  refine ⟨_, ?_, hr⟩
  congr 1
  simp; omega

theorem readLoop_ref (hN : N < E.W) (n : Nat) {c : Chunk A} {l : List A} (h : Rep N c l) (hn : n ≤ l.length) :
    Sat (readLoop E N n c) (fun out s => out = l.take n ∧ Rep N s (l.drop n)) (fun _ => False) False := by
  induction n generalizing c l with
  | zero => simp [readLoop, Sat]; exact h
  | succ n ih =>
    cases l with
    | nil => simp at hn
    | cons a r =>
      simp only [readLoop]
      apply Sat.bind
      refine Sat.imp (popFront_ref hN h) ?_ ?_ ?_
      · rintro a' s ⟨t, ht, hr⟩
        simp [Spec.popFront] at ht
        obtain ⟨rfl, rfl⟩ := ht
        apply Sat.bind
        refine Sat.imp (ih hr (by simpa using hn)) ?_ (by simp) (by simp)
        rintro out s' ⟨rfl, hr'⟩
        exact ⟨by simp, by simpa using hr'⟩
      · rintro s ⟨t, ht, hr⟩; simp [Spec.popFront] at ht
      · intro ht; simp [Spec.popFront] at ht

theorem read_ref (hN : N < E.W) (n : Nat) {c : Chunk A} {l : List A} (h : Rep N c l) :
    Ref (Rep N) (read E N n c) (Spec.read n l) := by
  unfold read Ref Spec.read
  apply Sat.bind
  rw [len_eq h]
  simp only [Sat.eq_1]
  apply Sat.ite
  · intro hz
    apply Sat.pure
    refine ⟨_, ?_, h⟩
    rcases Nat.eq_zero_or_pos n with h0 | h0
    · subst h0; simp
    · have : l = [] := by
        have : l.length = 0 := by omega
        simpa using this
      subst this; simp
  · intro hz
    apply Sat.bind
    refine Sat.imp (readLoop_ref hN _ h (by omega)) ?_ (by simp) (by simp)
    rintro out s ⟨rfl, hr⟩
    apply Sat.pure
    have e1 : l.take (min n l.length) = l.take n := by rw [List.take_eq_take_iff]; omega
    have e2 : l.drop (min n l.length) = l.drop n := by
      rcases Nat.le_total n l.length with h0 | h0
      · rw [Nat.min_eq_left h0]
      · rw [Nat.min_eq_right h0]; simp [h0]
    rw [e2] at hr
    exact ⟨_, by rw [e1], hr⟩

end Chunk
end Verif
