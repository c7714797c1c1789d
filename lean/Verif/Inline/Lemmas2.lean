import Verif.Inline.Lemmas
import Verif.Chunk.Lemmas2
/-
Helper lemmas for `InlineArray`, continued: construction, splitting, destructors, iterators, cloning, conversion.
-/
namespace Verif
namespace Inline
variable {A : Type} {E : Env} {L : Layout A}

/-! ### new -/

/-- A freshly made array at `k` times the alignment. -/
def fresh (E : Env) (L : Layout A) (k : Nat) : Inline A := withLen E L { addr := k * L.align, bytes := fun _ => .uninit } 0

theorem new_eq (hv : L.Valid E) (ha : Accepted E L) (k : Nat) : new E L k () = .ok (fresh E L k) () := by
  have g := geo hv ha
  have hk : L.align ∣ k * L.align := Nat.dvd_mul_left _ _
  have hd : L.headerAlign ∣ k * L.align := Nat.dvd_trans hv.headerAlign_dvd hk
  have h4 : ∀ s : Inline A, s.addr = k * L.align → isAligned L s L.elemAlign (dptr E L) = true := by
    intro s hs
    unfold dptr
    by_cases h0 : cap E L = 0
    · rw [if_pos h0]; rfl
    · rw [if_neg h0]
      have := aligned_slot g (s := s) (by rw [hs]; exact hk) (show 0 < cap E L by omega) 0
      rwa [slot_zero] at this
  have h5 : elementSkip L = 0 ∨ headerSkip E L = 0 := by
    unfold headerSkip elementSkip
    split <;> simp
  unfold new fresh
  rw [if_pos ha.1, if_pos ha.2]
  have : newBody E L { addr := k * L.align, bytes := fun _ => .uninit } =
      .ok () (withLen E L { addr := k * L.align, bytes := fun _ => .uninit } 0) := by
    unfold newBody
    simp only [M.bind_run, M.get_run, Out.andThen_ok, Layout.dataOffset_eq, Nat.add_zero, M.assert_run, if_true,
      Nat.mod_eq_zero_of_dvd hd, hv.size_ok, dataPtr_eq g (s := { addr := k * L.align, bytes := fun _ => .uninit }) hk,
      h4 { addr := k * L.align, bytes := fun _ => .uninit } rfl, h5,
      lenPtr_eq g (s := { addr := k * L.align, bytes := fun _ => .uninit }) hk,
      storeLen_eq g (s := { addr := k * L.align, bytes := fun _ => .uninit }) hk, withLen]
  rw [this]

theorem new_ok (hv : L.Valid E) (ha : Accepted E L) (k : Nat) : ∃ s, new E L k () = .ok s () ∧ Rep E L s [] :=
  ⟨_, new_eq hv ha k, ha, Nat.dvd_mul_left _ _, by simp, withLen_hdr _ _, by simp⟩

theorem new_panic (ha : ¬ Accepted E L) (k : Nat) : new E L k () = .panic () := by
  unfold new
  by_cases h1 : L.hostSize > L.headerSize
  · rw [if_pos h1, if_neg (fun h => ha ⟨h1, h⟩)]
  · rw [if_neg h1]

theorem new_ref (hv : L.Valid E) (k : Nat) :
    RefV (Rep E L) Eq (new E L k ()) (if Accepted E L then .ok [] () else .panic ()) := by
  by_cases ha : Accepted E L
  · obtain ⟨s, h1, h2⟩ := new_ok hv ha k
    rw [h1, if_pos ha]; exact ⟨_, _, rfl, h2, rfl⟩
  · rw [new_panic ha, if_neg ha]; exact ⟨_, rfl, rfl⟩

theorem moveTo_ref {s : Inline A} {l : List A} (h : Rep E L s l) (k : Nat) : Ref (Rep E L) (moveTo L k s) (.ok () l) :=
  ⟨_, rfl, h.acc, Nat.dvd_mul_left _ _, h.le, h.hdr, h.slots⟩

section
variable [DecidableEq A] (hv : L.Valid E) {s : Inline A} {l : List A} (h : Rep E L s l)
include hv h

/-! ### Writing through the slice -/

omit [DecidableEq A] in
theorem Rep.setSlot {i : Nat} (hi : i < l.length) (v : A) : Rep E L (withSlot L s i v) (l.set i v) := by
  have hle := h.le
  have g := h.geo hv
  refine ⟨h.acc, h.addr, by simpa using h.le, ?_, ?_⟩
  · rw [List.length_set]; exact withSlot_hdr g (by omega) h.hdr
  · intro j a hj
    by_cases e : i = j
    · subst e
      rw [List.getElem?_set_self hi] at hj
      cases hj; exact withSlot_same _ _ _
    · rw [List.getElem?_set_ne e] at hj
      exact withSlot_other e (h.slots j a hj)

theorem set_ref (i : Nat) (v : A) : Ref (Rep E L) (set E L i v s) (Spec.set i v l) := by
  have hle := h.le
  have g := h.geo hv
  unfold set index Spec.set
  simp only [M.bind_run, items_eq hv h, Out.andThen_ok]
  by_cases hi : i < l.length
  · have e : l[i]? = some l[i] := List.getElem?_eq_getElem hi
    have hc : cap E L ≠ 0 := by omega
    have hp := ptrAdd_slot g (i := 0) (n := i) (by omega) (by omega) s
    rw [slot_zero, Nat.zero_add] at hp
    simp only [e, M.pure_run, Out.andThen_ok, dataPtr_eq g h.addr, dptr, if_neg hc, hp, storeElem_eq g h.addr (show i < cap E L by omega)]
    exact ⟨_, rfl, h.setSlot hv hi v⟩
  · rw [List.getElem?_eq_none (by omega)]
    exact ⟨_, rfl, h⟩

omit [DecidableEq A] h in
theorem storeMany_ref (r : List A) : ∀ {s : Inline A} {l : List A} (_ : Rep E L s l) {i : Nat} (_ : i + r.length = l.length) (_ : 0 < cap E L),
    Ref (Rep E L) (storeMany L (.at (slotOff L i)) r s) (.ok () (l.take i ++ r)) := by
  induction r with
  | nil =>
    intro s l h i hi _
    rw [List.take_of_length_le (by simp at hi; omega), List.append_nil]
    exact ⟨_, rfl, h⟩
  | cons a r ih =>
    intro s l h i hi h0
    simp only [List.length_cons] at hi
    have hle := h.le
    have g := h.geo hv
    simp only [storeMany, M.bind_run, storeElem_eq g h.addr (show i < cap E L by omega), Out.andThen_ok,
      ptrAdd_slot g (show i + 1 ≤ cap E L by omega) h0]
    have := ih (h.setSlot hv (show i < l.length by omega) a) (i := i + 1) (by simp; omega) h0
    rwa [List.take_succ_eq_append_getElem (by simp; omega), List.getElem_set_self, List.take_set_of_le (Nat.le_refl i), List.append_assoc,
      List.singleton_append] at this

theorem mutate_ref (f : List A → List A) : Ref (Rep E L) (mutate E L f s) (Spec.mutate f l) := by
  have hle := h.le
  have g := h.geo hv
  unfold mutate Spec.mutate
  simp only [M.bind_run, items_eq hv h, Out.andThen_ok]
  by_cases hf : (f l).length = l.length
  · simp only [hf, if_true, M.bind_run, dataPtr_eq g h.addr, Out.andThen_ok, dptr]
    by_cases h0 : cap E L = 0
    · have hl : l = [] := List.length_eq_zero_iff.1 (by omega)
      have hfl : f l = [] := List.length_eq_zero_iff.1 (by omega)
      rw [hfl]
      subst hl
      exact ⟨_, rfl, h⟩
    · rw [if_neg h0]
      have := storeMany_ref hv (f l) h (i := 0) (by omega) (by omega)
      rwa [slot_zero] at this
  · simp only [hf, if_false]
    exact ⟨_, rfl, h⟩

/-! ### split_off -/

omit [DecidableEq A] in
theorem splitOff_ref (k i : Nat) : RefV (Rep E L) (Rep E L) (splitOff E L k i s) (Spec.splitOff i l) := by
  have hle := h.le
  have g := h.geo hv
  unfold splitOff Spec.splitOff
  simp only [M.bind_run, len_eq hv h, Out.andThen_ok, M.panicIf_run]
  by_cases hi : i > l.length
  · rw [if_pos hi, if_neg (by omega)]; exact ⟨_, rfl, h⟩
  · rw [if_neg hi, if_pos (by omega)]
    obtain ⟨o, h1, h2⟩ := new_ok hv h.acc k
    simp only [Out.andThen_ok, make, h1, Out.mapState_ok, len_eq hv h]
    by_cases hi2 : i < l.length
    · have hc : cap E L ≠ 0 := by omega
      have hdp := dataPtr_eq g h2.addr
      rw [dptr, if_neg hc, ← slot_zero] at hdp
      simp only [hi2, if_true]
      simp only [withOut, splitOffMove, M.bind_run, M.onFst_run, M.onSnd_run, ptrAt_eq g h.addr (show i < cap E L by omega), Out.mapState_ok, Out.andThen_ok,
        hdp, len_eq hv h, usub_ok (show i ≤ l.length by omega),
        copyAcross_eq g h.addr h2.addr (show i + (l.length - i) ≤ cap E L by omega) (show 0 + (l.length - i) ≤ cap E L by omega) (by omega),
        setLen_eq g (s := withCopy L s.bytes i o 0 (l.length - i)) h2.addr, setLen_eq g h.addr]
      refine ⟨_, _, rfl, ⟨h.acc, h2.addr, by simp; omega, ?_, ?_⟩, ⟨h.acc, h.addr, by simp; omega, ?_, ?_⟩⟩
      · rw [List.length_drop]; exact withLen_hdr _ _
      · intro j a hj
        have hj' := (List.getElem?_eq_some_iff.1 hj).1
        rw [List.length_drop] at hj'
        rw [List.getElem?_drop] at hj
        refine withLen_slot g (by omega) ?_
        have := withCopy_in (s := o) (j := 0) (n := l.length - i) hj' (h.slots _ a hj)
        rwa [Nat.zero_add] at this
      · rw [List.length_take, Nat.min_eq_left (by omega)]; exact withLen_hdr _ _
      · intro j a hj
        have hj' := (List.getElem?_eq_some_iff.1 hj).1
        rw [List.length_take] at hj'
        rw [List.getElem?_take, if_pos (by omega)] at hj
        exact withLen_slot g (by omega) (h.slots j a hj)
    · have : i = l.length := by omega
      subst this
      simp only [Nat.lt_irrefl, if_false, M.pure_run, List.drop_length, List.take_length]
      exact ⟨_, _, rfl, h2, h⟩

/-! ### Destructors -/

theorem drop_ref (dp : A → Bool) (log : List A) : Ref (RelLog (Rep E L)) (drop E L dp (s, log)) (Spec.drop dp (l, log)) := by
  unfold drop Spec.drop Ref
  simp only [M.bind_run, M.onFst_run, items_eq hv h, Out.mapState_ok, Out.andThen_ok]
  apply Sat.dropSlice
  · intro hc; rw [dropping_zero hc]; exact ⟨_, rfl, h, rfl⟩
  · intro hc; rw [dropping_one hc]; exact ⟨_, rfl, h, rfl⟩
  · intro hc; rw [dropping_two hc]

omit [DecidableEq A] hv in
theorem Rep.emptied : Rep E L (withLen E L s 0) [] :=
  ⟨h.acc, h.addr, by simp, withLen_hdr _ _, by simp⟩

theorem clear_ref (dp : A → Bool) (log : List A) : Ref (RelLog (Rep E L)) (clear E L dp (s, log)) (Spec.clear dp (l, log)) := by
  have g := h.geo hv
  unfold clear drop Spec.clear Ref
  simp only [M.bind_run, M.onFst_run, items_eq hv h, Out.mapState_ok, Out.andThen_ok]
  rcases Nat.lt_trichotomy (l.countP dp) 1 with hc | hc | hc
  · have hc : l.countP dp = 0 := by omega
    rw [dropSlice_zero hc, dropping_zero hc]
    simp only [Out.andThen_ok, setLen_eq g h.addr, Out.mapState_ok]
    exact ⟨_, rfl, h.emptied, rfl⟩
  · rw [dropSlice_one hc, dropping_one hc]
    exact ⟨_, rfl, h, rfl⟩
  · rw [dropSlice_two hc, dropping_two hc]
    rfl

/-! ### Iterators -/

theorem iterNext_ref : Ref (Rep E L) (iterNext E L s) (Spec.popFront? l) := by
  have := remove_ref hv h 0
  unfold iterNext
  cases l with
  | nil => simpa [Spec.remove?, Spec.popFront?] using this
  | cons a r => simpa [Spec.remove?, Spec.popFront?] using this
theorem iterNextBack_ref : Ref (Rep E L) (iterNextBack E L s) (Spec.popBack? l) := pop_ref hv h
omit [DecidableEq A] in
theorem sizeHint_eq : sizeHint E L s = .ok (l.length, some l.length) s := by
  simp [sizeHint, len_eq hv h]

/-! ### extend, from_iter -/

omit [DecidableEq A] in
theorem pushOwned_ref (dp : A → Bool) (v : A) (log : List A) : Ref (RelLog (Rep E L)) (pushOwned E L dp v (s, log))
      (if l.length < cap E L then .ok () (l ++ [v], log) else Spec.panicDropping dp [v] l log) := by
  unfold pushOwned Ref
  apply Sat.onUnwind
  apply Sat.onFst
  refine Sat.imp (push_ref hv h v) ?_ ?_ ?_
  · rintro a s ⟨t, ht, hr⟩
    simp only [Spec.pushBack] at ht
    split at ht <;> simp at ht
    subst ht
    rw [if_pos (by assumption)]
    exact ⟨_, rfl, hr, rfl⟩
  · rintro s ⟨t, ht, hr⟩
    simp only [Spec.pushBack] at ht
    split at ht <;> simp at ht
    subst ht
    rw [if_neg (by assumption)]
    apply Sat.dropOne
    · intro hd; simp only [Spec.panicDropping, List.any_cons, hd]; simp; exact ⟨hr, rfl⟩
    · intro hd; simp [Spec.panicDropping, hd]
  · intro hb
    simp only [Spec.pushBack] at hb
    split at hb <;> cases hb

omit [DecidableEq A] in
theorem extend_ref (dp : A → Bool) (it : It A) (log : List A) :
    Ref (RelLog (Rep E L)) (extend E L dp it (s, log)) (Spec.extend (cap E L) dp it (l, log)) := by
  induction it generalizing s l with
  | nil => simp only [extend, Spec.extend]; exact ⟨_, rfl, h, rfl⟩
  | cons e r ih =>
    cases e with
    | panic =>
      simp only [extend, Spec.extend, Spec.panicDropping]
      apply Sat.onUnwind
      apply Sat.panic
      apply Sat.unwindDrop
      · intro hd; simp [hd]; exact ⟨h, rfl⟩
      · intro hd; simp [hd]
    | item a =>
      simp only [extend, Spec.extend]
      apply Sat.bind
      apply Sat.onUnwind
      refine Sat.imp (pushOwned_ref hv h dp a log) ?_ ?_ ?_
      · rintro _ ⟨c', log'⟩ ⟨t, ht, hr⟩
        split at ht
        · simp at ht; subst ht
          rw [if_pos (by assumption)]
          obtain ⟨hr1, hr2⟩ := hr
          simp only at hr1 hr2
          subst hr2
          exact ih hr1
        · simp only [Spec.panicDropping] at ht; split at ht <;> simp at ht
      · rintro ⟨c', log'⟩ ⟨t, ht, hr⟩
        split at ht
        · simp at ht
        · rw [if_neg (by assumption)]
          simp only [Spec.panicDropping, List.any_cons, List.any_nil, Bool.or_false] at ht
          split at ht
          · simp at ht
          · rename_i hd
            simp at ht; subst ht
            obtain ⟨hr1, hr2⟩ := hr
            simp only at hr1 hr2
            subst hr2
            have hd' : dp a = false := by simpa using hd
            apply Sat.unwindDrop
            · intro hd2; simp only [Spec.panicDropping, List.any_cons, hd', hd2]
              refine ⟨_, by simp; rfl, hr1, by simp⟩
            · intro hd2; simp [Spec.panicDropping, hd2]
      · intro hb
        split at hb
        · cases hb
        · rw [if_neg (by assumption)]
          simp only [Spec.panicDropping] at hb ⊢
          split at hb
          · rename_i hd
            have : dp a = true := by simpa using hd
            simp [this]
          · cases hb
end

theorem Sat.atFst {C σ α : Type} {x : M (C × List A) α} {c : C} {t : σ} {log : List A}
    {Q : α → (C × σ) × List A → Prop} {P : (C × σ) × List A → Prop} {B : Prop}
    (h : Sat (x (c, log)) (fun a p => Q a ((p.1, t), p.2)) (fun p => P ((p.1, t), p.2)) B) :
    Sat (M.atFst x ((c, t), log)) Q P B := by
  unfold M.atFst
  cases hx : x (c, log) <;> simp_all [Sat]

variable [DecidableEq A]

theorem dropLocal_sat {σ : Type} (hv : L.Valid E) (dp : A → Bool) {c : Inline A} {l : List A} (h : Rep E L c l) (t : σ) (log : List A)
    {P : (Inline A × σ) × List A → Prop} {B : Prop}
    (h0 : l.any dp = false → P ((c, t), log ++ l)) (h1 : l.any dp = true → B) :
    Sat (M.atFst (drop E L dp) ((c, t), log)) (fun _ s => P s) (fun _ => B) B := by
  apply Sat.atFst
  unfold drop
  simp only [M.bind_run, M.onFst_run, items_eq hv h, Out.mapState_ok, Out.andThen_ok]
  apply Sat.unwindDrop (P := fun p => P ((p.1, t), p.2))
  · exact h0
  · exact h1

/-- `FromIterator`: when `new` refuses, the iterator is dropped; otherwise as for any bounded list. -/
def specFromIter (ok : Prop) [Decidable ok] (N : Nat) (dp : A → Bool) (it : It A) : M (List A) (List A) := fun log =>
  if ok then Spec.fromIter N dp it log
  else if it.owned.any dp = true then .abort else .panic (log ++ it.owned)

theorem fromIter_ref (hv : L.Valid E) (dp : A → Bool) (k : Nat) (it : It A) (log : List A) :
    RefV (Rep E L) Eq (fromIter E L dp k it log) (specFromIter (Accepted E L) (cap E L) dp it log) := by
  unfold fromIter RefV specFromIter
  apply Chunk.Sat.mapState'
  apply Sat.bind
  apply Sat.onUnwind
  unfold make
  by_cases ha : Accepted E L
  · obtain ⟨o, h1, h2⟩ := new_ok hv ha k
    rw [h1, if_pos ha]
    simp only [Out.mapState_ok, Sat]
    unfold Spec.fromIter
    apply Sat.bind
    apply Sat.withLocal
    apply Sat.atFst
    refine Sat.imp (extend_ref hv h2 dp it log) ?_ ?_ ?_
    · rintro _ ⟨c', log'⟩ ⟨t, ht, hr⟩
      rw [ht]
      obtain ⟨hr1, hr2⟩ := hr
      simp only at hr1 hr2; subst hr2
      exact ⟨_, _, rfl, hr1, rfl⟩
    · rintro ⟨c', log'⟩ ⟨t, ht, hr⟩
      rw [ht]
      obtain ⟨hr1, hr2⟩ := hr
      simp only at hr1 hr2; subst hr2
      apply dropLocal_sat hv dp hr1
      · intro hd; simp [hd]
      · intro hd; simp [hd]
    · intro hb
      rw [hb]
  · rw [new_panic ha k, if_neg ha]
    simp only [Out.mapState_panic, Sat]
    apply Sat.unwindDrop
    · intro hd; simp [hd]
    · intro hd; simp [hd]

/-! ### clone -/

omit [DecidableEq A] in
theorem cloneOne_some {σ : Type} {cl : A → Option A} {a b : A} (h : cl a = some b) (s : σ) : cloneOne cl a s = .ok b s := by
  simp [cloneOne, h]
omit [DecidableEq A] in
theorem cloneOne_none {σ : Type} {cl : A → Option A} {a : A} (h : cl a = none) (s : σ) : cloneOne cl a s = .panic s := by
  simp [cloneOne, h]

theorem cloneLoop_ref (hv : L.Valid E) (cl : A → Option A) {s : Inline A} {l : List A} (h : Rep E L s l) (n : Nat) :
    ∀ {c : Inline A} {i : Nat}, i + n = l.length → Rep E L c [] →
    Sat (cloneLoop E L cl n i (c, s))
      (fun _ x => x.2 = s ∧ Rep E L x.1 [] ∧ (Spec.bornOf cl (l.drop i)).length = n
        ∧ (∀ j a, (Spec.bornOf cl (l.drop i))[j]? = some a → Slot L x.1 (i + j) a)
        ∧ (∀ j a, j < i → Slot L c j a → Slot L x.1 j a))
      (fun x => x.2 = s ∧ Rep E L x.1 [] ∧ (Spec.bornOf cl (l.drop i)).length < n) False := by
  have hle := h.le
  have g := h.geo hv
  induction n with
  | zero =>
    intro c i hi hc
    rw [List.drop_eq_nil_of_le (by omega)]
    exact ⟨rfl, hc, rfl, by simp [Spec.bornOf], fun _ _ _ hs => hs⟩
  | succ n ih =>
    intro c i hi hc
    have hi' : i < l.length := by omega
    have e : l[i]? = some l[i] := List.getElem?_eq_getElem hi'
    rw [List.drop_eq_getElem_cons hi']
    simp only [cloneLoop, M.bind_run, M.onSnd_run, itemAt, items_eq hv h, Out.andThen_ok, e, M.pure_run, Out.mapState_ok]
    cases hcl : cl l[i] with
    | none =>
      rw [cloneOne_none hcl]
      simp only [Out.andThen_panic, Sat, Spec.bornOf, hcl]
      exact ⟨trivial, hc, by simp⟩
    | some b =>
      rw [cloneOne_some hcl]
      simp only [Out.andThen_ok, M.onFst_run, writeAt_eq g hc.addr (show i < cap E L by omega), Out.mapState_ok]
      have hc' : Rep E L (withSlot L c i b) [] :=
        ⟨hc.acc, hc.addr, by simp, withSlot_hdr g (by omega) hc.hdr, by simp⟩
      refine Sat.imp (ih (i := i + 1) (by omega) hc') ?_ ?_ id
      · rintro _ x ⟨h1, h2, h3, h4, h5⟩
        refine ⟨h1, h2, by simp [Spec.bornOf, hcl, h3], ?_, ?_⟩
        · intro j a hj
          simp only [Spec.bornOf, hcl] at hj
          cases j with
          | zero =>
            simp only [List.getElem?_cons_zero, Option.some.injEq] at hj
            subst hj
            exact h5 i b (by omega) (withSlot_same _ _ _)
          | succ j =>
            rw [List.getElem?_cons_succ] at hj
            have := h4 j a hj
            rwa [show i + 1 + j = i + (j + 1) by omega] at this
        · intro j a hj hs
          exact h5 j a (by omega) (withSlot_other (by omega) hs)
      · rintro x ⟨h1, h2, h3⟩
        exact ⟨h1, h2, by simp [Spec.bornOf, hcl]; omega⟩

theorem clone_ref (hv : L.Valid E) (dp : A → Bool) (cl : A → Option A) (k : Nat) {s : Inline A} {l : List A} (h : Rep E L s l) (log : List A) :
    RefV (Rep E L) (RelLog (Rep E L)) (clone E L dp cl k (s, log)) (Spec.cloneLeaky cl (l, log)) := by
  have hle := h.le
  have g := h.geo hv
  obtain ⟨o, h1, h2⟩ := new_ok hv h.acc k
  unfold clone RefV Spec.cloneLeaky
  simp only [M.bind_run, make, h1, Out.mapState_ok, Out.andThen_ok]
  apply Sat.bind
  apply Sat.withLocal
  have hcl := cloneLoop_ref hv cl h l.length (c := o) (i := 0) (by omega) h2
  simp only [M.onFst_run, M.bind_run, M.onSnd_run, len_eq hv h, Out.mapState_ok, Out.andThen_ok]
  rw [List.drop_zero] at hcl
  cases hx : cloneLoop E L cl l.length 0 (o, s) <;> rw [hx] at hcl
  · obtain ⟨e, h3, h4, h5, -⟩ := hcl
    rename_i u x
    obtain ⟨x1, x2⟩ := x
    dsimp only at e h3 h4 h5
    subst e
    simp only [Out.andThen_ok, len_eq hv h, Out.mapState_ok, setLen_eq g h3.addr, Sat, h4, if_true, M.pure_run]
    refine ⟨_, _, rfl, ⟨h.acc, h3.addr, by omega, ?_, ?_⟩, h, rfl⟩
    · rw [h4]; exact withLen_hdr _ _
    · intro j a hj
      have hj' := (List.getElem?_eq_some_iff.1 hj).1
      have := h5 j a hj
      rw [Nat.zero_add] at this
      exact withLen_slot g (by omega) this
  · obtain ⟨e, h3, h4⟩ := hcl
    rename_i x
    obtain ⟨x1, x2⟩ := x
    dsimp only at e h3
    subst e
    rw [if_neg (by omega)]
    simp only [Out.andThen_panic, Out.mapState_panic, Sat]
    apply dropLocal_sat hv dp h3
    · intro _; exact ⟨_, rfl, h, by simp⟩
    · simp
  all_goals exact hcl.elim

/-! ### Conversion into a chunk -/

theorem toChunk_ref (hv : L.Valid E) (N : Nat) {s : Inline A} {l : List A} (h : Rep E L s l) :
    RefV (Chunk.Rep N) (Rep E L) (toChunk E L N s) (if l.length ≤ N then .ok l [] else .panic l) := by
  have hle := h.le
  have g := h.geo hv
  unfold toChunk toChunkMove
  simp only [M.bind_run, len_eq hv h, Out.andThen_ok, M.assert_run]
  by_cases hN : l.length ≤ N
  · rw [if_pos (Or.inr hN), if_pos hN]
    simp only [Out.andThen_ok, dataPtr_eq g h.addr, len_eq hv h, slice_eq hv h, hN, if_true, M.bind_run, setLen_eq g h.addr, M.pure_run]
    refine ⟨_, _, rfl, ⟨by simp, hN, ?_⟩, h.emptied⟩
    intro i hi hi2
    dsimp only at hi2
    simp [Mem.putList, hi2]
  · rw [if_neg (by omega), if_neg hN]
    exact ⟨_, rfl, h⟩

theorem intoChunk_ref (hv : L.Valid E) (dp : A → Bool) (N : Nat) {s : Inline A} {l : List A} (h : Rep E L s l) (log : List A) :
    RefV (Chunk.Rep N) (fun s log' => s.2 = log') (intoChunk E L dp N (s, log))
      (if l.length ≤ N then .ok l log else if l.any dp = true then .abort else .panic (log ++ l)) := by
  have h1 := toChunk_ref hv N h
  unfold intoChunk
  simp only [M.bind_run]
  unfold M.onUnwind
  simp only [M.onFst_run]
  cases hx : toChunk E L N s <;> rw [hx] at h1 <;> simp only [RefV, Sat] at h1
  · obtain ⟨b, t, e, h2, h3⟩ := h1
    split at e
    · simp at e
      obtain ⟨rfl, rfl⟩ := e
      simp only [Out.mapState_ok, Out.andThen_ok]
      obtain ⟨⟨s', log'⟩, e1, h4, h5⟩ := (drop_ref hv h3 dp log).of_ok (a := ()) (t := ([], log)) (by simp [Spec.drop, Spec.dropping])
      dsimp only at h5
      subst h5
      rw [e1]
      simp only [Out.andThen_ok, M.pure_run]
      rw [if_pos (by assumption)]
      exact ⟨_, _, rfl, h2, rfl⟩
    · cases e
  · obtain ⟨t, e, h2⟩ := h1
    split at e
    · cases e
    · simp at e
      subst e
      rw [if_neg (by assumption)]
      simp only [Out.mapState_panic, drop, M.bind_run, M.onFst_run, items_eq hv h2, Out.mapState_ok, Out.andThen_ok]
      by_cases hd : l.any dp = true
      · have hc := any_true_iff_countP.1 hd
        rw [if_pos hd]
        rcases Nat.lt_or_ge 1 (l.countP dp) with hc2 | hc2
        · rw [dropSlice_two hc2]; rfl
        · rw [dropSlice_one (by omega)]; rfl
      · have hd : l.any dp = false := by simpa using hd
        rw [if_neg (by simp [hd]), dropSlice_zero (any_false_iff_countP.1 hd)]
        exact ⟨_, rfl, rfl⟩
  · split at h1 <;> cases h1

end Inline
end Verif
