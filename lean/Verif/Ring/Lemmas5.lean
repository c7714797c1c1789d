import Verif.Ring.Lemmas4
/-
Helper lemmas for `RingBuffer`: io::Write, slices, comparison.
-/
namespace Verif
namespace Ring
variable {A : Type} {E : Env} {N : Nat}

/-! ### io::Write -/

theorem lm_putList_flat {o k : Nat} {m : Mem A} {l : List A} (hk : k + l.length ≤ N)
    (hf : ridx N o k + l.length ≤ N) :
    lm N o (m.putList (ridx N o k) l) = (lm N o m).putList k l := by
  funext j
  unfold lm Mem.putList
  by_cases hj : j < N
  · simp only [hj, if_true]
    unfold ridx at hf ⊢
    split at hf <;> (repeat' split) <;> first | omega | rfl | (congr 1; omega)
  · rw [if_neg hj, if_neg (by omega)]; simp [hj]

theorem lm_putList_wrap {o k n : Nat} {m : Mem A} {l : List A} (ho : o < N) (hk : k + l.length ≤ N)
    (hf : N < ridx N o k + l.length) (hn : n = N - ridx N o k) :
    lm N o ((m.putList (ridx N o k) (l.take n)).putList 0 (l.drop n)) = (lm N o m).putList k l := by
  subst hn
  have hlt : ridx N o k < N := ridx_lt ho (by omega)
  funext j
  unfold lm Mem.putList
  by_cases hj : j < N
  · simp only [hj, if_true, List.length_take, List.length_drop, List.getElem?_take, List.getElem?_drop]
    unfold ridx at hf hlt ⊢
    split at hf <;> (repeat' split) <;> first | omega | rfl | (congr 1; omega)
  · rw [if_neg hj, if_neg (by omega)]; simp [hj]

theorem sat_copyFromSlice {c : Ring A} {Q : Unit → Ring A → Prop} {P : Ring A → Prop} {B : Prop} (hW : 2 * N < E.W)
    (src : List A) (k : Nat) (ho : c.origin < N) (hk : k + src.length ≤ N)
    (hd : E.debug = true → N < ridx N c.origin k + src.length → P c)
    (hq : (E.debug = true → ridx N c.origin k + src.length ≤ N) → ∀ m, lm N c.origin m = (lm N c.origin c.mem).putList k src →
      Q () { c with mem := m }) :
    Sat (copyFromSlice E N src (ridx N c.origin k) c) Q P B := by
  have hlt : ridx N c.origin k < N := ridx_lt ho (by omega)
  have main : (E.debug = true → ridx N c.origin k + src.length ≤ N) → Sat ((do
      if (← uadd E (ridx N c.origin k) src.length) > N then
        let firstLength ← usub E N (ridx N c.origin k)
        M.panicIf (firstLength > src.length)
        copySliceTo E N (src.take firstLength) (ridx N c.origin k)
        copySliceTo E N (src.drop firstLength) (← rawFrom E N 0)
      else
        copySliceTo E N src (ridx N c.origin k) : M (Ring A) Unit) c) Q P B := by
    intro hc
    unfold copySliceTo
    by_cases hf : ridx N c.origin k + src.length ≤ N
    · vc
      exact hq hc _ (lm_putList_flat hk hf)
    · vc
      all_goals simp only [List.length_take, List.length_drop] at *
      exact hq hc _ (lm_putList_wrap ho hk (by omega) rfl)
  unfold copyFromSlice
  dsimp only
  by_cases hde : E.debug = true
  · rw [if_pos hde]
    vc_rule
    vc_rule
    vc_rule
    try dsimp only
    refine Sat.assert ?_ ?_
    · intro hf
      exact hd hde (by omega)
    · intro hf
      exact main (fun _ => hf)
  · rw [if_neg hde]
    exact main (fun h => absurd h hde)

theorem write_sat (hW : 2 * N < E.W) (buf : List A) {c : Ring A} {l : List A} (h : Rep N c l) :
    Sat (write E N buf c)
      (fun n s => n = min buf.length (N - l.length) ∧ Rep N s (l ++ buf.take (N - l.length)) ∧
        (E.debug = true → ridx N c.origin l.length + min buf.length (N - l.length) ≤ N) ∧ s.origin = c.origin)
      (fun s => s = c ∧ E.debug = true ∧ N < ridx N c.origin l.length + min buf.length (N - l.length)) False := by
  have h0 := h
  obtain ⟨h1, h2, h3, h4⟩ := h
  unfold write
  rw [← h2] at h3 ⊢
  apply Sat.bind; vc_rule; try dsimp only
  apply Sat.bind; vc_rule
  have hb : (if buf.length > N - c.length then buf.take (N - c.length) else buf) = buf.take (N - c.length) := by
    split
    · rfl
    · rw [List.take_of_length_le (by omega)]
  try dsimp only
  rw [hb]
  have hbl : (buf.take (N - c.length)).length = min buf.length (N - c.length) := by rw [List.length_take]; omega
  apply Sat.bind; vc_rule; try dsimp only
  apply Sat.bind; vc_rule; try dsimp only
  apply Sat.bind; vc_rule; try dsimp only
  apply Sat.bind
  refine sat_copyFromSlice hW _ _ h1 (by omega) ?_ ?_
  · intro hd hf
    exact ⟨rfl, hd, by omega⟩
  · intro hd m hm
    vc
    refine ⟨hbl, Rep.mk' h1 (by simp; omega) (by simp; omega) ?_, fun hde => by have := hd hde; omega, rfl⟩
    rw [hm]
    intro j hj
    unfold Mem.putList
    simp only [List.length_append] at hj
    by_cases hjl : j < c.length
    · rw [if_neg (by omega), h4 _ (by omega), List.getElem?_append_left (by omega)]
    · rw [if_pos (by omega), List.getElem?_append_right (by omega), h2]

theorem write_ref (hW : 2 * N < E.W) (hd : E.debug = false) (buf : List A) {c : Ring A} {l : List A} (h : Rep N c l) :
    Ref (Rep N) (write E N buf c) (Spec.write N buf l) := by
  refine Sat.imp (write_sat hW buf h) ?_ ?_ (fun h => h.elim)
  · rintro n s ⟨rfl, h1, _⟩; exact ⟨_, rfl, h1⟩
  · rintro s ⟨rfl, h1, _⟩; rw [hd] at h1; cases h1

/-! ### Slices -/

theorem upTo_some {hi : Bound} {n a : Nat} {w : Nat × Nat} (h : Spec.span.upTo hi n a = some w) : w.1 ≤ w.2 ∧ w.2 ≤ n := by
  unfold Spec.span.upTo at h
  cases hi <;> dsimp only at h <;> split at h <;> simp only [Option.some.injEq, reduceCtorEq] at h <;> subst h <;> assumption
theorem span_some {lo hi : Bound} {n : Nat} {w : Nat × Nat} (h : Spec.span lo hi n = some w) : w.1 ≤ w.2 ∧ w.2 ≤ n := by
  unfold Spec.span at h
  cases lo with
  | unbounded => exact upTo_some h
  | included i => exact upTo_some h
  | excluded i => cases h

theorem narrow_some {cuts : List Cut} {w v : Nat × Nat} {n : Nat} (h : Spec.narrow cuts w = some v) (h1 : w.1 ≤ w.2)
    (h2 : w.2 ≤ n) : w.1 ≤ v.1 ∧ v.1 ≤ v.2 ∧ v.2 ≤ w.2 := by
  induction cuts generalizing w with
  | nil => simp [Spec.narrow] at h; subst h; omega
  | cons c r ih =>
    obtain ⟨a, b⟩ := w
    dsimp only at h1 h2 ⊢
    cases c with
    | sub lo hi =>
      simp only [Spec.narrow] at h
      split at h
      · rename_i x y hs
        have := span_some hs
        dsimp only at this
        have := ih h (by dsimp only; omega) (by dsimp only; omega)
        dsimp only at this
        omega
      · cases h
    | left i =>
      simp only [Spec.narrow] at h
      split at h
      · have := ih h (by dsimp only; omega) (by dsimp only; omega)
        dsimp only at this
        omega
      · cases h
    | right i =>
      simp only [Spec.narrow] at h
      split at h
      · have := ih h (by dsimp only; omega) (by dsimp only; omega)
        dsimp only at this
        omega
      · cases h

theorem window_some {lo hi : Bound} {cuts : List Cut} {n : Nat} {w : Nat × Nat} (h : Spec.window lo hi cuts n = some w) :
    w.1 ≤ w.2 ∧ w.2 ≤ n := by
  unfold Spec.window at h
  split at h
  · rename_i v hs
    have := span_some hs
    have := narrow_some h this.1 this.2
    omega
  · cases h

theorem part_length {w : Nat × Nat} {l : List A} (h2 : w.2 ≤ l.length) : (Spec.part w l).length = w.2 - w.1 := by
  simp [Spec.part]; omega

theorem sat_slice {c : Ring A} {l : List A} {Q : Span → Ring A → Prop} {P : Ring A → Prop} {B : Prop} (hW : 2 * N < E.W)
    (h : Rep N c l) (lo hi : Bound) (hr : Bound.regular E lo hi = true)
    (hq : ∀ a b, Spec.span lo hi l.length = some (a, b) → Q ⟨a, b⟩ c)
    (hp : Spec.span lo hi l.length = none → P c) : Sat (slice E lo hi c) Q P B := by
  have h2 := h.len
  have h3 := h.le
  have key : ∀ a, (∀ x y, Spec.span.upTo hi l.length a = some (x, y) → Q ⟨x, y⟩ c) → (Spec.span.upTo hi l.length a = none → P c) →
      Sat ((do
        let stop ← parseStop E hi
        M.panicIf (stop > (← getLen) ∨ a > stop)
        return (⟨a, stop⟩ : Span) : M (Ring A) Span) c) Q P B := by
    intro a hq hp
    unfold Spec.span.upTo at hq hp
    unfold parseStop
    cases hi with
    | unbounded =>
      dsimp only at hq hp ⊢
      vc
      · apply hp; simp; omega
      · rw [h2]; apply hq; simp; omega
    | excluded i =>
      dsimp only at hq hp ⊢
      vc
      · apply hp; simp; omega
      · apply hq; simp; omega
    | included i =>
      dsimp only at hq hp ⊢
      by_cases hov : i + 1 < E.W
      · vc
        · apply hp; simp; omega
        · apply hq; simp; omega
      · have hde : E.debug = true := by
          simp [Bound.regular, Bound.usize] at hr
          rcases hr.2 with h | h
          · exact h
          · omega
        apply Sat.bind
        unfold uadd
        rw [if_neg hov, if_pos hde]
        apply Sat.panic
        apply hp; simp; omega
  unfold slice
  cases lo with
  | unbounded => exact key 0 (by simpa [Spec.span] using hq) (by simpa [Spec.span] using hp)
  | included i => exact key i (by simpa [Spec.span] using hq) (by simpa [Spec.span] using hp)
  | excluded i => exact hp rfl

theorem regular_lo {lo hi : Bound} (hr : Bound.regular E lo hi = true) : lo.usize E = true := by
  simp only [Bound.regular, Bool.and_eq_true] at hr; exact hr.1.1
theorem regular_hi {lo hi : Bound} (hr : Bound.regular E lo hi = true) : hi.usize E = true := by
  simp only [Bound.regular, Bool.and_eq_true] at hr; exact hr.1.2
theorem regular_max {lo hi : Bound} (hr : Bound.regular E lo hi = true) (hd : ¬ E.debug = true) : hi ≠ .included (E.W - 1) := by
  simp only [Bound.regular, Bool.and_eq_true, hd, Bool.false_or, decide_eq_true_eq] at hr; exact hr.2

theorem sat_subSlice {c : Ring A} {Q : Span → Ring A → Prop} {P : Ring A → Prop} {B : Prop} {s e : Nat}
    (h1 : s ≤ e) (h2 : e < E.W) (lo hi : Bound) (hr : Bound.regular E lo hi = true)
    (hq : ∀ a b, Spec.span lo hi (e - s) = some (a, b) → Q ⟨s + a, s + b⟩ c)
    (hp : Spec.span lo hi (e - s) = none → P c) : Sat (subSlice E ⟨s, e⟩ lo hi c) Q P B := by
  -- the upper end, once the start `a` is known to be `s + x`
  have key : ∀ x, (∀ p q, Spec.span.upTo hi (e - s) x = some (p, q) → Q ⟨s + p, s + q⟩ c) → (Spec.span.upTo hi (e - s) x = none → P c) →
      Sat ((do
        let stop ← subStop E ⟨s, e⟩ hi
        M.panicIf (s + x < s ∨ stop > e ∨ s + x > stop)
        return (⟨s + x, stop⟩ : Span) : M (Ring A) Span) c) Q P B := by
    intro x hq hp
    unfold Spec.span.upTo at hq hp
    unfold subStop
    cases hi with
    | unbounded =>
      dsimp only at hq hp ⊢
      vc
      · apply hp; simp; omega
      · rw [show e = s + (e - s) by omega]; apply hq; simp; omega
    | excluded i =>
      dsimp only at hq hp ⊢
      by_cases hov : s + i < E.W
      · vc
        · apply hp; simp; omega
        · apply hq; simp; omega
      · have hiW : i < E.W := by simpa [Bound.usize] using regular_hi hr
        have hp' : P c := by apply hp; simp; omega
        apply Sat.bind
        unfold uadd
        rw [if_neg hov]
        split
        · exact hp'
        · apply Sat.pure
          have : (s + i) % E.W = s + i - E.W := by rw [Nat.mod_eq_sub_mod (by omega)]; exact Nat.mod_eq_of_lt (by omega)
          rw [this]
          vc
          exact hp'
    | included i =>
      dsimp only at hq hp ⊢
      have hiW : i < E.W := by simpa [Bound.usize] using regular_hi hr
      by_cases hov : s + i + 1 < E.W
      · vc
        · apply hp; simp; omega
        · rw [Nat.add_assoc]; apply hq; simp; omega
      · have hp' : P c := by apply hp; simp; omega
        by_cases hde : E.debug = true
        · apply Sat.bind
          apply Sat.bind
          unfold uadd
          rw [if_pos hde]
          by_cases h : s + i < E.W
          · rw [if_pos h]
            apply Sat.pure
            rw [if_neg hov, if_pos hde]
            exact hp'
          · rw [if_neg h]
            exact hp'
        · have hne : i ≠ E.W - 1 := by
            simpa using regular_max hr hde
          apply Sat.bind
          apply Sat.bind
          unfold uadd
          rw [if_neg hde]
          by_cases h : s + i < E.W
          · rw [if_pos h]
            apply Sat.pure
            rw [if_neg hov, if_neg hde]
            apply Sat.pure
            have : s + i + 1 = E.W := by omega
            rw [this, Nat.mod_self]
            vc
            exact hp'
          · rw [if_neg h]
            apply Sat.pure
            have e1 : (s + i) % E.W = s + i - E.W := by rw [Nat.mod_eq_sub_mod (by omega)]; exact Nat.mod_eq_of_lt (by omega)
            rw [e1]
            rw [if_pos (by omega)]
            apply Sat.pure
            vc
            exact hp'
  unfold subSlice subStart
  cases lo with
  | unbounded => exact key 0 (by simpa [Spec.span] using hq) (by simpa [Spec.span] using hp)
  | included i =>
    have hiW : i < E.W := by simpa [Bound.usize] using regular_lo hr
    dsimp only
    by_cases hov : s + i < E.W
    · apply Sat.bind
      refine Sat.uadd hov ?_
      exact key i (by simpa [Spec.span] using hq) (by simpa [Spec.span] using hp)
    · have hp' : P c := by
        apply hp
        simp only [Spec.span, Spec.span.upTo]
        rw [if_neg (by omega)]
      apply Sat.bind
      unfold uadd
      rw [if_neg hov]
      split
      · exact hp'
      · apply Sat.pure
        have e1 : (s + i) % E.W = s + i - E.W := by rw [Nat.mod_eq_sub_mod (by omega)]; exact Nat.mod_eq_of_lt (by omega)
        rw [e1]
        have : ∀ stop, Sat ((do
            M.panicIf (s + i - E.W < s ∨ stop > e ∨ s + i - E.W > stop)
            return (⟨s + i - E.W, stop⟩ : Span) : M (Ring A) Span) c) Q P B := by
          intro stop; vc; exact hp'
        apply Sat.bind
        unfold subStop uadd
        have hde : ¬ E.debug = true := by assumption
        cases hi with
        | unbounded => exact this _
        | included j =>
          dsimp only
          apply Sat.bind
          rw [if_neg hde]
          split <;> (apply Sat.pure; split <;> exact this _)
        | excluded j =>
          dsimp only
          rw [if_neg hde]
          split <;> exact this _
  | excluded i => exact hp rfl

theorem sat_sliceLen {c : Ring A} {Q : Nat → Ring A → Prop} {P : Ring A → Prop} {B : Prop} {a b : Nat} (h : a ≤ b)
    (hq : Q (b - a) c) : Sat (sliceLen E ⟨a, b⟩ c) Q P B := by
  unfold sliceLen; exact Sat.usub h hq

theorem sat_narrow {c : Ring A} {Q : Span → Ring A → Prop} {P : Ring A → Prop} {B : Prop} (cuts : List Cut) {s e : Nat}
    (h1 : s ≤ e) (h2 : e < E.W) (hr : Cut.regular E cuts = true)
    (hq : ∀ a b, Spec.narrow cuts (s, e) = some (a, b) → Q ⟨a, b⟩ c)
    (hp : Spec.narrow cuts (s, e) = none → P c) : Sat (narrow E cuts ⟨s, e⟩ c) Q P B := by
  induction cuts generalizing s e with
  | nil => exact hq _ _ rfl
  | cons k r ih =>
    cases k with
    | sub lo hi =>
      simp only [Cut.regular, Bool.and_eq_true] at hr
      unfold narrow
      apply Sat.bind
      refine sat_subSlice h1 h2 lo hi hr.1 ?_ ?_
      · intro a b hs
        have := span_some hs
        dsimp only at this
        refine ih (by omega) (by omega) hr.2 ?_ ?_
        · intro x y hn; apply hq; simp only [Spec.narrow, hs]; exact hn
        · intro hn; apply hp; simp only [Spec.narrow, hs]; exact hn
      · intro hs; apply hp; simp only [Spec.narrow, hs]
    | left i =>
      simp only [Cut.regular] at hr
      unfold narrow splitAt
      simp only [Spec.narrow] at hq hp
      apply Sat.bind
      apply Sat.bind
      refine sat_sliceLen h1 ?_
      apply Sat.bind
      apply Sat.panicIf
      · intro hi; apply hp; rw [if_neg (by omega)]
      · intro hi
        rw [if_pos (by omega)] at hq hp
        apply Sat.bind
        refine Sat.uadd (show s + i < E.W by omega) ?_
        exact ih (by omega) (show s + i < E.W by omega) hr hq hp
    | right i =>
      simp only [Cut.regular] at hr
      unfold narrow splitAt
      simp only [Spec.narrow] at hq hp
      apply Sat.bind
      apply Sat.bind
      refine sat_sliceLen h1 ?_
      apply Sat.bind
      apply Sat.panicIf
      · intro hi; apply hp; rw [if_neg (by omega)]
      · intro hi
        rw [if_pos (by omega)] at hq hp
        apply Sat.bind
        refine Sat.uadd (show s + i < E.W by omega) ?_
        exact ih (by dsimp only; omega) (by omega) hr hq hp

theorem sat_sliceVia {c : Ring A} {l : List A} {Q : Span → Ring A → Prop} {P : Ring A → Prop} {B : Prop} (hW : 2 * N < E.W)
    (h : Rep N c l) (lo hi : Bound) (cuts : List Cut) (hr : Bound.regular E lo hi = true) (hr' : Cut.regular E cuts = true)
    (hq : ∀ a b, Spec.window lo hi cuts l.length = some (a, b) → a ≤ b → b ≤ l.length → Q ⟨a, b⟩ c)
    (hp : Spec.window lo hi cuts l.length = none → P c) : Sat (sliceVia E lo hi cuts c) Q P B := by
  unfold sliceVia
  apply Sat.bind
  have := h.le
  have hq' : ∀ a b, Spec.window lo hi cuts l.length = some (a, b) → Q ⟨a, b⟩ c := by
    intro a b hs
    have := window_some hs
    exact hq a b hs this.1 this.2
  unfold Spec.window at hq' hp
  refine sat_slice hW h lo hi hr ?_ ?_
  · intro a b hs
    have := span_some hs
    dsimp only at this
    rw [hs] at hq' hp
    exact sat_narrow cuts (by omega) (by omega) hr' hq' hp
  · intro hs
    rw [hs] at hp
    exact hp rfl

/-- The list `l` with the part in the window replaced by `m`. -/
def back (w : Nat × Nat) (l m : List A) : List A := l.take w.1 ++ m ++ l.drop w.2

theorem back_part {w : Nat × Nat} {l : List A} (h1 : w.1 ≤ w.2) : back w l (Spec.part w l) = l := by
  unfold back Spec.part
  have : l.take w.1 ++ (l.take w.2).drop w.1 = l.take w.2 := by
    have := List.take_append_drop w.1 (l.take w.2)
    rwa [List.take_take, Nat.min_eq_left h1] at this
  rw [this, List.take_append_drop]

/-- The buffer holds `l` with the part in the window replaced. -/
def RepW (N : Nat) (w : Nat × Nat) (l : List A) (c : Ring A) (m : List A) : Prop := Rep N c (back w l m)

/-- Lifting an operation on a slice to an operation on the buffer that first makes the slice. -/
theorem within_ref {α : Type} (hW : 2 * N < E.W) {c : Ring A} {l : List A} (h : Rep N c l) (lo hi : Bound) (cuts : List Cut)
    (hr : Bound.regular E lo hi = true) (hr' : Cut.regular E cuts = true) (x : Span → M (Ring A) α) (y : M (List A) α)
    (hxy : ∀ a b, a ≤ b → b ≤ l.length → Spec.window lo hi cuts l.length = some (a, b) →
      Ref (RepW N (a, b) l) (x ⟨a, b⟩ c) (y (Spec.part (a, b) l))) :
    Ref (Rep N) ((do x (← sliceVia E lo hi cuts)) c) (Spec.within lo hi cuts y l) := by
  unfold Ref Spec.within
  apply Sat.bind
  refine sat_sliceVia hW h lo hi cuts hr hr' ?_ ?_
  · intro a b hw h1 h2
    rw [hw]
    refine Sat.imp (hxy a b h1 h2 hw) ?_ ?_ ?_
    · rintro r s ⟨m, e, hm⟩
      dsimp only
      rw [e]; exact ⟨_, rfl, hm⟩
    · rintro s ⟨m, e, hm⟩
      dsimp only
      rw [e]; exact ⟨_, rfl, hm⟩
    · intro e
      dsimp only
      rw [e]; rfl
  · intro hw
    rw [hw]
    exact ⟨_, rfl, h⟩

theorem part_getElem? {a b : Nat} {l : List A} (i : Nat) :
    (Spec.part (a, b) l)[i]? = if a + i < b then l[a + i]? else none := by
  unfold Spec.part
  dsimp only
  rw [List.getElem?_drop, List.getElem?_take]

theorem sat_sliceIter {c : Ring A} {Q : IdxIter → Ring A → Prop} {P : Ring A → Prop} {B : Prop} (hW : 2 * N < E.W) {a b : Nat}
    (h0 : c.origin < N) (h1 : a ≤ b) (h2 : b ≤ N) (hq : Q ⟨b - a, ridx N c.origin a, ridx N c.origin b⟩ c) :
    Sat (sliceIter E N ⟨a, b⟩ c) Q P B := by
  unfold sliceIter sliceLen
  have := ridx_lt (j := a) h0 (by omega)
  vc
  rw [ridx_ridx h0 (by omega), show a + (b - a) = b by omega]
  exact hq

theorem sat_sliceIterMut {c : Ring A} {Q : IdxIter → Ring A → Prop} {P : Ring A → Prop} {B : Prop} (hW : 2 * N < E.W) {a b : Nat}
    (h0 : c.origin < N) (h1 : a ≤ b) (h2 : b ≤ N) (hq : Q ⟨b - a, ridx N c.origin a, ridx N c.origin b⟩ c) :
    Sat (sliceIterMut E N ⟨a, b⟩ c) Q P B := by
  unfold sliceIterMut iterMutSlice sliceLen
  have := ridx_lt (j := a) h0 (by omega)
  vc
  rw [ridx_ridx h0 (by omega), show a + (b - a) = b by omega]
  exact hq

theorem sat_sliceItems {c : Ring A} {l : List A} {Q : List A → Ring A → Prop} {P : Ring A → Prop} {B : Prop} (hW : 2 * N < E.W)
    (h : Rep N c l) {a b : Nat} (h1 : a ≤ b) (h2 : b ≤ l.length) (hq : Q (Spec.part (a, b) l) c) :
    Sat (sliceItems E N ⟨a, b⟩ c) Q P B := by
  have h3 := h.le
  unfold sliceItems
  apply Sat.bind
  refine sat_sliceIter hW h.org h1 (by omega) ?_
  have hl := part_length (w := (a, b)) (l := l) h2
  dsimp only at hl ⊢
  rw [← hl]
  refine sat_collectIter hW h.org _ a _ (by omega) (by omega) ?_ hq
  intro j hj
  rw [h.cell _ (by omega), part_getElem? _, if_pos (by omega)]

theorem sliceItems_ref (hW : 2 * N < E.W) {c : Ring A} {l : List A} (h : Rep N c l) {a b : Nat} (h1 : a ≤ b) (h2 : b ≤ l.length) :
    Ref (RepW N (a, b) l) (sliceItems E N ⟨a, b⟩ c) (Spec.items (Spec.part (a, b) l)) := by
  refine sat_sliceItems hW h h1 h2 ⟨_, rfl, ?_⟩
  unfold RepW; rwa [back_part h1]

theorem sliceLen_ref {c : Ring A} {l : List A} (h : Rep N c l) {a b : Nat} (h1 : a ≤ b) (h2 : b ≤ l.length) :
    Ref (RepW N (a, b) l) (sliceLen E ⟨a, b⟩ c) (Spec.len (Spec.part (a, b) l)) := by
  refine sat_sliceLen h1 ⟨Spec.part (a, b) l, ?_, ?_⟩
  · unfold Spec.len; rw [part_length h2]
  · unfold RepW; rwa [back_part h1]

theorem sliceGet_ref (hW : 2 * N < E.W) {c : Ring A} {l : List A} (h : Rep N c l) {a b : Nat} (h1 : a ≤ b) (h2 : b ≤ l.length)
    (i : Nat) : Ref (RepW N (a, b) l) (sliceGet E N ⟨a, b⟩ i c) (Spec.get i (Spec.part (a, b) l)) := by
  have hb : RepW N (a, b) l c (Spec.part (a, b) l) := by unfold RepW; rwa [back_part h1]
  have h3 := h.le
  unfold sliceGet sliceGetUnchecked Ref Spec.get
  rw [part_getElem? _]
  apply Sat.bind
  refine sat_sliceLen h1 ?_
  apply Sat.ite
  · intro hi
    rw [if_neg (by omega)]
    exact ⟨_, rfl, hb⟩
  · intro hi
    rw [if_pos (by omega)]
    apply Sat.bind
    apply Sat.bind
    refine Sat.uadd (show a + i < E.W by omega) ?_
    have hl : l[a + i]? = some (l[a + i]'(by omega)) := List.getElem?_eq_getElem _
    refine getUnchecked_sat hW h hl ?_
    rw [hl]
    exact ⟨_, rfl, hb⟩

theorem back_set {a b i : Nat} {l : List A} {v : A} (h1 : a + i < b) (h2 : b ≤ l.length) :
    back (a, b) l ((Spec.part (a, b) l).set i v) = l.set (a + i) v := by
  have hl := part_length (w := (a, b)) (l := l) h2
  dsimp only at hl
  apply List.ext_getElem?
  intro j
  unfold back
  dsimp only
  rw [List.append_assoc, List.getElem?_append, List.getElem?_append]
  simp only [List.length_take, List.length_set, List.getElem?_take, List.getElem?_set, List.getElem?_drop, part_getElem? _, hl]
  repeat' split
  all_goals first | omega | rfl | (congr 1; omega) | grind

/-- `get_mut` of a slice: a reference to the slot of its item `i`. -/
theorem sliceGetMut_eq (hW : 2 * N < E.W) {c : Ring A} {l : List A} (h : Rep N c l) {a b : Nat} (h1 : a ≤ b) (h2 : b ≤ l.length) (i : Nat) :
    sliceGetMut E N ⟨a, b⟩ i c = .ok (if i < b - a then some (ridx N c.origin (a + i)) else none) c := by
  have h3 := h.le
  have hn : sliceLen E ⟨a, b⟩ c = .ok (b - a) c := by simp [sliceLen, usub, h1]
  by_cases hi : i < b - a
  · have h4 : ¬ b - a ≤ i := by omega
    have hu : uadd E a i c = .ok (a + i) c := by simp [uadd, show a + i < E.W by omega]
    simp only [sliceGetMut, M.bind_run, hn, Out.andThen_ok, ge_iff_le, h4, if_false, M.ite_run, sliceGetUncheckedMut, hu,
      getUncheckedMut_eq hW h.org (show a + i < N by omega), M.pure_run, hi, if_true]
  · have h4 : b - a ≤ i := by omega
    simp only [sliceGetMut, M.bind_run, hn, Out.andThen_ok, ge_iff_le, h4, if_true, M.ite_run, M.pure_run, hi, if_false]

/-- `index_mut` of a slice is `index_mut` of the buffer at the shifted index. -/
theorem sliceSetIndex_def (s : Span) (i : Nat) (v : A) : sliceSetIndex E N s i v = (do setIndex E N (← uadd E s.start i) v) := by
  funext c
  unfold sliceSetIndex sliceIndexMut setIndex
  simp only [M.bind_run]
  cases uadd E s.start i c <;> simp

theorem sliceReplace_ref (hW : 2 * N < E.W) {c : Ring A} {l : List A} (h : Rep N c l) {a b : Nat} (h1 : a ≤ b) (h2 : b ≤ l.length)
    (i : Nat) (v : A) : Ref (RepW N (a, b) l) (sliceReplace E N ⟨a, b⟩ i v c) (Spec.replaceGet i v (Spec.part (a, b) l)) := by
  have hb : RepW N (a, b) l c (Spec.part (a, b) l) := by unfold RepW; rwa [back_part h1]
  have h3 := h.le
  unfold Spec.replaceGet
  rw [part_getElem? _]
  by_cases hi : i < b - a
  · have hl : l[a + i]? = some (l[a + i]'(by omega)) := List.getElem?_eq_getElem _
    obtain ⟨s, e, hs⟩ := swapAt_eq h (show a + i < l.length by omega) v
    rw [if_pos (by omega), hl]
    simp only [sliceReplace, M.bind_run, sliceGetMut_eq hW h h1 h2, hi, if_true, Out.andThen_ok, swapIf, e]
    refine ⟨_, rfl, ?_⟩
    unfold RepW; rwa [back_set (by omega) h2]
  · rw [if_neg (by omega)]
    simp only [sliceReplace, M.bind_run, sliceGetMut_eq hW h h1 h2, hi, if_false, Out.andThen_ok, swapIf]
    exact ⟨_, rfl, hb⟩

theorem sliceIndex_ref (hW : 2 * N < E.W) {c : Ring A} {l : List A} (h : Rep N c l) {a b : Nat} (h1 : a ≤ b) (h2 : b ≤ l.length)
    (i : Nat) (hi : i < b - a) : Ref (RepW N (a, b) l) (sliceIndex E N ⟨a, b⟩ i c) (Spec.index i (Spec.part (a, b) l)) := by
  have h3 := h.le
  have hl : l[a + i]? = some (l[a + i]'(by omega)) := List.getElem?_eq_getElem _
  unfold sliceIndex Ref Spec.index
  rw [part_getElem? _, if_pos (by omega), hl]
  apply Sat.bind
  refine Sat.uadd (show a + i < E.W by omega) ?_
  have hr := index_ref (E := E) hW h (a + i)
  unfold Spec.index at hr
  rw [hl] at hr
  refine Sat.imp hr ?_ ?_ ?_
  · rintro r s ⟨t, e, ht⟩
    simp only [Out.ok.injEq] at e
    obtain ⟨rfl, rfl⟩ := e
    refine ⟨_, rfl, ?_⟩
    unfold RepW; rwa [back_part h1]
  · rintro s ⟨t, e, ht⟩; cases e
  · intro e; cases e

theorem sliceSetIndex_ref (hW : 2 * N < E.W) {c : Ring A} {l : List A} (h : Rep N c l) {a b : Nat} (h1 : a ≤ b) (h2 : b ≤ l.length)
    (i : Nat) (hi : i < b - a) (v : A) : Ref (RepW N (a, b) l) (sliceSetIndex E N ⟨a, b⟩ i v c) (Spec.set i v (Spec.part (a, b) l)) := by
  have h3 := h.le
  have hl : l[a + i]? = some (l[a + i]'(by omega)) := List.getElem?_eq_getElem _
  rw [sliceSetIndex_def]
  unfold Ref Spec.set
  rw [part_getElem? _, if_pos (by omega), hl]
  apply Sat.bind
  refine Sat.uadd (show a + i < E.W by omega) ?_
  have hr := setIndex_ref (E := E) hW h (a + i) v
  unfold Spec.set at hr
  rw [hl] at hr
  refine Sat.imp hr ?_ ?_ ?_
  · rintro r s ⟨t, e, ht⟩
    simp only [Out.ok.injEq] at e
    obtain ⟨rfl, rfl⟩ := e
    refine ⟨_, rfl, ?_⟩
    unfold RepW; rwa [back_set (by omega) h2]
  · rintro s ⟨t, e, ht⟩; cases e
  · intro e; cases e

theorem sliceMutate_ref (hW : 2 * N < E.W) {c : Ring A} {l : List A} (h : Rep N c l) {a b : Nat} (h1 : a ≤ b) (h2 : b ≤ l.length)
    (f : List A → List A) : Ref (RepW N (a, b) l) (sliceMutate E N ⟨a, b⟩ f c) (Spec.mutate f (Spec.part (a, b) l)) := by
  have hlen := part_length (w := (a, b)) (l := l) h2
  dsimp only at hlen
  have h0 := h.org
  have h3 := h.le
  unfold sliceMutate Ref Spec.mutate
  apply Sat.bind
  refine sat_sliceItems hW h h1 h2 ?_
  generalize hg : f (Spec.part (a, b) l) = g
  by_cases hf : g.length = (Spec.part (a, b) l).length
  · rw [if_pos hf, if_pos hf]
    apply Sat.bind
    refine sat_sliceIterMut hW h0 h1 (by omega) ?_
    rw [show b - a = g.length by omega]
    refine sat_assignLoop hW g a c h0 (by omega) ?_ ?_
    · intro j q1 q2; rw [h.cell j (by omega)]; exact ⟨_, List.getElem?_eq_getElem (by omega)⟩
    · intro m hm
      refine ⟨_, rfl, ?_⟩
      have hbl : (back (a, b) l g).length = l.length := by
        unfold back; simp only [List.length_append, List.length_take, List.length_drop]; omega
      refine Rep.mk' h0 (by rw [hbl]; exact h.len) (by omega) ?_
      rw [hm]
      intro j hj
      unfold Mem.putList back
      dsimp only
      rw [List.append_assoc, List.getElem?_append, List.getElem?_append]
      simp only [List.length_take, List.getElem?_take, List.getElem?_drop]
      by_cases hj1 : a ≤ j ∧ j < a + g.length
      · rw [if_pos hj1, if_neg (by omega), if_pos (by omega)]; congr 1; omega
      · rw [if_neg hj1, h.cell _ (by omega)]
        by_cases hj2 : j < a
        · rw [if_pos (by omega), if_pos hj2]
        · rw [if_neg (by omega), if_neg (by omega)]; congr 1; omega
  · rw [if_neg hf, if_neg hf]
    refine ⟨_, rfl, ?_⟩
    unfold RepW; rwa [back_part h1]

theorem ownedLoop_sat (hW : 2 * N < E.W) (dp : A → Bool) (cl : A → Option A) {c : Ring A} {right : Nat} (h0 : c.origin < N)
    (q acc : List A) (a f : Nat) (out : Ring A) (log : List A) (ho : Rep N out acc) (hn : acc.length + q.length ≤ N)
    (ha : a + q.length ≤ N) (hf : q.length < f) (hcell : ∀ j, j < q.length → lm N c.origin c.mem (a + j) = q[j]?) :
    Sat (ownedLoop E N dp cl f ⟨q.length, ridx N c.origin a, right⟩ ((out, c), log))
      (fun _ s => (Spec.bornOf cl q).length = q.length ∧ Rep N s.1.1 (acc ++ Spec.bornOf cl q) ∧ s.1.2 = c ∧ s.2 = log)
      (fun s => (Spec.bornOf cl q).length < q.length ∧ Rep N s.1.1 (acc ++ Spec.bornOf cl q) ∧ s.1.2 = c ∧ s.2 = log) False := by
  induction q generalizing acc a f out with
  | nil =>
    obtain ⟨f, rfl⟩ : ∃ g, f = g + 1 := ⟨f - 1, by omega⟩
    unfold ownedLoop
    apply Sat.bind
    apply Sat.onFst
    apply Sat.onSnd
    apply sat_iterNext hW h0 ha
    · intro _
      exact ⟨rfl, by simpa [Spec.bornOf] using ho, rfl, rfl⟩
    · intro h; simp at h
  | cons x r ih =>
    obtain ⟨f, rfl⟩ : ∃ g, f = g + 1 := ⟨f - 1, by omega⟩
    simp only [List.length_cons] at ha hf hcell hn ⊢
    unfold ownedLoop
    apply Sat.bind
    apply Sat.onFst
    apply Sat.onSnd
    apply sat_iterNext hW h0 ha
    · intro h; omega
    · intro _
      refine ⟨x, by simpa using hcell 0 (by omega), ?_⟩
      simp only [Nat.add_sub_cancel]
      cases hx : cl x with
      | none =>
        apply Sat.panic
        simp only [Spec.bornOf, hx]
        exact ⟨by simp, by simpa using ho, trivial, trivial⟩
      | some b =>
        apply Sat.bind
        apply Sat.mAtFst
        have hp := pushBackOwned_ref (E := E) hW dp b ho log
        refine Sat.imp hp ?_ ?_ ?_
        · rintro _ s ⟨t, e, ht⟩
          rw [if_pos (by omega)] at e
          simp only [Out.ok.injEq, true_and] at e
          subst e
          obtain ⟨s1, s2⟩ := s
          obtain ⟨ht1, ht2⟩ := ht
          dsimp only at ht1 ht2
          subst ht2
          have := ih (acc ++ [b]) (a + 1) f s1 ht1 (by simp; omega) (by omega) (by omega) (by
            intro j hj
            have := hcell (j + 1) (by omega)
            rw [show a + 1 + j = a + (j + 1) by omega, this]; simp)
          simp only [Spec.bornOf, hx]
          refine Sat.imp this ?_ ?_ id
          · rintro _ s ⟨e1, e2, e3, e4⟩
            exact ⟨by simp [e1], by simpa using e2, e3, e4⟩
          · rintro s ⟨e1, e2, e3, e4⟩
            exact ⟨by simp; omega, by simpa using e2, e3, e4⟩
        · rintro s ⟨t, e, ht⟩
          rw [if_pos (by omega)] at e
          simp at e
        · intro e
          rw [if_pos (by omega)] at e
          simp at e

theorem toOwned_ref (hN : 0 < N) (hW : 2 * N < E.W) (dp : A → Bool) (cl : A → Option A) {c : Ring A} {l : List A} (h : Rep N c l)
    (log : List A) (lo hi : Bound) (cuts : List Cut) (hr : Bound.regular E lo hi = true) (hr' : Cut.regular E cuts = true) :
    RefV (Rep N) (RelLog (Rep N))
      ((do sliceToOwned E N dp cl (← M.onFst (sliceVia E lo hi cuts)) : M (Ring A × List A) (Ring A)) (c, log))
      (Spec.cloneWithin dp cl lo hi cuts (l, log)) := by
  have h3 := h.le
  unfold RefV Spec.cloneWithin
  apply Sat.bind
  apply Sat.onFst
  refine sat_sliceVia hW h lo hi cuts hr hr' ?_ ?_
  · intro a b hw h1 h2
    have hl := part_length (w := (a, b)) (l := l) h2
    dsimp only at hl ⊢
    rw [hw]
    dsimp only
    generalize hg : Spec.part (a, b) l = g at hl
    unfold sliceToOwned
    apply Sat.bind
    apply Sat.onFst
    refine sat_sliceIter hW h.org h1 (by omega) ?_
    apply Sat.bind
    refine sat_new hN ?_
    apply Sat.bind
    apply Sat.withLocal
    dsimp only
    rw [← hl]
    refine Sat.imp (ownedLoop_sat hW dp cl h.org g [] a (g.length + 1) _ log (Rep.empty hN) (by simp; omega) (by omega) (by omega) ?_) ?_ ?_ ?_
    · intro j hj
      rw [h.cell _ (by omega), ← hg, part_getElem?, if_pos (by omega)]
    · rintro _ ⟨⟨s1, s2⟩, s3⟩ ⟨e1, e2, e3, e4⟩
      dsimp only at e1 e2 e3 e4
      subst e3 e4
      rw [if_pos e1]
      exact ⟨_, _, rfl, by simpa using e2, h, rfl⟩
    · rintro ⟨⟨s1, s2⟩, s3⟩ ⟨e1, e2, e3, e4⟩
      dsimp only at e1 e2 e3 e4
      subst e3 e4
      rw [if_neg (by omega)]
      rw [List.nil_append] at e2
      apply dropLocal_sat hW dp e2
      · intro hd
        simp only [Spec.panicDropping, hd]
        exact ⟨_, rfl, h, rfl⟩
      · intro hd
        simp [Spec.panicDropping, hd]
    · intro h; exact h.elim
  · intro hw
    dsimp only
    rw [hw]
    exact ⟨_, rfl, h, rfl⟩

end Ring
end Verif
