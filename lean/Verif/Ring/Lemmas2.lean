import Verif.Ring.Lemmas
import Verif.Moves
/-
Helper lemmas for `RingBuffer`, continued: block moves, shifting insertions and removals.
-/
namespace Verif
namespace Ring
variable {A : Type} {E : Env} {N : Nat}

/-! ### Block moves -/

/-- How many places slot `j` comes after slot `o`. -/
def rdist (N o j : Nat) : Nat := if o ≤ j then j - o else j + N - o

/-- The effect of a block move going round: `count` slots from `frm` in `src` to `to` in `dst`. -/
def cblit (N : Nat) (src : Mem A) (frm : Nat) (dst : Mem A) (to count : Nat) : Mem A :=
  fun j => if j < N ∧ rdist N to j < count then src (ridx N frm (rdist N to j)) else dst j

theorem sat_forceCopyTo {Q : Unit → Ring A × Ring A → Prop} {P : Ring A × Ring A → Prop} {B : Prop} {d c : Ring A}
    {f t n : Nat} (hW : 2 * N < E.W) (hi : f + n ≤ N ∧ t + n ≤ N)
    (h : Q () ({ d with mem := c.mem.blit f d.mem t n }, c)) : Sat (forceCopyTo E N f t n (d, c)) Q P B := by
  unfold forceCopyTo
  apply Sat.ite
  · intro hn
    simp only [M.debugAssert]
    cases hd : E.debug
    · simp only [Bool.false_eq_true, if_false]
      vc
      exact h
    · simp only [if_true]
      vc
      exact h
  · intro hn
    have : n = 0 := by omega
    subst this
    rw [Chunk.blit_zero] at h
    exact h

theorem cblit_flat {src dst : Mem A} {f t n : Nat} (hf : f + n ≤ N) (ht : t + n ≤ N) (htN : t < N) :
    src.blit f dst t n = cblit N src f dst t n := by
  funext j
  unfold Mem.blit cblit rdist ridx
  by_cases h1 : t ≤ j
  · by_cases h2 : j < t + n
    · have : f + (j - t) < N := by omega
      have : j < N := by omega
      have : j - t < n := by omega
      simp [*]
    · have : ¬ (j - t < n) := by omega
      simp [*]
  · have : ¬ (j < N ∧ j + N - t < n) := by omega
    simp [*]

theorem cblit_wrapTo {src dst : Mem A} {f t n : Nat} (hf : f + n ≤ N) (ht : N < t + n) (htN : t < N) :
    src.blit (f + (N - t)) (src.blit f dst t (N - t)) 0 (n - (N - t)) = cblit N src f dst t n := by
  funext j
  unfold Mem.blit cblit rdist ridx
  by_cases h1 : t ≤ j
  · by_cases h2 : j < N
    · have a1 : f + (j - t) < N := by omega
      have a2 : j - t < n := by omega
      have a3 : j < t + (N - t) := by omega
      have a4 : ¬ (0 ≤ j ∧ j < 0 + (n - (N - t))) := by omega
      simp only [h1, h2, a1, a2, a3, a4, if_true, if_false, and_self]
    · have a3 : ¬ (j < t + (N - t)) := by omega
      have a4 : ¬ (0 ≤ j ∧ j < 0 + (n - (N - t))) := by omega
      have a5 : ¬ (j < N ∧ j - t < n) := by omega
      simp only [h1, a3, a4, a5, if_true, if_false, and_false]
  · have a4 : j < N := by omega
    simp only [h1, a4, if_false, true_and, false_and]
    by_cases h2 : j + N - t < n
    · have a5 : 0 ≤ j ∧ j < 0 + (n - (N - t)) := by omega
      have a6 : f + (j + N - t) < N := by omega
      simp only [h2, a5, a6, if_true, and_self]
      congr 1; omega
    · have a5 : ¬ (0 ≤ j ∧ j < 0 + (n - (N - t))) := by omega
      simp only [h2, a5, if_false]

theorem cblit_wrapFrom {src dst : Mem A} {f t n : Nat} (hfN : f < N) (hf : N < f + n) (hn : n ≤ N) (htN : t < N) :
    cblit N src 0 (cblit N src f dst t (N - f)) (ridx N t (N - f)) (n - (N - f)) = cblit N src f dst t n := by
  funext j
  unfold cblit
  by_cases hj : j < N
  · simp only [hj, true_and]
    have key : rdist N (ridx N t (N - f)) j = if rdist N t j < N - f then rdist N t j + N - (N - f) else rdist N t j - (N - f) := by
      unfold rdist ridx
      by_cases h1 : t + (N - f) < N
      · simp only [h1, if_true]
        by_cases h2 : t ≤ j
        · simp only [h2, if_true]; split <;> split <;> omega
        · simp only [h2, if_false]; split <;> split <;> omega
      · simp only [h1, if_false]
        by_cases h2 : t ≤ j
        · simp only [h2, if_true]; split <;> split <;> omega
        · simp only [h2, if_false]; split <;> split <;> omega
    have hd : rdist N t j < N := by unfold rdist; split <;> omega
    by_cases h3 : rdist N t j < N - f
    · simp only [h3, if_true] at key
      have a1 : ¬ (rdist N (ridx N t (N - f)) j < n - (N - f)) := by omega
      have a2 : rdist N t j < n := by omega
      simp only [a1, a2, h3, if_true, if_false]
    · simp only [h3, if_false] at key
      simp only [h3, if_false, key]
      by_cases h4 : rdist N t j < n
      · have a1 : rdist N t j - (N - f) < n - (N - f) := by omega
        simp only [h4, a1, if_true]
        congr 1
        unfold ridx
        rw [if_pos (by omega), if_neg (by omega)]
        omega
      · have a1 : ¬ (rdist N t j - (N - f) < n - (N - f)) := by omega
        simp only [h4, a1, if_false]
  · simp [hj]

theorem lm_cblit {src dst : Mem A} {o1 o2 a b n : Nat} (h1 : o1 < N) (h2 : o2 < N) (ha : a + n ≤ N) (hb : b + n ≤ N) (hn : 0 < n) :
    lm N o2 (cblit N src (ridx N o1 a) dst (ridx N o2 b) n) = (lm N o1 src).blit a (lm N o2 dst) b n := by
  funext j
  unfold lm cblit Mem.blit
  by_cases hj : j < N
  · have e : rdist N (ridx N o2 b) (ridx N o2 j) = if b ≤ j then j - b else j + N - b := by
      unfold rdist ridx
      by_cases h3 : o2 + b < N
      · simp only [h3, if_true]
        by_cases h4 : o2 + j < N
        · simp only [h4, if_true]; split <;> split <;> omega
        · simp only [h4, if_false]; split <;> split <;> omega
      · simp only [h3, if_false]
        by_cases h4 : o2 + j < N
        · simp only [h4, if_true]; split <;> split <;> omega
        · simp only [h4, if_false]; split <;> split <;> omega
    have hlt : ridx N o2 j < N := ridx_lt h2 (by omega)
    simp only [hj, hlt, if_true, true_and, e]
    by_cases h5 : b ≤ j
    · simp only [h5, if_true, true_and]
      by_cases h6 : j < b + n
      · have a1 : j - b < n := by omega
        have a2 : a + (j - b) < N := by omega
        simp only [h6, a1, a2, if_true]
        rw [ridx_ridx h1 (by omega)]
      · have a1 : ¬ (j - b < n) := by omega
        simp only [h6, a1, if_false]
    · have a1 : ¬ (j + N - b < n) := by omega
      simp only [h5, a1, if_false, false_and]
  · have : ¬ (b ≤ j ∧ j < b + n) := by omega
    simp [hj, this]

theorem sat_copyFromRec_flat {Q : Unit → Ring A × Ring A → Prop} {P : Ring A × Ring A → Prop} {B : Prop} {d c : Ring A}
    {f t n g : Nat} (hW : 2 * N < E.W) (hf : f + n ≤ N) (hn : n ≤ N) (ht : t < N) (hg : 0 < g)
    (h : Q () ({ d with mem := cblit N c.mem f d.mem t n }, c)) : Sat (copyFromRec E N g f t n (d, c)) Q P B := by
  obtain ⟨g, rfl⟩ : ∃ k, g = k + 1 := ⟨g - 1, by omega⟩
  unfold copyFromRec
  vc
  · refine sat_forceCopyTo hW (by omega) ?_
    vc
    have e : ridx N f (N - t) = f + (N - t) := by unfold ridx; rw [if_pos (by omega)]
    rw [e]
    refine sat_forceCopyTo hW (by omega) ?_
    dsimp only
    rw [cblit_wrapTo hf (by omega) ht]
    exact h
  · refine sat_forceCopyTo hW (by omega) ?_
    rw [cblit_flat hf (by omega) ht]
    exact h

theorem sat_copyFrom' {Q : Unit → Ring A × Ring A → Prop} {P : Ring A × Ring A → Prop} {B : Prop} {d c : Ring A}
    {f t n : Nat} (hW : 2 * N < E.W) (hf : f < N) (hn : n ≤ N) (ht : t < N)
    (h : Q () ({ d with mem := cblit N c.mem f d.mem t n }, c)) : Sat (copyFrom E N f t n (d, c)) Q P B := by
  unfold copyFrom
  by_cases hx : f + n ≤ N
  · exact sat_copyFromRec_flat hW hx hn ht (by omega) h
  · unfold copyFromRec
    vc
    refine sat_copyFromRec_flat hW (by omega) (by omega) ht (by omega) ?_
    vc
    refine sat_copyFromRec_flat hW (by omega) (by omega) (ridx_lt ht (by omega)) (by omega) ?_
    dsimp only
    rw [cblit_wrapFrom hf (by omega) hn ht]
    exact h

/-- A block move in logical positions. -/
theorem sat_copyFrom {Q : Unit → Ring A × Ring A → Prop} {P : Ring A × Ring A → Prop} {B : Prop} {d c : Ring A}
    {o1 o2 a b n : Nat} (hW : 2 * N < E.W) (h1 : o1 < N) (h2 : o2 < N) (ha : a + n ≤ N) (hb : b + n ≤ N)
    (h : ∀ m, lm N o2 m = (lm N o1 c.mem).blit a (lm N o2 d.mem) b n → Q () ({ d with mem := m }, c)) :
    Sat (copyFrom E N (ridx N o1 a) (ridx N o2 b) n (d, c)) Q P B := by
  by_cases hn : 0 < n
  · apply sat_copyFrom' hW (ridx_lt h1 (by omega)) (by omega) (ridx_lt h2 (by omega))
    exact h _ (lm_cblit h1 h2 ha hb hn)
  · have : n = 0 := by omega
    subst this
    apply sat_copyFrom' hW (ridx_lt h1 (by omega)) (by omega) (ridx_lt h2 (by omega))
    apply h
    rw [Chunk.blit_zero]
    congr 1
    funext j; simp [cblit]

/-- Two buffers hold two lists. -/
def Rep2 (N : Nat) (s : Ring A × Ring A) (t : List A × List A) : Prop := Rep N s.1 t.1 ∧ Rep N s.2 t.2

theorem drainFromFront_ref (hW : 2 * N < E.W) {d c : Ring A} {l k : List A} (h : Rep N d l) (h' : Rep N c k)
    (n : Nat) : Ref (Rep2 N) (drainFromFront E N n (d, c)) (Spec.drainFromFront N n (l, k)) := by
  have h0 := h
  have h0' := h'
  obtain ⟨h1, h2, h3, h4⟩ := h
  obtain ⟨k1, k2, k3, k4⟩ := h'
  unfold drainFromFront Ref Spec.drainFromFront
  simp only
  by_cases hc : l.length + n ≤ N ∧ n ≤ k.length
  · rw [if_pos hc]
    vc
    rw [← ridx_zero k1]
    refine sat_copyFrom hW k1 h1 (by omega) (by omega) ?_
    intro m hm
    vc
    refine ⟨_, rfl, Rep.mk' h1 (by simp; omega) (by simp; omega) ?_, Rep.mk' (ridx_lt k1 (by omega)) (by simp; omega) (by simp; omega) ?_⟩
    · rw [hm]
      grind [Mem.blit]
    · intro j hj
      simp only [List.length_drop] at hj
      rw [lm_ridx k1 (by omega), k4 _ (by omega)]
      grind
  · rw [if_neg hc]
    unfold uadd
    vc
    all_goals exact ⟨_, rfl, h0, h0'⟩

theorem drainFromBack_ref (hW : 2 * N < E.W) {d c : Ring A} {l k : List A} (h : Rep N d l) (h' : Rep N c k)
    (n : Nat) : Ref (Rep2 N) (drainFromBack E N n (d, c)) (Spec.drainFromBack N n (l, k)) := by
  have h0 := h
  have h0' := h'
  obtain ⟨h1, h2, h3, h4⟩ := h
  obtain ⟨k1, k2, k3, k4⟩ := h'
  unfold drainFromBack Ref Spec.drainFromBack
  simp only
  by_cases hc : l.length + n ≤ N ∧ n ≤ k.length
  · rw [if_pos hc]
    vc
    have ho : rsub N d.origin n < N := rsub_lt h1 (by omega)
    rw [← ridx_zero ho]
    refine sat_copyFrom hW k1 ho (by omega) (by omega) ?_
    intro m hm
    vc
    rw [ridx_zero ho]
    refine ⟨_, rfl, Rep.mk' ho (by simp; omega) (by simp; omega) ?_, Rep.mk' k1 (by simp; omega) (by simp; omega) ?_⟩
    · rw [hm]
      intro j hj
      have hj' : j < n + l.length := by simp at hj; omega
      have e := lm_rsub (m := d.mem) (j := j) h1 (n := n) (by omega) (by omega)
      unfold Mem.blit
      by_cases h5 : j < n
      · rw [if_pos (by omega), k4 _ (by omega)]
        grind
      · rw [if_neg (by omega), e, if_neg h5, h4 _ (by omega)]
        grind
    · intro j hj
      simp only [List.length_take] at hj
      rw [k4 _ (by omega)]
      grind
  · rw [if_neg hc]
    unfold uadd
    vc
    all_goals exact ⟨_, rfl, h0, h0'⟩

theorem append_ref (hW : 2 * N < E.W) {d c : Ring A} {l k : List A} (h : Rep N d l) (h' : Rep N c k) :
    Ref (Rep2 N) (append E N (d, c)) (Spec.append N (l, k)) := by
  unfold append
  have h2 := h'.len
  have := drainFromFront_ref hW h h' k.length
  simp only [M.bind_run, M.onSnd_run, getLen, Out.mapState_ok, Out.andThen_ok, h2]
  have e : Spec.drainFromFront N k.length (l, k) = Spec.append N (l, k) := by
    simp [Spec.drainFromFront, Spec.append]
  rwa [e] at this

/-! ### Shifting -/

/-- What changes in logical positions `a .. a+n` only, changes at most `n` slots. -/
theorem rewritten_of_lm {o a n k : Nat} {m m' : Mem A} (ho : o < N) (hk : n ≤ k)
    (h : ∀ j, ¬ (a ≤ j ∧ j < a + n) → lm N o m' j = lm N o m j) : Mem.Rewritten N k m m' := by
  refine ⟨(List.range' a n).map (ridx N o), by simpa using hk, fun j hj hn => ?_⟩
  have hx : ridx N o (if o ≤ j then j - o else j + N - o) = j := by
    unfold ridx; split <;> split <;> omega
  have hlt : (if o ≤ j then j - o else j + N - o) < N := by split <;> omega
  have := h (if o ≤ j then j - o else j + N - o) (fun hc => hn (by
    rw [List.mem_map]
    exact ⟨_, by rw [List.mem_range'_1]; exact hc, hx⟩))
  unfold lm at this
  rwa [if_pos hlt, if_pos hlt, hx] at this

/-- The first loop of "shift to the right": positions `t+1 .. p` move up by `n`. -/
theorem sat_shiftUpLoop {Q : Unit → Ring A → Prop} {P : Ring A → Prop} {B : Prop} (hW : 2 * N < E.W) {o n t : Nat}
    (p f : Nat) (c : Ring A) (ho : o < N) (ht : t ≤ p) (hp : p + n < N) (hf : p - t < f)
    (hs : ∀ j, t < j → j ≤ p → ∃ a, lm N o c.mem j = some a)
    (h : ∀ m, (∀ j, lm N o m j = if t + n < j ∧ j ≤ p + n then lm N o c.mem (j - n) else lm N o c.mem j) →
      Q () { c with mem := m }) : Sat (shiftUpLoop E N n (ridx N o t) f (ridx N o p) c) Q P B := by
  induction hk : p - t generalizing p f c with
  | zero =>
    have : p = t := by omega
    subst this
    obtain ⟨f, rfl⟩ : ∃ g, f = g + 1 := ⟨f - 1, by omega⟩
    unfold shiftUpLoop
    rw [if_neg (by simp)]
    apply Sat.pure
    have := h c.mem (by intro j; rw [if_neg (by omega)])
    exact this
  | succ k ih =>
    obtain ⟨f, rfl⟩ : ∃ g, f = g + 1 := ⟨f - 1, by omega⟩
    unfold shiftUpLoop
    have hne : ridx N o p ≠ ridx N o t := by
      intro e; have := ridx_inj (by omega) (by omega) e; omega
    rw [if_pos hne]
    have hlt := ridx_lt (j := p) ho (by omega)
    vc
    obtain ⟨a, ha⟩ := hs p (by omega) (by omega)
    refine sat_forceReadL ho (by omega) ha ?_
    rw [ridx_ridx ho (by omega)]
    have hlt2 := ridx_lt (j := p + n) ho (by omega)
    vc
    rw [rsub_ridx ho (by omega) (by omega)]
    refine ih (p - 1) f _ (by omega) (by omega) (by omega) ?_ ?_ (by omega)
    · intro j h1 h2
      dsimp only
      rw [lm_put (by omega)]
      obtain ⟨b, hb⟩ := hs j (by omega) (by omega)
      exact ⟨b, by unfold Mem.put; rw [if_neg (by omega)]; exact hb⟩
    · intro m hm
      apply h m
      intro j
      rw [hm j]
      dsimp only
      rw [lm_put (by omega)]
      unfold Mem.put
      by_cases h1 : j = p + n
      · subst h1
        rw [if_neg (by omega), if_pos rfl, if_pos (by omega), ← ha]
        congr 1; omega
      · by_cases h2 : t + n < j ∧ j ≤ p - 1 + n
        · rw [if_pos h2, if_neg (by omega), if_pos (by omega)]
        · rw [if_neg h2, if_neg h1, if_neg (by omega)]

/-- "Shift to the right": positions `i ..` move up by `n`, leaving a gap. -/
theorem sat_shiftRight {Q : Unit → Ring A → Prop} {P : Ring A → Prop} {B : Prop} (hW : 2 * N < E.W) {i n : Nat} {c : Ring A}
    {l : List A} (hr : Rep N c l) (hi : i < l.length) (hn : l.length + n ≤ N)
    (h : ∀ c', c'.origin < N → c'.length = l.length + n → (∀ j, j < i → lm N c'.origin c'.mem j = l[j]?) →
      (∀ j, i + n ≤ j → j < l.length + n → lm N c'.origin c'.mem j = l[j - n]?) → Mem.Rewritten N (l.length - i) c.mem c'.mem → Q () c') :
    Sat (shiftRight E N i n c) Q P B := by
  obtain ⟨h1, h2, h3, h4⟩ := hr
  unfold shiftRight
  vc
  have hs : ∀ j, j < l.length → ∃ a, lm N c.origin c.mem j = some a := by
    intro j hj; rw [h4 j hj]; exact ⟨_, List.getElem?_eq_getElem hj⟩
  refine sat_shiftUpLoop hW _ _ _ h1 (by omega) (by omega) (by omega) ?_ ?_
  · intro j _ h6; exact hs j (by omega)
  · intro m hm
    have hlt := ridx_lt (j := i) h1 (by omega)
    vc
    obtain ⟨a, ha⟩ := hs i hi
    have hmi : lm N c.origin m i = some a := by
      rw [hm i]; split
      · exfalso; omega
      · exact ha
    refine sat_forceReadL h1 (by omega) hmi ?_
    rw [ridx_ridx h1 (by omega)]
    have hlt2 := ridx_lt (j := i + n) h1 (by omega)
    vc
    apply h
    · exact h1
    · dsimp only; omega
    · intro j hj
      dsimp only
      rw [lm_put (by omega)]
      unfold Mem.put
      have e : j < l.length := by omega
      rw [← h4 j e]
      by_cases h0 : j = i + n
      · omega
      · rw [if_neg h0, hm j, if_neg (by omega)]
    · intro j hj hj'
      dsimp only
      rw [lm_put (by omega)]
      unfold Mem.put
      rw [← h4 (j - n) (by omega)]
      by_cases h0 : j = i + n
      · subst h0; rw [if_pos rfl, ← ha]; congr 1; omega
      · rw [if_neg h0, hm j, if_pos (by omega)]
    · refine rewritten_of_lm h1 (a := i + n) (n := l.length - i) (Nat.le_refl _) fun j hj => ?_
      dsimp only
      rw [lm_put (by omega)]
      unfold Mem.put
      rw [if_neg (by omega), hm j, if_neg (by omega)]

/-- "Shift to the left": the origin moves back by `n` and the first `i` items with it, leaving a gap. -/
theorem sat_shiftLeft {Q : Unit → Ring A → Prop} {P : Ring A → Prop} {B : Prop} (hW : 2 * N < E.W) {i n : Nat} {c : Ring A}
    {l : List A} (hr : Rep N c l) (hi : i ≤ l.length) (hn : l.length + n ≤ N)
    (h : ∀ c', c'.origin < N → c'.length = l.length + n → (∀ j, j < i → lm N c'.origin c'.mem j = l[j]?) →
      (∀ j, i + n ≤ j → j < l.length + n → lm N c'.origin c'.mem j = l[j - n]?) → Mem.Rewritten N i c.mem c'.mem → Q () c') :
    Sat (shiftLeft E N i n c) Q P B := by
  obtain ⟨h1, h2, h3, h4⟩ := hr
  unfold shiftLeft
  vc
  have ho : rsub N c.origin n < N := rsub_lt h1 (by omega)
  have hl : ∀ j, n ≤ j → j < N → lm N (rsub N c.origin n) c.mem j = lm N c.origin c.mem (j - n) := by
    intro j a1 a2; rw [lm_rsub h1 (by omega) a2, if_neg (by omega)]
  refine sat_range hW ho (by dsimp only; omega) ?_
  unfold takeIdx
  dsimp only
  refine sat_forIdx0 hW ho (I := fun k s => s.origin = rsub N c.origin n ∧ s.length = c.length + n ∧
      ∀ j, lm N (rsub N c.origin n) s.mem j = if j < k then lm N (rsub N c.origin n) c.mem (j + n) else lm N (rsub N c.origin n) c.mem j)
      _ _ (by omega) ?_ ?_ ?_
  · refine ⟨rfl, rfl, ?_⟩
    intro j; rw [if_neg (by omega)]
  · rintro k ⟨o', n', m⟩ hk ⟨e1, e2, e3⟩
    dsimp only at e1 e2 e3
    subst e1; subst e2
    have hlt := ridx_lt (j := k) ho (by omega)
    vc
    rw [ridx_ridx ho (by omega)]
    have ha : ∃ a, lm N (rsub N c.origin n) m (k + n) = some a := by
      rw [e3, if_neg (by omega), hl _ (by omega) (by omega), h4 _ (by omega)]
      exact ⟨_, List.getElem?_eq_getElem (by omega)⟩
    obtain ⟨a, ha⟩ := ha
    refine sat_forceReadL ho (by omega) ha ?_
    vc
    refine ⟨rfl, rfl, ?_⟩
    intro j
    rw [lm_put (by omega)]
    unfold Mem.put
    by_cases h5 : j = k
    · subst h5
      rw [if_pos rfl, if_pos (by omega), ← ha, e3, if_neg (by omega)]
    · rw [if_neg h5, e3]
      by_cases h6 : j < k
      · rw [if_pos h6, if_pos (by omega)]
      · rw [if_neg h6, if_neg (by omega)]
  · rintro ⟨o', n', m⟩ ⟨e1, e2, e3⟩
    dsimp only at e1 e2 e3
    subst e1; subst e2
    apply h
    · exact ho
    · dsimp only; omega
    · intro j hj
      dsimp only
      rw [e3, if_pos (by omega), hl _ (by omega) (by omega), h4 _ (by omega)]
      congr 1; omega
    · intro j hj hj'
      dsimp only
      rw [e3, if_neg (by omega), hl _ (by omega) (by omega), h4 _ (by omega)]
    · refine rewritten_of_lm ho (a := 0) (n := i) (Nat.le_refl _) fun j hj => ?_
      dsimp only
      rw [e3, if_neg (by omega)]

theorem insert_ref (hW : 2 * N < E.W) {c : Ring A} {l : List A} (h : Rep N c l) (i : Nat) (v : A) :
    Ref (Rep N) (insert E N i v c) (Spec.insert N i v l) := by
  have h0 := h
  obtain ⟨h1, h2, h3, h4⟩ := h
  generalize hS : Spec.insert N i v l = S
  unfold insert Ref
  by_cases hc : l.length < N ∧ i ≤ l.length
  · have fin : ∀ c' : Ring A, c'.origin < N → c'.length = l.length + 1 → (∀ j, j < i → lm N c'.origin c'.mem j = l[j]?) →
      (∀ j, i + 1 ≤ j → j < l.length + 1 → lm N c'.origin c'.mem j = l[j - 1]?) →
      Sat (raw E N i c') (fun a s' => Sat (forceWrite E N a v s') (fun a s => ∃ t, S = .ok a t ∧ Rep N s t)
        (fun s => ∃ t, S = .panic t ∧ Rep N s t) (S = .abort)) (fun s => ∃ t, S = .panic t ∧ Rep N s t) (S = .abort) := by
      intro c' a1 a2 a3 a4
      vc
      rw [← hS, Spec.insert, if_pos hc]
      refine ⟨_, rfl, Rep.mk' a1 (by simp; omega) (by simp; omega) ?_⟩
      rw [lm_put (by omega)]
      grind [Mem.put]
    vc
    · have := pushFront_ref hW h0 v
      simp only [Spec.pushFront, if_pos hc.1] at this
      subst hS
      rw [Spec.insert, if_pos hc]
      have e : i = 0 := by assumption
      subst e
      exact this
    · have := pushBack_ref hW h0 v
      simp only [Spec.pushBack, if_pos hc.1] at this
      subst hS
      rw [Spec.insert, if_pos hc]
      have e : i = l.length := by omega
      subst e
      simpa [Ref] using this
    · apply Sat.bind
      exact sat_shiftRight hW h0 (by omega) (by omega) (fun c' a1 a2 a3 a4 _ => Sat.bind (fin c' a1 a2 a3 a4))
    · apply Sat.bind
      exact sat_shiftLeft hW h0 (by omega) (by omega) (fun c' a1 a2 a3 a4 _ => Sat.bind (fin c' a1 a2 a3 a4))
  · rw [← hS, Spec.insert, if_neg hc]
    vc
    all_goals exact ⟨_, rfl, h0⟩

theorem insertOrdered_ref (hW : 2 * N < E.W) {c : Ring A} {l : List A} (h : Rep N c l)
    (search : List A → A → Option (Except Nat Nat)) (v : A) :
    Ref (Rep N) (insertOrdered E N search v c) (Spec.insertOrdered N search v l) := by
  have h2 := h.len
  have h3 := h.le
  unfold insertOrdered Ref Spec.insertOrdered
  split
  · vc
    refine sat_items hW h ?_
    rcases search l v with _ | _ | _ <;> simp only
    · exact ⟨_, rfl, h⟩
    all_goals exact insert_ref hW h _ v
  · vc
    exact ⟨_, rfl, h⟩

/-! ### Removal -/

theorem sat_closeUpLoop {Q : Unit → Ring A → Prop} {P : Ring A → Prop} {B : Prop} (hW : 2 * N < E.W) {o t : Nat}
    (p f : Nat) (c : Ring A) (ho : o < N) (ht : p ≤ t) (hp : t < N) (hf : t - p < f)
    (hs : ∀ j, p < j → j ≤ t → ∃ a, lm N o c.mem j = some a)
    (h : ∀ m, (∀ j, lm N o m j = if p ≤ j ∧ j < t then lm N o c.mem (j + 1) else lm N o c.mem j) →
      Q () { c with mem := m }) : Sat (closeUpLoop E N (ridx N o t) f (ridx N o p) c) Q P B := by
  induction hk : t - p generalizing p f c with
  | zero =>
    have : p = t := by omega
    subst this
    obtain ⟨f, rfl⟩ : ∃ g, f = g + 1 := ⟨f - 1, by omega⟩
    unfold closeUpLoop
    rw [if_neg (by simp)]
    apply Sat.pure
    exact h c.mem (by intro j; rw [if_neg (by omega)])
  | succ k ih =>
    obtain ⟨f, rfl⟩ : ∃ g, f = g + 1 := ⟨f - 1, by omega⟩
    unfold closeUpLoop
    have hne : ridx N o p ≠ ridx N o t := by
      intro e; have := ridx_inj (by omega) (by omega) e; omega
    rw [if_pos hne]
    have hlt := ridx_lt (j := p) ho (by omega)
    vc
    rw [ridx_ridx ho (by omega)]
    obtain ⟨a, ha⟩ := hs (p + 1) (by omega) (by omega)
    refine sat_forceReadL ho (by omega) ha ?_
    vc
    rw [ridx_ridx ho (by omega)]
    refine ih (p + 1) f _ (by omega) (by omega) ?_ ?_ (by omega)
    · intro j h1 h2
      dsimp only
      rw [lm_put (by omega)]
      obtain ⟨b, hb⟩ := hs j (by omega) (by omega)
      exact ⟨b, by unfold Mem.put; rw [if_neg (by omega)]; exact hb⟩
    · intro m hm
      apply h m
      intro j
      rw [hm j]
      dsimp only
      rw [lm_put (by omega)]
      unfold Mem.put
      by_cases h1 : j = p
      · subst h1
        rw [if_neg (by omega), if_pos rfl, if_pos (by omega), ← ha]
      · by_cases h2 : p + 1 ≤ j ∧ j < t
        · rw [if_pos h2, if_neg (by omega), if_pos (by omega)]
        · rw [if_neg h2, if_neg h1, if_neg (by omega)]

theorem sat_closeDownLoop {Q : Unit → Ring A → Prop} {P : Ring A → Prop} {B : Prop} (hW : 2 * N < E.W)
    (p f : Nat) (c : Ring A) (ho : c.origin < N) (hp : p < N) (hf : p < f)
    (hs : ∀ j, j < p → ∃ a, lm N c.origin c.mem j = some a)
    (h : ∀ m, (∀ j, lm N c.origin m j = if 0 < j ∧ j ≤ p then lm N c.origin c.mem (j - 1) else lm N c.origin c.mem j) →
      Q () { c with mem := m }) : Sat (closeDownLoop E N f (ridx N c.origin p) c) Q P B := by
  induction p generalizing f c with
  | zero =>
    obtain ⟨f, rfl⟩ : ∃ g, f = g + 1 := ⟨f - 1, by omega⟩
    unfold closeDownLoop
    apply Sat.bind
    apply sat_getOrigin
    rw [if_neg (by rw [ridx_zero ho]; simp)]
    apply Sat.pure
    exact h c.mem (by intro j; rw [if_neg (by omega)])
  | succ p ih =>
    obtain ⟨f, rfl⟩ : ∃ g, f = g + 1 := ⟨f - 1, by omega⟩
    unfold closeDownLoop
    apply Sat.bind
    apply sat_getOrigin
    have hne : ridx N c.origin (p + 1) ≠ c.origin := by
      intro e
      have := ridx_inj (i := p + 1) (j := 0) (o := c.origin) (N := N) (by omega) (by omega) (by rw [ridx_zero ho]; exact e)
      omega
    rw [if_pos hne]
    have hlt := ridx_lt (j := p + 1) ho (by omega)
    vc
    rw [rsub_ridx ho (by omega) (by omega)]
    simp only [Nat.add_sub_cancel]
    obtain ⟨a, ha⟩ := hs p (by omega)
    refine sat_forceReadL ho (by omega) ha ?_
    vc
    rw [rsub_ridx ho (by omega) (by omega)]
    simp only [Nat.add_sub_cancel]
    refine ih f { c with mem := c.mem.put (ridx N c.origin (p + 1)) a } ho (by omega) (by omega) ?_ ?_
    · intro j h1
      dsimp only
      rw [lm_put (by omega)]
      obtain ⟨b, hb⟩ := hs j (by omega)
      exact ⟨b, by unfold Mem.put; rw [if_neg (by omega)]; exact hb⟩
    · intro m hm
      apply h m
      intro j
      rw [hm j]
      dsimp only
      rw [lm_put (by omega)]
      unfold Mem.put
      by_cases h1 : j = p + 1
      · subst h1
        rw [if_neg (by omega), if_pos rfl, if_pos (by omega), ← ha]
        rfl
      · by_cases h2 : 0 < j ∧ j ≤ p
        · rw [if_pos h2, if_neg (by omega), if_pos (by omega)]
        · rw [if_neg h2, if_neg h1, if_neg (by omega)]

theorem remove_ref (hW : 2 * N < E.W) {c : Ring A} {l : List A} (h : Rep N c l) (i : Nat) :
    Ref (Rep N) (remove E N i c) (Spec.remove i l) := by
  have h0 := h
  obtain ⟨h1, h2, h3, h4⟩ := h
  unfold remove Ref Spec.remove
  cases hl : l[i]? with
  | none =>
    have : l.length ≤ i := by grind
    vc
    exact ⟨_, rfl, h0⟩
  | some a =>
    have hi : i < l.length := by grind
    have hs : ∀ j, j < l.length → ∃ a, lm N c.origin c.mem j = some a := by
      intro j hj; rw [h4 j hj]; exact ⟨_, List.getElem?_eq_getElem hj⟩
    vc
    refine sat_forceReadL h1 (by omega) (h0.cell' hl).2 ?_
    vc
    · refine sat_closeUpLoop hW _ _ _ h1 (by omega) (by omega) (by omega) ?_ ?_
      · intro j _ h6; exact hs j (by omega)
      · intro m hm
        vc
        refine ⟨_, rfl, Rep.mk' h1 (by simp; omega) (by simp; omega) ?_⟩
        intro j hj
        have hj' : j < l.length - 1 := by simp at hj; omega
        rw [hm j]
        dsimp only
        by_cases h5 : j < i
        · rw [if_neg (by omega), h4 _ (by omega)]; grind
        · rw [if_pos (by omega), h4 _ (by omega)]; grind
    · refine sat_closeDownLoop hW _ _ _ h1 (by omega) (by omega) ?_ ?_
      · intro j h6; exact hs j (by omega)
      · intro m hm
        vc
        refine ⟨_, rfl, Rep.mk' (ridx_lt h1 (by omega)) (by simp; omega) (by simp; omega) ?_⟩
        intro j hj
        have hj' : j < l.length - 1 := by simp at hj; omega
        rw [lm_ridx h1 (by omega), hm]
        by_cases h5 : j < i
        · rw [if_pos (by omega), h4 _ (by omega)]; grind
        · rw [if_neg (by omega), h4 _ (by omega)]; grind

end Ring
end Verif
