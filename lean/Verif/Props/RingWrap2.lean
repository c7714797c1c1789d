import Verif.Props.RingWrap
/-
C31, C32: release builds, `insert_from` in front of the end when `len() + it.len()` wraps around, exactly.
-/
namespace Verif.Ring
open Chunk (dbg64 rel64)
variable {A σ : Type} {E : Env} {N : Nat} {dp : A → Bool} {c : Ring A} {l : List A}

theorem sat_rawAdd_wrap {P : σ → Prop} {B : Prop} {Q : Nat → σ → Prop} (hN : 0 < N) (he : E.debug = false) {i k : Nat} {s : σ}
    (h : ∀ p, p < N → Q p s) : Sat (rawAdd E N i k s) Q P B := by
  have hf : ∀ p, p < N → rawFrom E N p s = .ok p s := fun p _ => by simp [rawFrom, M.debugAssert, he]
  unfold rawAdd
  apply Sat.bind
  have key : ∀ r, Sat ((do rawFrom E N (← addLoop E N (r + 1) r) : M σ Nat) s) Q P B := fun r => by
    simp only [M.bind_run, addLoop_mod hN s (r + 1) r (by omega), Out.andThen_ok, hf _ (Nat.mod_lt _ hN)]
    exact h _ (Nat.mod_lt _ hN)
  unfold uadd
  split
  · exact key _
  · simp only [he, Bool.false_eq_true, if_false, M.pure_run]; exact key _

/-- The loop of "shift to the right", however far it shifts: it reads initialised slots only, and the slot at `t` stays initialised. -/
theorem sat_shiftUpLoop_wrap {Q : Unit → Ring A → Prop} {P : Ring A → Prop} {B : Prop} (hW : 2 * N < E.W) (he : E.debug = false) {o n t : Nat}
    (p f : Nat) (c : Ring A) (ho : o < N) (ht : t ≤ p) (hp : p < N) (hf : p - t < f)
    (hs : ∀ j, t ≤ j → j ≤ p → ∃ a, lm N o c.mem j = some a)
    (h : ∀ m, (∃ a, lm N o m t = some a) → Q () { c with mem := m }) : Sat (shiftUpLoop E N n (ridx N o t) f (ridx N o p) c) Q P B := by
  have hput : ∀ (m : Mem A) (q j : Nat) (v : A), (∃ a, lm N o m j = some a) → ∃ a, lm N o (m.put q v) j = some a := by
    rintro m q j v ⟨a, ha⟩
    unfold lm Mem.put at *
    split at ha
    · rw [if_pos ‹_›]; split
      · exact ⟨_, rfl⟩
      · exact ⟨_, ha⟩
    · cases ha
  induction hk : p - t generalizing p f c with
  | zero =>
    have : p = t := by omega
    subst this
    obtain ⟨f, rfl⟩ : ∃ g, f = g + 1 := ⟨f - 1, by omega⟩
    unfold shiftUpLoop
    rw [if_neg (by simp)]
    exact Sat.pure (h c.mem (hs p (Nat.le_refl _) (Nat.le_refl _)))
  | succ k ih =>
    obtain ⟨f, rfl⟩ : ∃ g, f = g + 1 := ⟨f - 1, by omega⟩
    unfold shiftUpLoop
    have hne : ridx N o p ≠ ridx N o t := by
      intro e; have := ridx_inj (by omega) (by omega) e; omega
    rw [if_pos hne]
    have hlt := ridx_lt (j := p) ho (by omega)
    apply Sat.bind
    refine sat_rawAdd_wrap (by omega) he fun q hq => ?_
    apply Sat.bind
    obtain ⟨a, ha⟩ := hs p (by omega) (by omega)
    refine sat_forceReadL ho (by omega) ha ?_
    apply Sat.bind
    refine sat_forceWrite hq ?_
    apply Sat.bind
    refine sat_rawSubAssign hW hlt (by omega) ?_
    rw [rsub_ridx ho (by omega) (by omega)]
    refine ih (p - 1) f _ (by omega) (by omega) (by omega) (fun j h1 h2 => hput _ _ _ _ (hs j h1 (by omega))) (fun m hm => h m hm) (by omega)

/-- The loop that fills the gap, when it goes round the buffer more than once. -/
theorem writeLoop_wrap (hW : 2 * N < E.W) (dp : A → Bool) (n : Nat) (it : It A) (p k : Nat) (c : Ring A) (log : List A) (hp : p < N) (hk : k + n < E.W) :
    Sat (writeLoop E N dp n it p k (c, log))
      (fun k' s => ∃ m, s.1 = { c with mem := m } ∧
        ((n ≤ it.items.length ∧ k' = k + n ∧ (∀ d, d < N → m (ridx N p d) = if d < n then it.items[n - 1 - (n - 1 - d) % N]? else c.mem (ridx N p d)) ∧
            s.2 = log ++ It.owned (it.drop n) ∧ (It.owned (it.drop n)).countP dp = 0) ∨
         (it.items.length < n ∧ k' = k + it.items.length ∧ s.2 = log ∧ It.owned (it.drop (it.items.length + 1)) = [])))
      (fun s => ∃ m, s.1 = { c with mem := m } ∧
        ((n ≤ it.items.length ∧ s.2 = log ++ It.owned (it.drop n) ∧ (It.owned (it.drop n)).countP dp = 1) ∨
         (it.items.length < n ∧ s.2 = log ++ It.owned (it.drop (it.items.length + 1)) ∧
            (It.owned (it.drop (it.items.length + 1))).any dp = false)))
      ((n ≤ it.items.length ∧ 2 ≤ (It.owned (it.drop n)).countP dp) ∨
       (it.items.length < n ∧ (It.owned (it.drop (it.items.length + 1))).any dp = true)) := by
  induction n generalizing it p k c with
  | zero =>
    simp only [writeLoop]
    apply Sat.bind
    apply Sat.dropSlice
    · intro hd
      apply Sat.pure
      exact ⟨c.mem, rfl, Or.inl ⟨Nat.zero_le _, rfl, by simp, rfl, hd⟩⟩
    · intro hd
      exact ⟨c.mem, rfl, Or.inl ⟨Nat.zero_le _, rfl, hd⟩⟩
    · intro hd
      exact Or.inl ⟨Nat.zero_le _, hd⟩
  | succ n ih =>
    cases it with
    | nil =>
      simp only [writeLoop]
      apply Sat.pure
      exact ⟨c.mem, rfl, Or.inr ⟨by simp [It.items], rfl, rfl, rfl⟩⟩
    | cons e r =>
      cases e with
      | panic =>
        simp only [writeLoop]
        apply Sat.onUnwind
        apply Sat.panic
        apply Sat.unwindDrop
        · intro hd; exact ⟨c.mem, rfl, Or.inr ⟨by simp [It.items], rfl, hd⟩⟩
        · intro hd; exact Or.inr ⟨by simp [It.items], hd⟩
      | item a =>
        simp only [writeLoop]
        apply Sat.bind
        apply Sat.onFst
        refine sat_forceWrite hp ?_
        vc
        refine Sat.imp (ih r (ridx N p 1) (k + 1) _ (ridx_lt hp (by omega)) (by omega)) ?_ ?_ ?_
        · rintro w' s ⟨m, hs, h⟩
          refine ⟨m, hs, ?_⟩
          simp only [It.items, List.length_cons, List.drop_succ_cons, Nat.add_le_add_iff_right, Nat.add_lt_add_iff_right]
          rcases h with ⟨h1, h2, h3, h4⟩ | ⟨h1, h2, h3⟩
          · refine Or.inl ⟨h1, by omega, ?_, h4⟩
            intro d hd
            have put_ne : ∀ q, q ≠ p → (c.mem.put p a) q = c.mem q := fun q h => by simp [Mem.put, h]
            cases d with
            | zero =>
              have hN1 : ridx N (ridx N p 1) (N - 1) = p := by
                rw [ridx_ridx hp (by omega), show 1 + (N - 1) = N by omega]; unfold ridx; split <;> omega
              have := h3 (N - 1) (by omega)
              rw [hN1] at this
              rw [ridx_zero hp, this, if_pos (Nat.succ_pos _)]
              by_cases hn : N - 1 < n
              · rw [if_pos hn]
                have h5 : (n + 1 - 1 - 0) % N = (n - 1 - (N - 1)) % N := by
                  rw [show n + 1 - 1 - 0 = (n - 1 - (N - 1)) + N by omega, Nat.add_mod_right]
                rw [h5]
                have h6 : (n - 1 - (N - 1)) % N ≤ n - 1 - (N - 1) := Nat.mod_le _ _
                rw [show n + 1 - 1 - (n - 1 - (N - 1)) % N = (n - 1 - (n - 1 - (N - 1)) % N) + 1 by omega, List.getElem?_cons_succ]
              · rw [if_neg hn]
                rw [Nat.mod_eq_of_lt (by omega)]
                simp [Mem.put]
            | succ d =>
              have := h3 d (by omega)
              rw [ridx_ridx hp (by omega), Nat.add_comm 1 d] at this
              rw [this]
              by_cases hn : d < n
              · rw [if_pos hn, if_pos (by omega)]
                have h6 : (n - 1 - d) % N ≤ n - 1 - d := Nat.mod_le _ _
                rw [show n + 1 - 1 - (d + 1) = n - 1 - d by omega, show n + 1 - 1 - (n - 1 - d) % N = (n - 1 - (n - 1 - d) % N) + 1 by omega,
                  List.getElem?_cons_succ]
              · rw [if_neg hn, if_neg (by omega)]
                refine put_ne _ fun e => ?_
                have := ridx_inj (N := N) (o := p) hd (show 0 < N by omega) (by rw [e, ridx_zero hp])
                omega
          · exact Or.inr ⟨h1, by omega, h3⟩
        · rintro s ⟨m, hs, h⟩
          refine ⟨m, hs, ?_⟩
          simpa [It.items] using h
        · intro h
          simpa [It.items] using h

/-- How `insert_from(i, it)` ends when `len() + n` wraps around (`n` being what `it` announces, and `len` the buffer's length), once it has moved items about.
If the iterator yields fewer than announced (or panics), the call panics and the buffer is left empty, everything that was in it and that it took from the iterator being
leaked.  If it does yield that many, the call returns, and the buffer shows `len + n - E.W` items, all of them the iterator's: at position `q` the last
of the first `n` that comes to lie there when they are laid round and round the buffer, starting at `i`.  No undefined behaviour, and it ends. -/
structure Garbled (E : Env) (N : Nat) (dp : A → Bool) (i n len : Nat) (it : It A) (log : List A) (o : Out (Ring A × List A) Unit) : Prop where
  not_ub : o ≠ .ub
  ends : o ≠ .diverge
  short : it.items.length < n → (It.owned (it.drop (it.items.length + 1))).any dp = false →
    ∃ s, o = .panic s ∧ View E N s.1 [] ∧ s.2 = log ++ It.owned (it.drop (it.items.length + 1))
  whole : n ≤ it.items.length → (It.owned (it.drop n)).countP dp = 0 →
    ∃ s l', o = .ok () s ∧ View E N s.1 l' ∧ s.2 = log ++ It.owned (it.drop n) ∧ l'.length = len + n - E.W ∧
      ∀ q, q < l'.length → ∃ k, k < n ∧ n ≤ k + N ∧ (i + k) % N = q ∧ l'[q]? = it.items[k]?

theorem lap_item {i q n : Nat} (hN : 0 < N) (hi : i < N) (hq : q < N) (hn : N ≤ n) : ∃ d, d < N ∧ (∀ o, o < N → ridx N (ridx N o i) d = ridx N o q) ∧
    n - 1 - (n - 1 - d) % N < n ∧ n ≤ n - 1 - (n - 1 - d) % N + N ∧ (i + (n - 1 - (n - 1 - d) % N)) % N = q := by
  obtain ⟨d, hd, h⟩ : ∃ d, d < N ∧ (i + d = q ∨ i + d = q + N) := by
    by_cases h : i ≤ q
    · exact ⟨q - i, by omega, .inl (by omega)⟩
    · exact ⟨q + N - i, by omega, .inr (by omega)⟩
  have h1 := Nat.div_add_mod (n - 1 - d) N
  have h2 := Nat.mod_lt (n - 1 - d) hN
  refine ⟨d, hd, fun o ho => ?_, by omega, by omega, ?_⟩
  · unfold ridx; repeat' split
    all_goals omega
  · rw [show i + (n - 1 - (n - 1 - d) % N) = i + d + N * ((n - 1 - d) / N) by omega, Nat.add_mul_mod_self_left]
    rcases h with h | h
    · rw [h, Nat.mod_eq_of_lt hq]
    · rw [h, Nat.add_mod_right, Nat.mod_eq_of_lt hq]

theorem exists_list (f : Nat → Option A) (n : Nat) (h : ∀ q, q < n → ∃ a, f q = some a) : ∃ k : List A, k.length = n ∧ ∀ q, q < n → k[q]? = f q := by
  induction n with
  | zero => exact ⟨[], rfl, fun q hq => by omega⟩
  | succ n ih =>
    obtain ⟨k, h1, h2⟩ := ih fun q hq => h q (by omega)
    obtain ⟨a, ha⟩ := h n (by omega)
    refine ⟨k ++ [a], by simp [h1], fun q hq => ?_⟩
    by_cases hqn : q = n
    · subst hqn; rw [ha, ← h1]; simp
    · rw [List.getElem?_append_left (by omega), h2 q (by omega)]

theorem fillGap_garbled (hW : 2 * N < E.W) (dp : A → Bool) {i n len : Nat} (it : It A) {c : Ring A} (log : List A) (ho : c.origin < N) (hi : i < N)
    (hlen : len ≤ N) (hn : n < E.W) (hw : E.W ≤ len + n) (hc : c.length = len + n - E.W) : Garbled E N dp i n len it log (fillGap E N dp i n it (c, log)) := by
  have hN : 0 < N := by omega
  have key : Sat (fillGap E N dp i n it (c, log))
      (fun _ s => n ≤ it.items.length ∧ s.2 = log ++ It.owned (it.drop n) ∧ ∃ l', Rep N s.1 l' ∧ l'.length = len + n - E.W ∧
        ∀ q, q < l'.length → ∃ k, k < n ∧ n ≤ k + N ∧ (i + k) % N = q ∧ l'[q]? = it.items[k]?)
      (fun s => Rep N s.1 [] ∧ ((n ≤ it.items.length ∧ (It.owned (it.drop n)).countP dp = 1) ∨
        (it.items.length < n ∧ s.2 = log ++ It.owned (it.drop (it.items.length + 1)))))
      ((n ≤ it.items.length ∧ 2 ≤ (It.owned (it.drop n)).countP dp) ∨
       (it.items.length < n ∧ (It.owned (it.drop (it.items.length + 1))).any dp = true)) := by
    unfold fillGap
    vc
    refine Sat.imp (writeLoop_wrap hW dp n it _ 0 _ log (ridx_lt ho (by omega)) (by omega)) ?_ ?_ id
    · rintro k' ⟨c', log'⟩ ⟨m, hs, h⟩
      simp only [Nat.zero_add] at hs h
      subst hs
      vc
      · rcases h with ⟨p1, p2, p3, p4⟩ | ⟨p1, p2, p3, p4⟩
        · omega
        · exact ⟨Rep.empty ho, .inr ⟨p1, by rw [p3, p4]; simp⟩⟩
      · rcases h with ⟨p1, p2, p3, p4, p5⟩ | ⟨p1, p2, p3, p4⟩
        · refine ⟨p1, p4, ?_⟩
          have hx : ∀ q, q < N → ∃ k, k < n ∧ n ≤ k + N ∧ (i + k) % N = q ∧ lm N c.origin m q = it.items[k]? := by
            intro q hq
            obtain ⟨d, hd, e, a1, a2, a3⟩ := lap_item hN hi hq (show N ≤ n by omega)
            have := p3 d hd
            rw [e _ ho, if_pos (by omega)] at this
            exact ⟨_, a1, a2, a3, by rw [← this]; simp [lm, hq]⟩
          have hsome : ∀ q, q < N → ∃ a, lm N c.origin m q = some a := by
            intro q hq
            obtain ⟨k, hk, _, _, e⟩ := hx q hq
            rw [e]; exact ⟨_, List.getElem?_eq_getElem (by omega)⟩
          obtain ⟨l', e1, e2⟩ := exists_list (lm N c.origin m) (len + n - E.W) fun q hq => hsome q (by omega)
          refine ⟨l', Rep.mk' ho (by omega) (by omega) fun q hq => (e2 q (by omega)).symm, e1, fun q hq => ?_⟩
          rw [e2 q (by omega)]
          exact hx q (by omega)
        · omega
    · rintro ⟨c', log'⟩ ⟨m, hs, h⟩
      simp only at hs h
      subst hs
      refine ⟨Rep.empty ho, ?_⟩
      rcases h with ⟨p1, p2, p3⟩ | ⟨p1, p2, p3⟩
      · exact .inl ⟨p1, p3⟩
      · exact .inr ⟨p1, p2⟩
  refine ⟨fun e => by rw [e] at key; exact key, fun e => by rw [e] at key; exact key, fun h1 h2 => ?_, fun h1 h2 => ?_⟩
  · cases hx : fillGap E N dp i n it (c, log) <;> rw [hx] at key
    · exact absurd key.1 (by omega)
    · obtain ⟨hr, ⟨h, _⟩ | ⟨_, h⟩⟩ := key
      · omega
      · exact ⟨_, rfl, hr.view hW, h⟩
    · rcases key with ⟨h, _⟩ | ⟨_, h⟩
      · omega
      · rw [h2] at h; cases h
    · exact key.elim
    · exact key.elim
  · cases hx : fillGap E N dp i n it (c, log) <;> rw [hx] at key
    · obtain ⟨_, e, l', hr, hl⟩ := key
      exact ⟨_, l', rfl, hr.view hW, e, hl⟩
    · obtain ⟨_, ⟨_, h⟩ | ⟨h, _⟩⟩ := key
      · omega
      · omega
    · rcases key with ⟨_, h⟩ | ⟨h, _⟩
      · omega
      · omega
    · exact key.elim
    · exact key.elim

/-- C31 and C32, exactly how they fail in release builds, in the second half of a buffer: when `len() + it.len()` wraps around, `insert_from` is not refused. It is not
undefined behaviour there either, but everything that was in the buffer is lost (leaked). -/
theorem C31_second_half_partial (hW : 2 * N < E.W) (he : E.debug = false) (h : View E N c l) (i n : Nat) (it : It A) (log : List A)
    (hi : i < l.length) (hh : l.length - i < i) (hn : n < E.W) (hw : E.W ≤ l.length + n) :
    Garbled E N dp i n l.length it log (insertFrom E N dp i (some n) it (c, log)) := by
  have hr := h.rep hW
  obtain ⟨h1, h2, h3, h4⟩ := hr
  have hu : (l.length + n) % E.W = l.length + n - E.W := by
    rw [show l.length + n = l.length + n - E.W + E.W by omega, Nat.add_mod_right, Nat.mod_eq_of_lt (by omega)]; omega
  have hnlt : ¬ l.length + n < E.W := by omega
  have ec : insertFromChecks E N i n c = .ok () c := by
    simp [insertFromChecks, getLen, h2, uadd, hnlt, he, hu, M.panicIf, show ¬ N < l.length + n - E.W by omega, show ¬ l.length < i by omega]
  have hs : ∀ j, j < l.length → ∃ a, lm N c.origin c.mem j = some a := fun j hj => by rw [h4 j hj]; exact ⟨_, List.getElem?_eq_getElem hj⟩
  have es : Sat (shiftRight E N i n c) (fun _ c' => c'.origin < N ∧ c'.length = l.length + n - E.W) (fun _ => False) False := by
    unfold shiftRight
    vc
    have hlt := ridx_lt (N := N) (j := i) h1 (by omega)
    rw [h2]
    refine sat_shiftUpLoop_wrap hW he _ _ _ h1 (by omega) (by omega) (by omega) (fun j _ hj => hs j (by omega)) ?_
    rintro m ⟨a, ha⟩
    apply Sat.bind
    refine sat_rawAdd_wrap (by omega) he fun q hq => ?_
    apply Sat.bind
    refine sat_forceReadL h1 (by omega) ha ?_
    apply Sat.bind
    refine sat_forceWrite hq ?_
    apply Sat.bind
    apply sat_getLen
    simp only [uadd, h2, if_neg hnlt, he, Bool.false_eq_true, if_false, M.bind_run, M.pure_run, Out.andThen_ok, hu]
    exact ⟨h1, rfl⟩
  cases hx : shiftRight E N i n c <;> rw [hx] at es <;> simp only [Sat] at es
  rename_i u c'
  have e : insertFrom E N dp i (some n) it (c, log) = fillGap E N dp i n it (c', log) := by
    simp [insertFrom, M.lenCall, M.onUnwind, ec, getLen, h2, usub, show i ≤ l.length by omega, show ¬ i = l.length by omega, hh, hx]
  rw [e]
  exact fillGap_garbled hW dp it log es.1 (by omega) h3 hn hw es.2

theorem rawAdd_wrap (hN : 0 < N) (he : E.debug = false) (i k : Nat) (s : σ) : ∃ p, p < N ∧ rawAdd E N i k s = .ok p s := by
  have := sat_rawAdd_wrap (P := fun _ : σ => False) (B := False) (Q := fun p s' => p < N ∧ s' = s) hN he (i := i) (k := k) (s := s) fun p hp => ⟨hp, rfl⟩
  cases hx : rawAdd E N i k s <;> rw [hx] at this <;> simp only [Sat] at this
  obtain ⟨h, rfl⟩ := this
  exact ⟨_, h, rfl⟩

/-- Every slot of the buffer has been written at some time (for instance: the buffer has been full once). -/
def Written (N : Nat) (c : Ring A) : Prop := ∀ p, p < N → ∃ a, c.mem p = some a

/-- The loop of "shift to the left", however far it shifts. -/
theorem shiftDown_wrap (hW : 2 * N < E.W) (he : E.debug = false) (n f : Nat) (it : IdxIter) (c : Ring A) (hf : it.remaining < f) (hl : it.left < N) :
    (¬ Written N c ∧ forLoop E N (fun i => do
      let p ← rawAdd E N i n
      forceWrite E N i (← forceRead E N p)) f it c = .ub) ∨
    ∃ c', forLoop E N (fun i => do
      let p ← rawAdd E N i n
      forceWrite E N i (← forceRead E N p)) f it c = .ok () c' ∧ c'.origin = c.origin ∧ c'.length = c.length := by
  have hN : 0 < N := by omega
  induction f generalizing it c with
  | zero => omega
  | succ f ih =>
    by_cases h0 : it.remaining = 0
    · exact .inr ⟨c, by simp [forLoop, idxNext, h0], rfl, rfl⟩
    · have hnx : ∃ p, p < N ∧ idxNext E N it c = .ok (some (it.left, { it with remaining := it.remaining - 1, left := p })) c := by
        by_cases h1 : it.left = N - 1
        · exact ⟨0, hN, by simp [idxNext, show 0 < it.remaining by omega, usub, show 1 ≤ it.remaining by omega, rawInc, show 1 ≤ N by omega, h1]⟩
        · exact ⟨it.left + 1, by omega, by simp [idxNext, show 0 < it.remaining by omega, usub, show 1 ≤ it.remaining by omega, rawInc, show 1 ≤ N by omega, h1, uadd,
            show it.left + 1 < E.W by omega]⟩
      obtain ⟨x, hx, e1⟩ := hnx
      obtain ⟨p, hp, e2⟩ := rawAdd_wrap (E := E) hN he it.left n c
      cases hm : c.mem p with
      | none =>
        refine .inl ⟨fun hw => ?_, ?_⟩
        · obtain ⟨a, ha⟩ := hw p hp; rw [hm] at ha; cases ha
        · simp [forLoop, e1, e2, forceRead, M.debugAssert, he, getMem, memRead, hp, hm]
      | some a =>
        have e3 : forLoop E N (fun i => do
            let p ← rawAdd E N i n
            forceWrite E N i (← forceRead E N p)) (f + 1) it c =
          forLoop E N (fun i => do
            let p ← rawAdd E N i n
            forceWrite E N i (← forceRead E N p)) f { it with remaining := it.remaining - 1, left := x } { c with mem := c.mem.put it.left a } := by
          rw [forLoop]
          simp [e1, e2, forceRead, forceWrite, M.debugAssert, he, getMem, setMem, memRead, memWrite, hp, hm, hl]
        rw [e3]
        rcases ih { it with remaining := it.remaining - 1, left := x } { c with mem := c.mem.put it.left a } (by simp; omega) hx with ⟨h1, h2⟩ | ⟨c', h1, h2, h3⟩
        · refine .inl ⟨fun hw => h1 fun q hq => ?_, h2⟩
          obtain ⟨b, hb⟩ := hw q hq
          by_cases hql : q = it.left
          · exact ⟨a, by simp [Mem.put, hql]⟩
          · exact ⟨b, by simp [Mem.put, hql, hb]⟩
        · exact .inr ⟨c', h1, h2, h3⟩

theorem subLoop_wrap (he : E.debug = false) (k f s : Nat) (t : σ) (hs : s < E.W) : subLoop E N k f s t = .diverge ∨ ∃ r, k ≤ r ∧ r < E.W ∧ subLoop E N k f s t = .ok r t := by
  induction f generalizing s with
  | zero => exact .inl rfl
  | succ f ih =>
    by_cases h : s < k
    · have e : uadd E s N t = .ok ((s + N) % E.W) t := by
        unfold uadd
        split
        · rw [Nat.mod_eq_of_lt (by assumption)]; rfl
        · simp [he, M.pure_run]
      simp only [subLoop, gt_iff_lt, h, if_true, M.bind_run, e, Out.andThen_ok]
      exact ih _ (Nat.mod_lt _ (by omega))
    · exact .inr ⟨s, by omega, hs, by simp [subLoop, h]⟩

/-- C31 and C32, exactly how they fail in release builds, in the first half of a buffer: the call never ends, or it is undefined behaviour (which takes a slot that has
never been written), or it ends as in the second half. -/
theorem C31_first_half_partial (hW : 2 * N < E.W) (he : E.debug = false) (h : View E N c l) (i n : Nat) (it : It A) (log : List A)
    (hi : i < l.length) (hh : i ≤ l.length - i) (hn : n < E.W) (hw : E.W ≤ l.length + n) :
    insertFrom E N dp i (some n) it (c, log) = .diverge ∨ (¬ Written N c ∧ insertFrom E N dp i (some n) it (c, log) = .ub) ∨
    Garbled E N dp i n l.length it log (insertFrom E N dp i (some n) it (c, log)) := by
  have hr := h.rep hW
  obtain ⟨h1, h2, h3, h4⟩ := hr
  have hu : (l.length + n) % E.W = l.length + n - E.W := by
    rw [show l.length + n = l.length + n - E.W + E.W by omega, Nat.add_mod_right, Nat.mod_eq_of_lt (by omega)]; omega
  have hnlt : ¬ l.length + n < E.W := by omega
  have ec : insertFromChecks E N i n c = .ok () c := by
    simp [insertFromChecks, getLen, h2, uadd, hnlt, he, hu, M.panicIf, show ¬ N < l.length + n - E.W by omega, show ¬ l.length < i by omega]
  have e0 : ∀ o, shiftLeft E N i n c = o → insertFrom E N dp i (some n) it (c, log) =
      (o.mapState fun s => (s, log)).andThen fun _ => fillGap E N dp i n it := by
    rintro o rfl
    simp [insertFrom, M.lenCall, M.onUnwind, ec, getLen, h2, usub, show i ≤ l.length by omega, show ¬ i = l.length by omega, show ¬ l.length - i < i by omega]
  rcases subLoop_wrap (N := N) he n E.W c.origin c (by omega) with e1 | ⟨r, hr1, hr2, e1⟩
  · left
    rw [e0 .diverge (by simp [shiftLeft, getOrigin, rawSubAssign, e1])]; rfl
  · right
    have ho : r - n < N := by omega
    obtain ⟨rt, hrt, e2⟩ := rawAdd_wrap (E := E) (N := N) (by omega) he (r - n) (l.length + n - E.W) (⟨r - n, l.length + n - E.W, c.mem⟩ : Ring A)
    have e3 : shiftLeft E N i n c = forLoop E N (fun i => do
        let p ← rawAdd E N i n
        forceWrite E N i (← forceRead E N p)) (min i (l.length + n - E.W) + 1) ⟨min i (l.length + n - E.W), r - n, rt⟩ ⟨r - n, l.length + n - E.W, c.mem⟩ := by
      simp [shiftLeft, getOrigin, rawSubAssign, e1, usub, hr1, setOrigin, getLen, setLen, h2, uadd, hnlt, he, hu, range, e2, takeIdx, forIdx]
    rcases shiftDown_wrap hW he n (min i (l.length + n - E.W) + 1) ⟨min i (l.length + n - E.W), r - n, rt⟩ ⟨r - n, l.length + n - E.W, c.mem⟩ (by simp) ho with
      ⟨h5, h6⟩ | ⟨c', h5, h6, h7⟩
    · left
      refine ⟨fun hwr => h5 hwr, ?_⟩
      rw [e0 .ub (e3.trans h6)]; rfl
    · right
      rw [e0 _ (e3.trans h5)]
      simp only at h6 h7
      exact fillGap_garbled hW dp it log (by omega) (by omega) h3 hn hw h7

theorem subLoop_divides (he : E.debug = false) (hdiv : N ∣ E.W) (hNW : N < E.W) {k o : Nat} (ho : o < N) (f s : Nat) (t : σ) (hs : s < E.W) (h0 : s % N = o) (hf : k - s < f) :
    (E.W + o < k + N → subLoop E N k f s t = .diverge) ∧
    (k + N ≤ E.W + o → ∃ r, k ≤ r ∧ r < E.W ∧ r % N = o ∧ subLoop E N k f s t = .ok r t) := by
  have top : ∀ s, s < E.W → s % N = o → s + N ≤ E.W + o := by
    intro s hs h
    obtain ⟨q, hq⟩ := hdiv
    have h1 := Nat.div_add_mod s N
    have : s / N < q := by
      rcases Nat.lt_or_ge (s / N) q with h2 | h2
      · exact h2
      · have := Nat.mul_le_mul_left N h2; omega
    have := Nat.mul_le_mul_left N (show s / N + 1 ≤ q by omega)
    rw [Nat.mul_add] at this
    omega
  constructor
  · clear hf
    intro hk
    induction f generalizing s with
    | zero => rfl
    | succ f ih =>
      have hlt : s < k := by have := top s hs h0; omega
      have e : uadd E s N t = .ok ((s + N) % E.W) t := by
        unfold uadd
        split
        · rw [Nat.mod_eq_of_lt (by assumption)]; rfl
        · simp [he, M.pure_run]
      simp only [subLoop, gt_iff_lt, hlt, if_true, M.bind_run, e, Out.andThen_ok]
      exact ih _ (Nat.mod_lt _ (by omega)) (by rw [Nat.mod_mod_of_dvd _ hdiv, Nat.add_mod_right, h0])
  · intro hk
    induction f generalizing s with
    | zero => omega
    | succ f ih =>
      by_cases h : s < k
      · have hsN : s + N < E.W := by
          rcases Nat.lt_or_ge (s + N) E.W with h1 | h1
          · exact h1
          · exfalso
            have h2 := top s hs h0
            have h3 : s + N = E.W + o := by
              have h4 : (s + N) % N = o := by rw [Nat.add_mod_right, h0]
              obtain ⟨q, hq⟩ := hdiv
              have h5 : (s + N - E.W) % N = o := by
                rw [← Nat.add_mul_mod_self_left (s + N - E.W) N q, ← hq, show s + N - E.W + E.W = s + N by omega]; exact h4
              rw [Nat.mod_eq_of_lt (by omega)] at h5
              omega
            omega
        have e : uadd E s N t = .ok (s + N) t := by simp [uadd, hsN, M.pure_run]
        simp only [subLoop, gt_iff_lt, h, if_true, M.bind_run, e, Out.andThen_ok]
        exact ih _ hsN (by rw [Nat.add_mod_right, h0]) (by omega)
      · exact ⟨s, by omega, hs, h0, by simp [subLoop, h]⟩

theorem rawAdd_divides (hN : 0 < N) (he : E.debug = false) (hdiv : N ∣ E.W) (i k : Nat) (s : σ) : rawAdd E N i k s = .ok ((i + k) % N) s := by
  have e : uadd E i k s = .ok ((i + k) % E.W) s := by
    unfold uadd
    split
    · rw [Nat.mod_eq_of_lt (by assumption)]; rfl
    · simp [he, M.pure_run]
  simp [rawAdd, e, addLoop_mod hN, rawFrom, M.debugAssert, he, Nat.mod_mod_of_dvd _ hdiv]

/-- The loop of "shift to the left" when the capacity divides `2^w`: it reads the buffer's items. -/
theorem shiftDown_divides (hW : 2 * N < E.W) (he : E.debug = false) (hdiv : N ∣ E.W) (n f L o j : Nat) (it : IdxIter) (c : Ring A) (hf : it.remaining < f) (hl : it.left < N)
    (hj : (it.left + n) % N = (o + j) % N) (hL : j + it.remaining ≤ L) (hi : ∀ q, q < L → ∃ a, c.mem ((o + q) % N) = some a) :
    ∃ c', forLoop E N (fun i => do
      let p ← rawAdd E N i n
      forceWrite E N i (← forceRead E N p)) f it c = .ok () c' ∧ c'.origin = c.origin ∧ c'.length = c.length := by
  have hN : 0 < N := by omega
  induction f generalizing it c j with
  | zero => omega
  | succ f ih =>
    by_cases h0 : it.remaining = 0
    · exact ⟨c, by simp [forLoop, idxNext, h0], rfl, rfl⟩
    · have hnx : ∃ p, p < N ∧ p % N = (it.left + 1) % N ∧ idxNext E N it c = .ok (some (it.left, { it with remaining := it.remaining - 1, left := p })) c := by
        by_cases h1 : it.left = N - 1
        · exact ⟨0, hN, by rw [h1, show N - 1 + 1 = N by omega]; simp, by
            simp [idxNext, show 0 < it.remaining by omega, usub, show 1 ≤ it.remaining by omega, rawInc, show 1 ≤ N by omega, h1]⟩
        · exact ⟨it.left + 1, by omega, rfl, by simp [idxNext, show 0 < it.remaining by omega, usub, show 1 ≤ it.remaining by omega, rawInc, show 1 ≤ N by omega, h1, uadd,
            show it.left + 1 < E.W by omega]⟩
      obtain ⟨x, hx, hxm, e1⟩ := hnx
      have e2 := rawAdd_divides hN he hdiv it.left n c
      obtain ⟨a, hm⟩ := hi j (by omega)
      rw [← hj] at hm
      have hp := Nat.mod_lt (it.left + n) hN
      have e3 : forLoop E N (fun i => do
          let p ← rawAdd E N i n
          forceWrite E N i (← forceRead E N p)) (f + 1) it c =
        forLoop E N (fun i => do
          let p ← rawAdd E N i n
          forceWrite E N i (← forceRead E N p)) f { it with remaining := it.remaining - 1, left := x } { c with mem := c.mem.put it.left a } := by
        rw [forLoop]
        simp [e1, e2, forceRead, forceWrite, M.debugAssert, he, getMem, setMem, memRead, memWrite, hp, hm, hl]
      rw [e3]
      refine ih (j + 1) { it with remaining := it.remaining - 1, left := x } { c with mem := c.mem.put it.left a } (by simp; omega) hx ?_ (by simp; omega) fun q hq => ?_
      · show (x + n) % N = _
        rw [Nat.add_mod, hxm, ← Nat.add_mod, show it.left + 1 + n = it.left + n + 1 by omega, Nat.add_mod, hj, ← Nat.add_mod, Nat.add_assoc]
      · obtain ⟨b, hb⟩ := hi q hq
        by_cases hql : (o + q) % N = it.left
        · exact ⟨a, by simp [Mem.put, hql]⟩
        · exact ⟨b, by simp [Mem.put, hql, hb]⟩

/-- C31 and C32, the same when the capacity divides `2^w` (that is: it is a power of two), exactly: there is no undefined behaviour; the call never ends if the front of
the buffer is too near to slot 0 (it lies `c.origin` slots after it), and else ends as in the second half. -/
theorem C31_power_of_two_partial (hW : 2 * N < E.W) (he : E.debug = false) (hdiv : N ∣ E.W) (h : View E N c l) (i n : Nat) (it : It A) (log : List A)
    (hi : i < l.length) (hh : i ≤ l.length - i) (hn : n < E.W) (hw : E.W ≤ l.length + n) :
    (E.W + c.origin < n + N → insertFrom E N dp i (some n) it (c, log) = .diverge) ∧
    (n + N ≤ E.W + c.origin → Garbled E N dp i n l.length it log (insertFrom E N dp i (some n) it (c, log))) := by
  have hr := h.rep hW
  obtain ⟨h1, h2, h3, h4⟩ := hr
  have hu : (l.length + n) % E.W = l.length + n - E.W := by
    rw [show l.length + n = l.length + n - E.W + E.W by omega, Nat.add_mod_right, Nat.mod_eq_of_lt (by omega)]; omega
  have hnlt : ¬ l.length + n < E.W := by omega
  have ec : insertFromChecks E N i n c = .ok () c := by
    simp [insertFromChecks, getLen, h2, uadd, hnlt, he, hu, M.panicIf, show ¬ N < l.length + n - E.W by omega, show ¬ l.length < i by omega]
  have e0 : ∀ o, shiftLeft E N i n c = o → insertFrom E N dp i (some n) it (c, log) =
      (o.mapState fun s => (s, log)).andThen fun _ => fillGap E N dp i n it := by
    rintro o rfl
    simp [insertFrom, M.lenCall, M.onUnwind, ec, getLen, h2, usub, show i ≤ l.length by omega, show ¬ i = l.length by omega, show ¬ l.length - i < i by omega]
  have hs := subLoop_divides he hdiv (by omega) (k := n) h1 E.W c.origin c (by omega) (Nat.mod_eq_of_lt h1) (by omega)
  refine ⟨fun hk => ?_, fun hk => ?_⟩
  · rw [e0 .diverge (by simp [shiftLeft, getOrigin, rawSubAssign, hs.1 hk])]; rfl
  · obtain ⟨r, hr1, hr2, hr3, e1⟩ := hs.2 hk
    have ho : r - n < N := by omega
    obtain ⟨rt, hrt, e2⟩ := rawAdd_wrap (E := E) (N := N) (by omega) he (r - n) (l.length + n - E.W) (⟨r - n, l.length + n - E.W, c.mem⟩ : Ring A)
    have e3 : shiftLeft E N i n c = forLoop E N (fun i => do
        let p ← rawAdd E N i n
        forceWrite E N i (← forceRead E N p)) (min i (l.length + n - E.W) + 1) ⟨min i (l.length + n - E.W), r - n, rt⟩ ⟨r - n, l.length + n - E.W, c.mem⟩ := by
      simp [shiftLeft, getOrigin, rawSubAssign, e1, usub, hr1, setOrigin, getLen, setLen, h2, uadd, hnlt, he, hu, range, e2, takeIdx, forIdx]
    obtain ⟨c', h5, h6, h7⟩ := shiftDown_divides hW he hdiv n (min i (l.length + n - E.W) + 1) l.length c.origin 0 ⟨min i (l.length + n - E.W), r - n, rt⟩
      ⟨r - n, l.length + n - E.W, c.mem⟩ (by simp) ho (by simp only; rw [show r - n + n = r by omega, hr3, Nat.add_zero, Nat.mod_eq_of_lt h1]) (by simp; omega) (fun q hq => by
        have := h4 q hq
        rw [List.getElem?_eq_getElem hq] at this
        simp only [lm, show q < N by omega, if_true] at this
        refine ⟨l[q], ?_⟩
        · rw [← this]
          show c.mem _ = c.mem _
          congr 1
          unfold ridx
          split
          · exact Nat.mod_eq_of_lt (by assumption)
          · rw [show c.origin + q = c.origin + q - N + N by omega, Nat.add_mod_right, Nat.mod_eq_of_lt (by omega)]; omega)
    rw [e0 _ (e3.trans h5)]
    simp only at h6 h7
    exact fillGap_garbled hW dp it log (by omega) (by omega) h3 hn hw h7

/-- C31 and C32, exactly how they fail in release builds, at the end of a buffer: when `len() + it.len()` wraps around, `insert_from` is `extend`, which takes items until
the buffer is full, and panics if there are more. -/
theorem C31_at_end_partial (hW : 2 * N < E.W) (he : E.debug = false) (h : View E N c l) (n : Nat) (it : It A) (log : List A) (hn : n < E.W) (hw : E.W ≤ l.length + n) :
    insertFrom E N dp l.length (some n) it (c, log) = extend E N dp it (c, log) := by
  obtain ⟨h1, h2, h3, h4⟩ := h.rep hW
  have hu : (l.length + n) % E.W = l.length + n - E.W := by
    rw [show l.length + n = l.length + n - E.W + E.W by omega, Nat.add_mod_right, Nat.mod_eq_of_lt (by omega)]; omega
  simp [insertFrom, M.lenCall, insertFromChecks, M.onUnwind, getLen, h2, uadd, show ¬ l.length + n < E.W by omega, he, hu, M.panicIf, show ¬ N < l.length + n - E.W by omega]

/-- Not vacuous, on a 64-bit machine: a full buffer of three, an iterator that announces `usize::MAX` items and has one, at position 2.  The call panics and the buffer is
empty; nothing has been destroyed. -/
example : View rel64 3 full [10, 20, 30] ∧ ∃ s, insertFrom rel64 3 (fun _ => false) 2 (some (2 ^ 64 - 1)) (It.ofList [7]) (full, []) = .panic s ∧ View rel64 3 s.1 [] ∧ s.2 = [] :=
  ⟨⟨rfl, by decide, by decide⟩, (C31_second_half_partial (E := rel64) (N := 3) (l := [10, 20, 30]) (by decide) rfl ⟨rfl, by decide, by decide⟩ 2 (2 ^ 64 - 1) (It.ofList [7]) []
    (by decide) (by decide) (by decide) (by decide)).short (by decide) rfl⟩

/-- A machine with a `usize` of 3 bits, release build. -/
def tiny : Env := ⟨8, false⟩

/-- … and an iterator that yields all it announces, of a full buffer of three: the call returns, and the buffer shows one of the iterator's items. -/
example : ∃ s, insertFrom tiny 3 (fun _ => false) 2 (some 6) (It.ofList [1, 2, 3, 4, 5, 6]) (full, []) = .ok () s ∧ View tiny 3 s.1 [5] ∧ s.2 = [] := by
  obtain ⟨s, l', e, hv, hlog, hl, h⟩ := (C31_second_half_partial (E := tiny) (N := 3) (dp := fun _ => false) (c := full) (l := [10, 20, 30]) (by decide) rfl ⟨rfl, by decide, by decide⟩ 2 6
    (It.ofList [1, 2, 3, 4, 5, 6]) [] (by decide) (by decide) (by decide) (by decide)).whole (by decide) (by decide)
  simp [tiny] at hl
  obtain ⟨k, h1, h2, h3, h4⟩ := h 0 (by omega)
  obtain rfl : k = 4 := by omega
  match l', hl with
  | [a], _ => simp [It.ofList, It.items] at h4; subst h4; exact ⟨s, e, hv, hlog⟩

/-- Capacity 2 on that machine, at the front, which is in slot 1: far enough from slot 0 for the call to end. -/
example : View tiny 2 (⟨1, 2, (Mem.uninit.put 1 10).put 0 20⟩ : Ring Nat) [10, 20] ∧
    Garbled tiny 2 (fun _ => false) 0 7 2 [.panic] [] (insertFrom tiny 2 (fun _ => false) 0 (some 7) [.panic] ((⟨1, 2, (Mem.uninit.put 1 10).put 0 20⟩ : Ring Nat), [])) :=
  ⟨⟨rfl, by decide, by decide⟩, (C31_power_of_two_partial (E := tiny) (N := 2) (l := [10, 20]) (by decide) rfl ⟨4, rfl⟩ ⟨rfl, by decide, by decide⟩ 0 7 [.panic] []
    (by decide) (by decide) (by decide) (by decide)).2 (by decide)⟩

/-- At the front of `full`, all of whose slots are written: no undefined behaviour. -/
example : Written 3 full ∧ (insertFrom tiny 3 (fun _ => false) 0 (some 7) [.panic] (full, []) = .diverge ∨
    Garbled tiny 3 (fun _ => false) 0 7 3 [.panic] [] (insertFrom tiny 3 (fun _ => false) 0 (some 7) [.panic] (full, []))) := by
  have hw : Written 3 full := fun p hp => by
    match p, hp with
    | 0, _ => exact ⟨20, rfl⟩
    | 1, _ => exact ⟨30, rfl⟩
    | 2, _ => exact ⟨10, rfl⟩
  refine ⟨hw, ?_⟩
  rcases C31_first_half_partial (E := tiny) (N := 3) (dp := fun _ => false) (c := full) (l := [10, 20, 30]) (by decide) rfl ⟨rfl, by decide, by decide⟩ 0 7 [.panic] []
    (by decide) (by decide) (by decide) (by decide) with h | ⟨h, _⟩ | h
  · exact .inl h
  · exact absurd hw h
  · exact .inr h

end Verif.Ring
