import Verif.Ring.Model
import Verif.Chunk.Lemmas2
/-
Helper lemmas for `RingBuffer`: the storage invariant and the refinement of each operation to the list
specification.  The property theorems are in `Verif/Props`.
-/
namespace Verif
namespace Ring
variable {A : Type} {E : Env} {N : Nat}

/-- The slot `j` places after slot `o`, going round. -/
def ridx (N o j : Nat) : Nat := if o + j < N then o + j else o + j - N
/-- The slot `j` places before slot `o`, going round. -/
def rsub (N o j : Nat) : Nat := if j ≤ o then o - j else o + N - j

theorem ridx_lt {o j : Nat} (h : o < N) (hj : j ≤ N) : ridx N o j < N := by unfold ridx; split <;> omega
theorem rsub_lt {o j : Nat} (h : o < N) (hj : j ≤ N) : rsub N o j < N := by unfold rsub; split <;> omega
theorem ridx_zero {o : Nat} (h : o < N) : ridx N o 0 = o := by simp [ridx, h]
theorem ridx_inj {o i j : Nat} (hi : i < N) (hj : j < N) (e : ridx N o i = ridx N o j) : i = j := by
  unfold ridx at e; split at e <;> split at e <;> omega
theorem ridx_ridx {o i j : Nat} (h : o < N) (hi : i + j ≤ N) : ridx N (ridx N o i) j = ridx N o (i + j) := by
  unfold ridx; repeat' split
  all_goals omega
theorem rsub_ridx {o i j : Nat} (h : o < N) (hi : i ≤ N) (hj : j ≤ i) :
    rsub N (ridx N o i) j = ridx N o (i - j) := by
  unfold ridx rsub; repeat' split
  all_goals omega

/-- The slots in logical order, starting from slot `o`. -/
def lm (N o : Nat) (m : Mem A) : Mem A := fun j => if j < N then m (ridx N o j) else none

theorem lm_put {o k : Nat} {m : Mem A} {v : A} (hk : k < N) :
    lm N o (m.put (ridx N o k) v) = (lm N o m).put k v := by
  funext j
  unfold lm Mem.put
  by_cases hj : j < N
  · simp only [hj, if_true]
    by_cases e : j = k
    · subst e; simp
    · rw [if_neg e, if_neg (fun e' => e (ridx_inj hj hk e'))]
  · have : j ≠ k := by omega
    simp [hj, this]

theorem lm_put_self {o : Nat} {m : Mem A} {v : A} (h : o < N) : lm N o (m.put o v) = (lm N o m).put 0 v := by
  have := lm_put (o := o) (m := m) (v := v) (k := 0) (N := N) (by omega)
  rwa [ridx_zero h] at this

theorem ridx_rsub_low {o n j : Nat} (h : o < N) (hn : n ≤ N) (hj : j < n) :
    ridx N (rsub N o n) j = ridx N o (N - n + j) := by
  unfold ridx rsub
  by_cases h1 : n ≤ o
  · simp only [h1, if_true]; split <;> split <;> omega
  · simp only [h1, if_false]; split <;> split <;> omega
theorem ridx_rsub_high {o n j : Nat} (h : o < N) (hn : n ≤ N) (hj : n ≤ j) (hj' : j ≤ N) :
    ridx N (rsub N o n) j = ridx N o (j - n) := by
  unfold ridx rsub
  by_cases h1 : n ≤ o
  · simp only [h1, if_true]; split <;> split <;> omega
  · simp only [h1, if_false]; split <;> split <;> omega

theorem lm_rsub {o n j : Nat} {m : Mem A} (h : o < N) (hn : n ≤ N) (hj : j < N) :
    lm N (rsub N o n) m j = if j < n then lm N o m (N - n + j) else lm N o m (j - n) := by
  unfold lm
  simp only [hj, if_true]
  split
  · simp only [show N - n + j < N by omega, if_true, ridx_rsub_low h hn ‹_›]
  · simp only [show j - n < N by omega, if_true, ridx_rsub_high h hn (Nat.le_of_not_lt ‹_›) (Nat.le_of_lt hj)]

theorem lm_ridx {o n j : Nat} {m : Mem A} (h : o < N) (hj : n + j < N) :
    lm N (ridx N o n) m j = lm N o m (n + j) := by
  unfold lm
  simp only [hj, if_true, show j < N by omega]
  rw [ridx_ridx h (by omega)]

/-- What it means for the storage to hold the list `l`. -/
structure Rep (N : Nat) (c : Ring A) (l : List A) : Prop where
  org : c.origin < N
  len : c.length = l.length
  le : l.length ≤ N
  cell : ∀ j, j < l.length → lm N c.origin c.mem j = l[j]?

section rules
variable {σ α : Type} {B : Prop} {P : Ring A → Prop} {c : Ring A}
theorem sat_getOrigin {Q : Nat → Ring A → Prop} (h : Q c.origin c) : Sat (getOrigin c) Q P B := h
theorem sat_getLen {Q : Nat → Ring A → Prop} (h : Q c.length c) : Sat (getLen c) Q P B := h
theorem sat_getMem {Q : Mem A → Ring A → Prop} (h : Q c.mem c) : Sat (getMem c) Q P B := h
theorem sat_setOrigin {Q : Unit → Ring A → Prop} {x : Nat} (h : Q () { c with origin := x }) :
    Sat (setOrigin x c) Q P B := h
theorem sat_setLen {Q : Unit → Ring A → Prop} {x : Nat} (h : Q () { c with length := x }) :
    Sat (setLen x c) Q P B := h
theorem sat_setMem {Q : Unit → Ring A → Prop} {x : Mem A} (h : Q () { c with mem := x }) :
    Sat (setMem x c) Q P B := h
theorem sat_isEmpty {Q : Bool → Ring A → Prop} (h : Q (decide (c.length = 0)) c) : Sat (isEmpty c) Q P B := h
theorem sat_isFull {Q : Bool → Ring A → Prop} (h : Q (decide (c.length = N)) c) : Sat (isFull N c) Q P B := h

theorem sat_rawFrom {P : σ → Prop} {Q : Nat → σ → Prop} {i : Nat} {s : σ} (hi : i < N) (h : Q i s) :
    Sat (rawFrom E N i s) Q P B := by
  unfold rawFrom; vc; exact h
theorem sat_rawInc {P : σ → Prop} {Q : Nat → σ → Prop} {i : Nat} {s : σ} (hW : 2 * N < E.W) (hi : i < N)
    (h : Q (ridx N i 1) s) : Sat (rawInc E N i s) Q P B := by
  unfold rawInc
  unfold ridx at h
  vc
  · simpa [show ¬ (i + 1 < N) by omega, show i + 1 - N = 0 by omega] using h
  · simpa [show i + 1 < N by omega] using h
theorem sat_rawDec {P : σ → Prop} {Q : Nat → σ → Prop} {i : Nat} {s : σ} (hi : i < N)
    (h : Q (rsub N i 1) s) : Sat (rawDec E N i s) Q P B := by
  unfold rawDec
  unfold rsub at h
  vc
  · simpa [show ¬ (1 ≤ i) by omega, show i + N - 1 = N - 1 by omega] using h
  · simpa [show 1 ≤ i by omega] using h
theorem sat_addLoop {P : σ → Prop} {Q : Nat → σ → Prop} {r : Nat} {s : σ} (hr : r < 2 * N)
    (h : Q (if r < N then r else r - N) s) (f : Nat) (hf : r + 1 ≤ f) : Sat (addLoop E N f r s) Q P B := by
  obtain ⟨f, rfl⟩ : ∃ g, f = g + 1 := ⟨f - 1, by omega⟩
  unfold addLoop
  vc
  · obtain ⟨f, rfl⟩ : ∃ g, f = g + 1 := ⟨f - 1, by omega⟩
    unfold addLoop
    vc
    simpa [show ¬ r < N by omega] using h
  · simpa [show r < N by omega] using h
theorem sat_rawAddAssign {P : σ → Prop} {Q : Nat → σ → Prop} {i k : Nat} {s : σ} (hW : 2 * N < E.W) (hi : i < N)
    (hk : k ≤ N) (h : Q (ridx N i k) s) : Sat (rawAddAssign E N i k s) Q P B := by
  unfold rawAddAssign
  vc
  exact sat_addLoop (by omega) h _ (Nat.le_refl _)
theorem sat_rawAdd {P : σ → Prop} {Q : Nat → σ → Prop} {i k : Nat} {s : σ} (hW : 2 * N < E.W) (hi : i < N)
    (hk : k ≤ N) (h : Q (ridx N i k) s) : Sat (rawAdd E N i k s) Q P B := by
  unfold rawAdd
  vc
  exact sat_addLoop (by omega) (sat_rawFrom (ridx_lt hi hk) h) _ (Nat.le_refl _)
theorem sat_subLoop {P : σ → Prop} {Q : Nat → σ → Prop} {i k : Nat} {s : σ} (hW : 2 * N < E.W) (hi : i < N)
    (hk : k ≤ N) (h : Q (if k ≤ i then i else i + N) s) (f : Nat) (hf : 2 ≤ f) : Sat (subLoop E N k f i s) Q P B := by
  obtain ⟨f, rfl⟩ : ∃ g, f = g + 2 := ⟨f - 2, by omega⟩
  unfold subLoop
  vc
  · unfold subLoop
    vc
    simpa [show ¬ k ≤ i by omega] using h
  · simpa [show k ≤ i by omega] using h
theorem sat_rawSubAssign {P : σ → Prop} {Q : Nat → σ → Prop} {i k : Nat} {s : σ} (hW : 2 * N < E.W) (hi : i < N)
    (hk : k ≤ N) (h : Q (rsub N i k) s) : Sat (rawSubAssign E N i k s) Q P B := by
  unfold rawSubAssign
  vc
  refine sat_subLoop hW hi hk ?_ _ (by omega)
  unfold rsub at h
  split at h
  · rw [if_pos (by assumption)]; vc; exact h
  · rw [if_neg (by assumption)]; vc; exact h
theorem sat_rawSub {P : σ → Prop} {Q : Nat → σ → Prop} {i k : Nat} {s : σ} (hW : 2 * N < E.W) (hi : i < N)
    (hk : k ≤ N) (h : Q (rsub N i k) s) : Sat (rawSub E N i k s) Q P B := by
  unfold rawSub
  vc
  refine sat_subLoop hW hi hk ?_ _ (by omega)
  have hlt := rsub_lt hi hk
  unfold rsub at h hlt
  split at h
  · rw [if_pos (by assumption)] at hlt ⊢; vc; exact sat_rawFrom hlt h
  · rw [if_neg (by assumption)] at hlt ⊢; vc; exact sat_rawFrom hlt h
theorem sat_raw {Q : Nat → Ring A → Prop} {k : Nat} (hW : 2 * N < E.W) (hi : c.origin < N)
    (hk : k ≤ N) (h : Q (ridx N c.origin k) c) : Sat (raw E N k c) Q P B := by
  unfold raw
  apply Sat.bind
  apply sat_getOrigin
  exact sat_rawAdd hW hi hk h
theorem sat_forceRead {Q : A → Ring A → Prop} {i : Nat} {v : A} (hi : i < N) (hm : c.mem i = some v)
    (h : Q v c) : Sat (forceRead E N i c) Q P B := by
  simp [forceRead, getMem, debugAssert_ok hi, memRead_ok hi hm]; exact h
/-- Reading the `k`-th slot counted from `o`. -/
theorem sat_forceReadL {Q : A → Ring A → Prop} {o k : Nat} {v : A} (ho : o < N) (hk : k < N) (hm : lm N o c.mem k = some v)
    (h : Q v c) : Sat (forceRead E N (ridx N o k) c) Q P B := by
  simp only [lm, hk, if_true] at hm
  exact sat_forceRead (ridx_lt ho (by omega)) hm h
theorem sat_forceWrite {Q : Unit → Ring A → Prop} {i : Nat} {v : A} (hi : i < N)
    (h : Q () { c with mem := c.mem.put i v }) : Sat (forceWrite E N i v c) Q P B := by
  simp [forceWrite, getMem, setMem, debugAssert_ok hi, memWrite_ok hi]; exact h
end rules

macro_rules | `(tactic| vc_side) => `(tactic| (unfold ridx; split <;> omega))
macro_rules | `(tactic| vc_side) => `(tactic| (unfold rsub; split <;> omega))
macro_rules | `(tactic| vc_side) => `(tactic| first | omega | assumption)
macro_rules | `(tactic| vc_rule) => `(tactic| with_reducible refine sat_forceWrite (by vc_side) ?_)
macro_rules | `(tactic| vc_rule) => `(tactic| with_reducible refine sat_raw (by vc_side) (by vc_side) (by vc_side) ?_)
macro_rules | `(tactic| vc_rule) => `(tactic| with_reducible refine sat_rawSub (by vc_side) (by vc_side) (by vc_side) ?_)
macro_rules | `(tactic| vc_rule) => `(tactic| with_reducible refine sat_rawSubAssign (by vc_side) (by vc_side) (by vc_side) ?_)
macro_rules | `(tactic| vc_rule) => `(tactic| with_reducible refine sat_rawAddAssign (by vc_side) (by vc_side) (by vc_side) ?_)
macro_rules | `(tactic| vc_rule) => `(tactic| with_reducible refine sat_rawAdd (by vc_side) (by vc_side) (by vc_side) ?_)
macro_rules | `(tactic| vc_rule) => `(tactic| with_reducible refine sat_rawDec (by vc_side) ?_)
macro_rules | `(tactic| vc_rule) => `(tactic| with_reducible refine sat_rawInc (by vc_side) (by vc_side) ?_)
macro_rules | `(tactic| vc_rule) => `(tactic| with_reducible refine sat_rawFrom (by vc_side) ?_)
macro_rules | `(tactic| vc_rule) => `(tactic| with_reducible refine sat_isFull ?_)
macro_rules | `(tactic| vc_rule) => `(tactic| with_reducible refine sat_isEmpty ?_)
macro_rules | `(tactic| vc_rule) => `(tactic| with_reducible refine sat_setMem ?_)
macro_rules | `(tactic| vc_rule) => `(tactic| with_reducible refine sat_getMem ?_)
macro_rules | `(tactic| vc_rule) => `(tactic| with_reducible refine sat_setLen ?_)
macro_rules | `(tactic| vc_rule) => `(tactic| with_reducible refine sat_setOrigin ?_)
macro_rules | `(tactic| vc_rule) => `(tactic| with_reducible refine sat_getLen ?_)
macro_rules | `(tactic| vc_rule) => `(tactic| with_reducible refine sat_getOrigin ?_)

theorem Rep.cell' {c : Ring A} {l : List A} (h : Rep N c l) {j : Nat} {a : A} (e : l[j]? = some a) :
    j < N ∧ lm N c.origin c.mem j = some a := by
  have hj : j < l.length := by grind
  exact ⟨by have := h.le; omega, by rw [h.cell j hj, e]⟩

/-- The invariant for the buffer with fields `o n m`. -/
theorem Rep.mk' {o n : Nat} {m : Mem A} {l : List A} (h1 : o < N) (h2 : n = l.length) (h3 : l.length ≤ N)
    (h4 : ∀ j, j < l.length → lm N o m j = l[j]?) : Rep N ⟨o, n, m⟩ l := ⟨h1, h2, h3, h4⟩

theorem pushBack_ref (hW : 2 * N < E.W) {c : Ring A} {l : List A} (h : Rep N c l) (v : A) :
    Ref (Rep N) (pushBack E N v c) (Spec.pushBack N v l) := by
  have h0 := h
  obtain ⟨h1, h2, h3, h4⟩ := h
  unfold pushBack Ref Spec.pushBack
  by_cases hl : l.length < N
  · rw [if_pos hl]
    vc
    refine ⟨_, rfl, Rep.mk' h1 (by simp; omega) (by simp; omega) ?_⟩
    rw [lm_put (by omega)]
    grind [Mem.put]
  · rw [if_neg hl]
    vc
    exact ⟨_, rfl, h0⟩

theorem pushFront_ref (hW : 2 * N < E.W) {c : Ring A} {l : List A} (h : Rep N c l) (v : A) :
    Ref (Rep N) (pushFront E N v c) (Spec.pushFront N v l) := by
  have h0 := h
  obtain ⟨h1, h2, h3, h4⟩ := h
  unfold pushFront Ref Spec.pushFront
  by_cases hl : l.length < N
  · rw [if_pos hl]
    vc
    have ho : rsub N c.origin 1 < N := rsub_lt h1 (by omega)
    refine ⟨_, rfl, Rep.mk' ho (by simp; omega) (by simp; omega) ?_⟩
    rw [lm_put_self ho]
    intro j hj
    have := lm_rsub (m := c.mem) (j := j) h1 (n := 1) (by omega) (by grind)
    grind [Mem.put]
  · rw [if_neg hl]
    vc
    exact ⟨_, rfl, h0⟩


theorem popBack_ref (hW : 2 * N < E.W) {c : Ring A} {l : List A} (h : Rep N c l) :
    Ref (Rep N) (popBack E N c) (Spec.popBack? l) := by
  have h0 := h
  obtain ⟨h1, h2, h3, h4⟩ := h
  unfold popBack Ref Spec.popBack?
  cases hl : l.getLast? with
  | none =>
    have hl' : l = [] := by simpa using hl
    subst hl'
    simp only [List.length_nil] at h2
    vc
    exact ⟨_, rfl, h0⟩
  | some a =>
    have h5 : l ≠ [] := by grind
    have h6 : l.length ≠ 0 := by simpa using h5
    have h7 : lm N c.origin c.mem (c.length - 1) = some a := by rw [h4 _ (by omega)]; grind
    vc
    refine sat_forceReadL h1 (by omega) h7 ?_
    vc
    refine ⟨_, rfl, Rep.mk' h1 (by simp; omega) (by simp; omega) ?_⟩
    grind

theorem popFront_ref (hW : 2 * N < E.W) {c : Ring A} {l : List A} (h : Rep N c l) :
    Ref (Rep N) (popFront E N c) (Spec.popFront? l) := by
  have h0 := h
  obtain ⟨h1, h2, h3, h4⟩ := h
  unfold popFront Ref Spec.popFront?
  cases l with
  | nil =>
    simp only [List.length_nil] at h2
    vc
    exact ⟨_, rfl, h0⟩
  | cons a r =>
    simp only [List.length_cons] at h2 h3
    have h7 : lm N c.origin c.mem 0 = some a := by rw [h4 _ (by simp)]; simp
    vc
    rw [← ridx_zero h1] 
    refine sat_forceReadL h1 (by omega) h7 ?_
    vc
    rw [ridx_zero h1]
    refine ⟨_, rfl, Rep.mk' (ridx_lt h1 (by omega)) (by simp; omega) (by simp; omega) ?_⟩
    intro j hj
    simp only [List.tail_cons] at hj ⊢
    rw [lm_ridx h1 (by omega), h4 _ (by simp; omega)]
    rw [Nat.add_comm]; simp

theorem index_ref (hW : 2 * N < E.W) {c : Ring A} {l : List A} (h : Rep N c l) (i : Nat) :
    Ref (Rep N) (index E N i c) (Spec.index i l) := by
  have h0 := h
  obtain ⟨h1, h2, h3, h4⟩ := h
  unfold index Ref Spec.index
  cases hl : l[i]? with
  | none =>
    have : l.length ≤ i := by grind
    vc
    exact ⟨_, rfl, h0⟩
  | some a =>
    have : i < l.length := by grind
    vc
    refine sat_forceReadL h1 (by omega) (h0.cell' hl).2 ?_
    exact ⟨_, rfl, h0⟩

theorem getUnchecked_sat (hW : 2 * N < E.W) {c : Ring A} {l : List A} (h : Rep N c l) {i : Nat} {a : A} (hl : l[i]? = some a)
    {Q : A → Ring A → Prop} {P : Ring A → Prop} {B : Prop} (hq : Q a c) : Sat (getUnchecked E N i c) Q P B := by
  have h0 := h
  obtain ⟨h1, h2, h3, h4⟩ := h
  have : i < l.length := by grind
  unfold getUnchecked
  vc
  exact sat_forceReadL h1 (by omega) (h0.cell' hl).2 hq

theorem get_eq (hW : 2 * N < E.W) {c : Ring A} {l : List A} (h : Rep N c l) (i : Nat) :
    get E N i c = .ok l[i]? c := by
  have : Sat (get E N i c) (fun r s => r = l[i]? ∧ s = c) (fun _ => False) False := by
    have h0 := h
    obtain ⟨h1, h2, h3, h4⟩ := h
    unfold get
    cases hl : l[i]? with
    | none =>
      have : l.length ≤ i := by grind
      vc
      exact ⟨rfl, rfl⟩
    | some a =>
      have : i < l.length := by grind
      vc
      refine getUnchecked_sat hW h0 hl ?_
      exact ⟨rfl, rfl⟩
  cases hx : get E N i c <;> rw [hx] at this <;> simp [Sat] at this
  rw [this.1, this.2]

theorem raw_eq (hW : 2 * N < E.W) {c : Ring A} (ho : c.origin < N) {i : Nat} (hi : i ≤ N) :
    raw E N i c = .ok (ridx N c.origin i) c := by
  have := sat_raw (E := E) (P := fun _ => False) (B := False) (Q := fun r s' => r = ridx N c.origin i ∧ s' = c) hW ho hi ⟨rfl, rfl⟩
  cases hx : raw E N i c <;> rw [hx] at this <;> simp [Sat] at this
  obtain ⟨rfl, rfl⟩ := this; rfl

theorem getUncheckedMut_eq (hW : 2 * N < E.W) {c : Ring A} (ho : c.origin < N) {i : Nat} (hi : i < N) :
    getUncheckedMut E N i c = .ok (ridx N c.origin i) c := by
  have h := ridx_lt ho (Nat.le_of_lt hi)
  simp only [getUncheckedMut, mutPtr, raw_eq hW ho (Nat.le_of_lt hi), M.bind_run, Out.andThen_ok, M.pure_run]
  rw [debugAssert_ok h, Out.andThen_ok]

/-- `get_mut`: a reference to the slot of item `i`. -/
theorem getMut_eq (hW : 2 * N < E.W) {c : Ring A} {l : List A} (h : Rep N c l) (i : Nat) :
    getMut E N i c = .ok (if i < l.length then some (ridx N c.origin i) else none) c := by
  have h2 := h.len
  have h3 := h.le
  by_cases hi : i < l.length
  · have : ¬ l.length ≤ i := by omega
    simp [getMut, getLen, h2, this, hi, getUncheckedMut_eq hW h.org (show i < N by omega)]
  · have : l.length ≤ i := by omega
    simp [getMut, getLen, h2, this, hi]

/-- `index_mut`: a reference to the slot of item `i`. -/
theorem indexMut_eq (hW : 2 * N < E.W) {c : Ring A} {l : List A} (h : Rep N c l) (i : Nat) :
    indexMut E N i c = if i < l.length then .ok (ridx N c.origin i) c else .panic c := by
  have h2 := h.len
  have h3 := h.le
  by_cases hi : i < l.length
  · have : ¬ l.length ≤ i := by omega
    have h5 := ridx_lt h.org (show i ≤ N by omega)
    simp [indexMut, getLen, h2, this, hi, mutPtr, M.panicIf, raw_eq hW h.org (show i ≤ N by omega), debugAssert_ok h5]
  · have : l.length ≤ i := by omega
    simp [indexMut, getLen, h2, this, hi, M.panicIf]

/-- `mem::replace` through a reference to the slot of item `i`. -/
theorem swapAt_eq {c : Ring A} {l : List A} (h : Rep N c l) {i : Nat} (hi : i < l.length) (v : A) :
    ∃ s, swapAt N (ridx N c.origin i) v c = .ok l[i] s ∧ Rep N s (l.set i v) := by
  have h0 := h
  obtain ⟨h1, h2, h3, h4⟩ := h
  have hl : l[i]? = some l[i] := List.getElem?_eq_getElem hi
  have hm := (h0.cell' hl).2
  have hlt := ridx_lt (j := i) h1 (by omega)
  have hr : memRead N c.mem (ridx N c.origin i) c = .ok l[i] c := by
    unfold lm at hm
    rw [if_pos (by omega)] at hm
    simp [memRead, hlt, hm]
  refine ⟨{ c with mem := c.mem.put (ridx N c.origin i) v }, ?_, Rep.mk' h1 (by simp; omega) (by simp; omega) ?_⟩
  · simp [swapAt, getMem, hr, memWrite_ok hlt, setMem]
  · rw [lm_put (by omega)]
    grind [Mem.put]

theorem setIndex_ref (hW : 2 * N < E.W) {c : Ring A} {l : List A} (h : Rep N c l) (i : Nat) (v : A) :
    Ref (Rep N) (setIndex E N i v c) (Spec.set i v l) := by
  unfold setIndex Spec.set
  by_cases hi : i < l.length
  · obtain ⟨s, e, hs⟩ := swapAt_eq h hi v
    simp only [M.bind_run, indexMut_eq hW h, hi, if_true, Out.andThen_ok, e, List.getElem?_eq_getElem hi]
    exact ⟨_, rfl, hs⟩
  · simp only [M.bind_run, indexMut_eq hW h, hi, if_false, Out.andThen_panic, List.getElem?_eq_none (Nat.le_of_not_lt hi)]
    exact ⟨_, rfl, h⟩

theorem replaceGet_ref (hW : 2 * N < E.W) {c : Ring A} {l : List A} (h : Rep N c l) (i : Nat) (v : A) :
    Ref (Rep N) (replaceGet E N i v c) (Spec.replaceGet i v l) := by
  unfold replaceGet Spec.replaceGet
  by_cases hi : i < l.length
  · obtain ⟨s, e, hs⟩ := swapAt_eq h hi v
    simp only [M.bind_run, getMut_eq hW h, hi, if_true, Out.andThen_ok, swapIf, e, List.getElem?_eq_getElem hi]
    exact ⟨_, rfl, hs⟩
  · simp only [M.bind_run, getMut_eq hW h, hi, if_false, Out.andThen_ok, swapIf, List.getElem?_eq_none (Nat.le_of_not_lt hi)]
    exact ⟨_, rfl, h⟩

/-! ### Loops over indices -/

theorem sat_idxNext {σ : Type} {Q : Option (Nat × IdxIter) → σ → Prop} {P : σ → Prop} {B : Prop} (hW : 2 * N < E.W) {o a r right : Nat} {s : σ} (ho : o < N)
    (ha : a + r ≤ N) (h0 : r = 0 → Q none s)
    (h1 : 0 < r → Q (some (ridx N o a, ⟨r - 1, ridx N o (a + 1), right⟩)) s) :
    Sat (idxNext E N ⟨r, ridx N o a, right⟩ s) Q P B := by
  unfold idxNext
  have := ridx_lt (j := a) ho (by omega)
  vc
  · rw [ridx_ridx ho (by omega)]
    exact h1 (by omega)
  · exact h0 (by omega)

/-- A `for` loop over `r` consecutive slots, the first being `a` places after `o`. -/
theorem sat_forLoop {σ : Type} {Q : Unit → σ → Prop} {P : σ → Prop} {B : Prop} (hW : 2 * N < E.W) {o right : Nat} (ho : o < N)
    {body : Nat → M σ Unit} (I : Nat → σ → Prop) (r a f : Nat) (s : σ) (ha : a + r ≤ N) (hf : r < f) (hI : I a s)
    (hbody : ∀ k s, a ≤ k → k < a + r → I k s → Sat (body (ridx N o k) s) (fun _ s' => I (k + 1) s') P B)
    (hq : ∀ s, I (a + r) s → Q () s) : Sat (forLoop E N body f ⟨r, ridx N o a, right⟩ s) Q P B := by
  induction r generalizing a f s with
  | zero =>
    obtain ⟨f, rfl⟩ : ∃ g, f = g + 1 := ⟨f - 1, by omega⟩
    unfold forLoop
    apply Sat.bind
    apply sat_idxNext hW ho ha
    · intro _; exact hq s hI
    · intro h; omega
  | succ r ih =>
    obtain ⟨f, rfl⟩ : ∃ g, f = g + 1 := ⟨f - 1, by omega⟩
    unfold forLoop
    apply Sat.bind
    apply sat_idxNext hW ho ha
    · intro h; omega
    · intro _
      simp only
      apply Sat.bind
      refine Sat.imp (hbody a s (by omega) (by omega) hI) ?_ (fun _ h => h) id
      intro _ s' hI'
      refine ih (a + 1) f s' (by omega) (by omega) hI' ?_ ?_
      · intro k s h1 h2; exact hbody k s (by omega) (by omega)
      · intro s h; apply hq; rwa [show a + (r + 1) = a + 1 + r by omega]

theorem sat_forIdx {σ : Type} {Q : Unit → σ → Prop} {P : σ → Prop} {B : Prop} (hW : 2 * N < E.W) {o right : Nat} (ho : o < N)
    {body : Nat → M σ Unit} (I : Nat → σ → Prop) (r a : Nat) (s : σ) (ha : a + r ≤ N) (hI : I a s)
    (hbody : ∀ k s, a ≤ k → k < a + r → I k s → Sat (body (ridx N o k) s) (fun _ s' => I (k + 1) s') P B)
    (hq : ∀ s, I (a + r) s → Q () s) : Sat (forIdx E N ⟨r, ridx N o a, right⟩ body s) Q P B :=
  sat_forLoop hW ho I r a _ s ha (Nat.lt_succ_self _) hI hbody hq

/-- The same for a loop starting at `o`. -/
theorem sat_forIdx0 {σ : Type} {Q : Unit → σ → Prop} {P : σ → Prop} {B : Prop} (hW : 2 * N < E.W) {o right : Nat} (ho : o < N)
    {body : Nat → M σ Unit} (I : Nat → σ → Prop) (r : Nat) (s : σ) (ha : r ≤ N) (hI : I 0 s)
    (hbody : ∀ k s, k < r → I k s → Sat (body (ridx N o k) s) (fun _ s' => I (k + 1) s') P B)
    (hq : ∀ s, I r s → Q () s) : Sat (forIdx E N ⟨r, o, right⟩ body s) Q P B := by
  have := sat_forIdx (right := right) hW ho (Q := Q) I r 0 s (by omega) hI (fun k s _ h2 => hbody k s (by omega)) (by simpa using hq)
  rwa [ridx_zero ho] at this

theorem sat_skipIdx {σ : Type} {Q : IdxIter → σ → Prop} {P : σ → Prop} {B : Prop} (hW : 2 * N < E.W) {o right : Nat} (ho : o < N)
    (k a r : Nat) (s : σ) (ha : a + r ≤ N) (hk : k ≤ r)
    (hq : Q ⟨r - k, ridx N o (a + k), right⟩ s) : Sat (skipIdx E N k ⟨r, ridx N o a, right⟩ s) Q P B := by
  induction k generalizing a r with
  | zero => exact hq
  | succ k ih =>
    unfold skipIdx
    apply Sat.bind
    apply sat_idxNext hW ho ha
    · intro h; omega
    · intro _
      simp only
      apply ih
      · omega
      · omega
      · rwa [show r - 1 - k = r - (k + 1) by omega, show a + 1 + k = a + (k + 1) by omega]

theorem sat_range {c : Ring A} {Q : IdxIter → Ring A → Prop} {P : Ring A → Prop} {B : Prop} (hW : 2 * N < E.W) (h1 : c.origin < N)
    (h2 : c.length ≤ N) (hq : Q ⟨c.length, c.origin, ridx N c.origin c.length⟩ c) : Sat (range E N c) Q P B := by
  unfold range
  vc
  exact hq

theorem sat_iterNext {c : Ring A} {Q : Option (A × IdxIter) → Ring A → Prop} {P : Ring A → Prop} {B : Prop} (hW : 2 * N < E.W)
    {o a r right : Nat} (ho : o < N) (ha : a + r ≤ N) (h0 : r = 0 → Q none c)
    (h1 : 0 < r → ∃ v, lm N o c.mem a = some v ∧ Q (some (v, ⟨r - 1, ridx N o (a + 1), right⟩)) c) :
    Sat (iterNext E N ⟨r, ridx N o a, right⟩ c) Q P B := by
  unfold iterNext
  have := ridx_lt (j := a) ho (by omega)
  vc
  · exact h0 (by omega)
  · obtain ⟨v, e, hq⟩ := h1 (by omega)
    refine sat_forceReadL ho (by omega) e ?_
    rw [ridx_ridx ho (by omega)]
    exact hq

theorem sat_collectIter {c : Ring A} {Q : List A → Ring A → Prop} {P : Ring A → Prop} {B : Prop} (hW : 2 * N < E.W)
    {o right : Nat} (ho : o < N) (l : List A) (a f : Nat) (ha : a + l.length ≤ N) (hf : l.length < f)
    (hcell : ∀ j, j < l.length → lm N o c.mem (a + j) = l[j]?) (hq : Q l c) :
    Sat (collectIter E N f ⟨l.length, ridx N o a, right⟩ c) Q P B := by
  induction l generalizing a f Q with
  | nil =>
    obtain ⟨f, rfl⟩ : ∃ g, f = g + 1 := ⟨f - 1, by omega⟩
    unfold collectIter
    apply Sat.bind
    apply sat_iterNext hW ho ha
    · intro _; exact hq
    · intro h; simp at h
  | cons x r ih =>
    obtain ⟨f, rfl⟩ : ∃ g, f = g + 1 := ⟨f - 1, by omega⟩
    simp only [List.length_cons] at ha hf hcell ⊢
    unfold collectIter
    apply Sat.bind
    apply sat_iterNext hW ho ha
    · intro h; omega
    · intro _
      refine ⟨x, by simpa using hcell 0 (by omega), ?_⟩
      simp only [Nat.add_sub_cancel]
      apply Sat.bind
      apply ih (Q := fun l' s => Sat ((pure (x :: l') : M (Ring A) (List A)) s) Q P B) (a + 1) f (by omega) (by omega)
      · intro j hj
        have := hcell (j + 1) (by omega)
        rw [show a + 1 + j = a + (j + 1) by omega, this]; simp
      · exact hq

theorem sat_items {c : Ring A} {l : List A} {Q : List A → Ring A → Prop} {P : Ring A → Prop} {B : Prop} (hW : 2 * N < E.W)
    (h : Rep N c l) (hq : Q l c) : Sat (items E N c) Q P B := by
  obtain ⟨h1, h2, h3, h4⟩ := h
  unfold items iter
  vc
  rw [h2]
  have := sat_collectIter (c := c) (right := ridx N c.origin l.length) (P := P) (B := B) hW h1 l 0 (l.length + 1) (by omega) (by omega) (by simpa using h4) hq
  rwa [ridx_zero h1] at this

theorem items_eq (hW : 2 * N < E.W) {c : Ring A} {l : List A} (h : Rep N c l) : items E N c = .ok l c := by
  have := sat_items (E := E) (Q := fun r s => r = l ∧ s = c) (P := fun _ => False) (B := False) hW h ⟨rfl, rfl⟩
  cases hx : items E N c <;> rw [hx] at this <;> simp [Sat] at this
  rw [this.1, this.2]

theorem isEmpty_eq {c : Ring A} {l : List A} (h : Rep N c l) : isEmpty c = .ok l.isEmpty c := by
  simp only [isEmpty, getLen, M.bind_run, Out.andThen_ok, M.pure_run, h.len]
  cases l <;> simp
theorem isFull_eq {c : Ring A} {l : List A} (h : Rep N c l) : isFull N c = .ok (decide (l.length = N)) c := by
  simp only [isFull, getLen, M.bind_run, Out.andThen_ok, M.pure_run, h.len]
theorem getLen_eq {c : Ring A} {l : List A} (h : Rep N c l) : getLen c = .ok l.length c := by
  simp only [getLen, h.len]
theorem sizeHint_eq {c : Ring A} {l : List A} (h : Rep N c l) : sizeHint c = .ok (l.length, some l.length) c := by
  simp only [sizeHint, getLen, M.bind_run, Out.andThen_ok, M.pure_run, h.len]

end Ring
end Verif
