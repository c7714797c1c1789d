import Verif.Props.AliasSparse
/-
C98: the two halves of `SliceMut::split_at`; C99: the pointers inside the containers.
-/
namespace Verif.Alias
open Verif
variable {σ : Type} {N : Nat} {R : Rules σ} {i : σ}

/-! ### Programs which keep something -/

/-- The program keeps `I`, and its result is as `Q` says. -/
def Pres {α : Type} (I : σ → Prop) (Q : α → Prop) (m : P σ α) : Prop := ∀ s a s', I s → m s = some (a, s') → I s' ∧ Q a

theorem Pres.bind {α β : Type} {I : σ → Prop} {Q : α → Prop} {Q' : β → Prop} {m : P σ α} {f : α → P σ β} (h : Pres I Q m)
    (k : ∀ a, Q a → Pres I Q' (f a)) : Pres I Q' (m >>= f) := by
  intro s b s' hs e
  rw [P.bind_run] at e
  cases hm : m s with
  | none => rw [hm] at e; simp at e
  | some r =>
    rw [hm] at e
    obtain ⟨h1, h2⟩ := h s r.1 r.2 hs hm
    exact k r.1 h2 r.2 b s' h1 e
theorem Pres.pure {α : Type} {I : σ → Prop} {Q : α → Prop} (a : α) (h : Q a) : Pres I Q (Pure.pure a) := by
  intro s b s' hs e
  rw [P.pure_run] at e
  cases e
  exact ⟨hs, h⟩

/-- What keeps `I` whatever pointer it goes through. -/
structure Robust (R : Rules σ) (I : σ → Prop) : Prop where
  reMut : ∀ t cs, Pres I (fun _ => True) (R.reMut t cs)
  reShr : ∀ t cs, Pres I (fun _ => True) (R.reShr t cs)
  raw : ∀ t cs, Pres I (fun _ => True) (R.raw t cs)
  read : ∀ t cs, Pres I (fun _ => True) (R.read t cs)
  write : ∀ t cs, Pres I (fun _ => True) (R.write t cs)

/-- One use of a half keeps it. -/
theorem Robust.halfUse {I : σ → Prop} (h : Robust R I) (x : Nat) (p : Nat × Nat) (u : HalfUse) : Pres I (fun _ => True) (halfUse R N x p u) := by
  obtain ⟨r, w, j⟩ := u
  cases w
  · simp only [Alias.halfUse, Bool.false_eq_true, if_false, Call.run, ptr]
    exact .bind (.bind (h.reShr _ _) fun _ _ => h.reShr _ _) fun _ _ => .bind (h.reShr _ _) fun _ _ => h.read _ _
  · simp only [Alias.halfUse, if_true, Call.run, mutPtr]
    exact .bind (.bind (h.reMut _ _) fun _ _ => .bind (h.reMut _ _) fun _ _ => h.raw _ _) fun _ _ =>
      .bind (h.reMut _ _) fun _ _ => .bind (h.read _ _) fun _ _ => h.write _ _

theorem robust_reach : Robust R (Reach R i) where
  reMut _ _ _ _ _ hs e := ⟨.reMut hs e, trivial⟩
  reShr _ _ _ _ _ hs e := ⟨.reShr hs e, trivial⟩
  raw _ _ _ _ _ hs e := ⟨.raw hs e, trivial⟩
  read _ _ _ _ _ hs e := ⟨.read hs e, trivial⟩
  write _ _ _ _ _ hs e := ⟨.write hs e, trivial⟩

theorem stays_halfUses (x : Nat) (p : Nat × Nat) (us : List HalfUse) : Stays R i (halfUses R N x p us) := by
  induction us with
  | nil => exact .pure _
  | cons u us ih => exact .bind (fun s a s' hs e => (robust_reach.halfUse x p u s a s' hs e).1) fun _ => ih
theorem stays_splitClient (x b : Nat) (us : List HalfUse) : Stays R i (splitClient R N x b us) :=
  .bind (.bind (stays_raw _ _) fun _ => .bind (stays_reMut _ _) fun _ => .bind (stays_reMut _ _) fun _ => .pure _) fun _ => stays_halfUses _ _ _

/-! ### Stacked Borrows -/

namespace SB
open Stack (Wr canRead canWrite)
variable {s s' : SB} {t b l r x : Nat} {cells cs : List Cell}

theorem robust_gone (p : Nat) (c : Cell) : Robust rules (fun s => Gone s p c) where
  reMut _ _ _ _ _ h e := ⟨reMut_gone e h, trivial⟩
  reShr _ _ _ _ _ h e := ⟨reShr_gone e h, trivial⟩
  raw _ _ _ _ _ h e := ⟨raw_gone e h, trivial⟩
  read _ _ _ _ _ h e := ⟨read_gone e h, trivial⟩
  write _ _ _ _ _ h e := ⟨write_gone e h, trivial⟩

theorem based_reShr {ch n : Nat} (ht : ch ≤ t) (e : rules.reShr t cells s = some (n, s')) (h : Based s ch b cs) : Based s' ch b cs ∧ ch ≤ n := by
  obtain ⟨rfl, h1, h2, h3⟩ := reShr_inv e
  have hlt := h.lt
  refine ⟨⟨by omega, fun c hc => ?_⟩, Nat.le_of_lt hlt⟩
  obtain ⟨pre, r, e0, hp, hr, hb⟩ := h.at_ c hc
  by_cases hm : c ∈ cells
  · have := h3 c hm
    rw [e0] at this
    cases hx : Stack.read t (pre ++ ⟨.unique, ch⟩ :: r) with
    | none => rw [hx] at this; simp at this
    | some z =>
      rw [hx] at this
      obtain ⟨pre', e1, hp'⟩ := Stack.read_based hp hr ht hx
      refine ⟨⟨.sharedRO, s.next⟩ :: pre', r, by rw [← Option.some.inj this, e1]; rfl, fun i hi => ?_, hr, hb⟩
      rcases List.mem_cons.1 hi with rfl | hi
      · exact hlt
      · exact hp' i hi
  · exact ⟨pre, r, by rw [h2 c hm, e0], hp, hr, hb⟩
theorem based_write {ch : Nat} (ht : ch ≤ t) (e : rules.write t cells s = some ((), s')) (h : Based s ch b cs) : Based s' ch b cs := by
  obtain ⟨h1, h2, h3⟩ := write_inv e
  refine ⟨by rw [h1]; exact h.lt, fun c hc => ?_⟩
  obtain ⟨pre, r, e0, hp, hr, hb⟩ := h.at_ c hc
  by_cases hm : c ∈ cells
  · have := h3 c hm
    rw [e0] at this
    obtain ⟨pre', e1, hp'⟩ := Stack.write_based hp hr ht this
    exact ⟨pre', r, e1, hp', hr, hb⟩
  · exact ⟨pre, r, by rw [h2 c hm, e0], hp, hr, hb⟩

/-- A use of the right half keeps what is below it. -/
theorem based_halfUse (u : HalfUse) (hu : u.right = true) : Pres (fun s => Based s r b (whole x N)) (fun _ => True) (halfUse rules N x (l, r) u) := by
  have m1 : ∀ t cs, r ≤ t → Pres (fun s => Based s r b (whole x N)) (fun a => r ≤ a) (rules.reMut t cs) :=
    fun t cs ht s a s' h e => ⟨(based_reMut ht e h).1, Nat.le_of_lt (based_reMut ht e h).2⟩
  have m2 : ∀ t cs, r ≤ t → Pres (fun s => Based s r b (whole x N)) (fun a => r ≤ a) (rules.raw t cs) :=
    fun t cs ht s a s' h e => ⟨(based_raw ht e h).1, Nat.le_of_lt (based_raw ht e h).2⟩
  have m3 : ∀ t cs, r ≤ t → Pres (fun s => Based s r b (whole x N)) (fun a => r ≤ a) (rules.reShr t cs) :=
    fun t cs ht s a s' h e => based_reShr ht e h
  have m4 : ∀ t cs, r ≤ t → Pres (fun s => Based s r b (whole x N)) (fun _ => True) (rules.read t cs) :=
    fun t cs ht s a s' h e => ⟨based_read ht e h, trivial⟩
  have m5 : ∀ t cs, r ≤ t → Pres (fun s => Based s r b (whole x N)) (fun _ => True) (rules.write t cs) :=
    fun t cs ht s a s' h e => ⟨based_write ht e h, trivial⟩
  obtain ⟨rt, w, j⟩ := u
  cases hu
  cases w
  · simp only [halfUse, Bool.false_eq_true, if_false, if_true, Call.run, ptr]
    exact .bind (.bind (m3 _ _ (Nat.le_refl _)) fun a h => m3 _ _ h) fun a h => .bind (m3 _ _ h) fun a h => m4 _ _ h
  · simp only [halfUse, if_true, Call.run, mutPtr]
    exact .bind (.bind (m1 _ _ (Nat.le_refl _)) fun a h => .bind (m1 _ _ h) fun a h => m2 _ _ h) fun a h =>
      .bind (m1 _ _ h) fun a h => .bind (m4 _ _ h) fun _ _ => m5 _ _ h

theorem halfUses_exact (hg : Gone s l (.head x)) (hb : Based s r b (whole x N)) (us : List HalfUse) (hr : ∀ u ∈ us, u.i < N) :
    ((halfUses rules N x (l, r) us s).isSome ↔ ∀ u ∈ us, u.right = true) ∧
    ∀ s', halfUses rules N x (l, r) us s = some ((), s') → rules.Usable s' b (whole x N) := by
  induction us generalizing s with
  | nil =>
    refine ⟨by simp [halfUses, P.pure_run], fun s' e => ?_⟩
    simp only [halfUses, P.pure_run, Option.some.injEq, Prod.mk.injEq, true_and] at e
    subst e
    exact usable_iff.2 hb.own
  | cons u us ih =>
    by_cases hu : u.right = true
    · obtain ⟨s1, e1, -⟩ := call_ok (N := N) (s := s) (fun _ => r) (if u.w then .getMut x u.i else .getRef x u.i)
        (by have := hr u (by simp); split <;> exact this) (by split <;> simp [Call.Stale])
        (fun y hy => by
          have : y = x := by revert hy; split <;> simp [Call.boxes]
          subst this
          exact hb.self)
      have e2 : halfUse rules N x (l, r) u s = some ((), s1) := by simp only [halfUse, hu, if_true]; exact e1
      obtain ⟨h1, h2⟩ := ih ((robust_gone l _).halfUse x _ u s _ s1 hg e2).1 (based_halfUse u hu s _ s1 hb e2).1
        (fun v hv => hr v (List.mem_cons_of_mem _ hv))
      simp only [halfUses, P.bind_run, e2, Option.bind_some]
      exact ⟨by rw [h1]; simp [hu], h2⟩
    · have e2 : halfUse rules N x (l, r) u s = none := by
        have hm : rules.reMut l (whole x N) s = none := by
          cases hx : rules.reMut l (whole x N) s with
          | none => rfl
          | some z =>
            obtain ⟨-, -, -, h3⟩ := reMut_inv hx
            have := h3 (.head x) (by simp)
            cases hy : Stack.write l (s.stacks (.head x)) with
            | none => rw [hy] at this; simp at this
            | some y => obtain ⟨j, hj, e⟩ := write_tag hy; exact absurd e (hg.2 j hj)
        have hs : rules.reShr l (whole x N) s = none := by
          cases hx : rules.reShr l (whole x N) s with
          | none => rfl
          | some z =>
            obtain ⟨-, -, -, h3⟩ := reShr_inv hx
            have := h3 (.head x) (by simp)
            cases hy : Stack.read l (s.stacks (.head x)) with
            | none => rw [hy] at this; simp at this
            | some y => obtain ⟨j, hj, e⟩ := read_tag hy; exact absurd e (hg.2 j hj)
        obtain ⟨rt, w, j⟩ := u
        simp only [Bool.not_eq_true] at hu
        subst hu
        cases w <;> simp [halfUse, Call.run, ptr, mutPtr, P.bind_run, hm, hs]
      simp only [halfUses, P.bind_run, e2, Option.bind_none]
      exact ⟨by simp [hu], by simp⟩

theorem splitAt_ok (hw : WF s) (h : Own s b (whole x N)) : ∃ l r s', splitAt rules N x b s = some ((l, r), s') ∧ Gone s' l (.head x) ∧
    Based s' r b (whole x N) := by
  have ex : ∀ c ∈ whole x N, ∃ z, Stack.pushRaw b s.next (s.stacks c) = some z ∧ Wr b z ∧ (∃ pre q, z = pre ++ ⟨.sharedRW, s.next⟩ :: q ∧ Wr b q ∧
      (∀ i ∈ pre, i.tag < s.next)) := fun c hc => by
    have hwc := hw c
    obtain ⟨y, hy⟩ := h c hc
    generalize s.stacks c = st at hy hwc ⊢
    clear hc h hw
    induction st generalizing y with
    | nil => simp [Stack.write] at hy
    | cons j st ih =>
      by_cases hj : canWrite b j = true
      · exact ⟨_, by rw [Stack.pushRaw, if_pos hj], Stack.wr_cons _ (Stack.wr_top hj), [], _, rfl, Stack.wr_top hj, by simp⟩
      · cases hz : Stack.write b st with
        | none => simp [Stack.write, hj, hz] at hy
        | some z =>
          obtain ⟨z', e1, w1, pre, q, e2, w2, h3⟩ := ih z hz (fun i hi => hwc i (List.mem_cons_of_mem _ hi))
          refine ⟨j :: z', by rw [Stack.pushRaw, if_neg hj, e1]; rfl, Stack.wr_cons _ w1, j :: pre, q, by rw [e2]; rfl, w2, fun i hi => ?_⟩
          rcases List.mem_cons.1 hi with rfl | hi
          · exact hwc _ List.mem_cons_self
          · exact h3 i hi
  obtain ⟨s1, e1, n1, f1, hs1, w1⟩ := raw_eq (s := s) (t := b) (cells := whole x N) (fun c hc => by obtain ⟨z, e, -⟩ := ex c hc; exact ⟨z, e⟩)
  have w1 := w1 hw
  have g1 : ∀ c ∈ whole x N, ∃ pre q, s1.stacks c = pre ++ ⟨.sharedRW, s.next⟩ :: q ∧ Wr b q ∧ (∀ i ∈ pre, i.tag < s.next) := fun c hc => by
    obtain ⟨z, e, -, h⟩ := ex c hc
    rw [hs1 c hc] at e
    cases e
    exact h
  have hp : ∀ c ∈ whole x N, Wr s.next (s1.stacks c) := fun c hc => by
    obtain ⟨pre, q, e, -, -⟩ := g1 c hc
    rw [e]; exact Stack.wr_append _ (Stack.wr_top (by simp [canWrite]))
  obtain ⟨s2, e2, n2, f2, hs2, w2⟩ := reMut_eq (s := s1) (t := s.next) (cells := whole x N) hp
  have w2 := w2 w1
  -- what a write through the raw pointer leaves
  have key : ∀ (pre q : List Item) z, (∀ i ∈ pre, i.tag ≠ s.next) → Stack.write s.next (pre ++ ⟨.sharedRW, s.next⟩ :: q) = some z →
      ∃ pre', z = pre' ++ ⟨.sharedRW, s.next⟩ :: q ∧ ∀ i ∈ pre', i ∈ pre := fun pre q z hpre hz => by
    induction pre generalizing z with
    | nil => simp [Stack.write, canWrite] at hz; exact ⟨[], hz.symm, by simp⟩
    | cons j pre ih =>
      have hj : canWrite s.next j = false := by simp [canWrite, hpre j List.mem_cons_self]
      simp only [List.cons_append, Stack.write, hj, Bool.false_eq_true, if_false] at hz
      cases hy : Stack.write s.next (pre ++ ⟨.sharedRW, s.next⟩ :: q) with
      | none => rw [hy] at hz; simp at hz
      | some y =>
        rw [hy] at hz
        obtain ⟨pre', e, hm⟩ := ih y (fun i hi => hpre i (List.mem_cons_of_mem _ hi)) hy
        simp only [Option.map_some, Option.some.injEq] at hz
        split at hz
        · refine ⟨j :: pre', by rw [← hz, e]; rfl, fun i hi => ?_⟩
          rcases List.mem_cons.1 hi with rfl | hi
          · exact List.mem_cons_self
          · exact List.mem_cons_of_mem _ (hm i hi)
        · exact ⟨pre', by rw [← hz, e], fun i hi => List.mem_cons_of_mem _ (hm i hi)⟩
  have g2 : ∀ c ∈ whole x N, ∃ pre q, s2.stacks c = ⟨.unique, s1.next⟩ :: (pre ++ ⟨.sharedRW, s.next⟩ :: q) ∧ Wr b q ∧
      (∀ i ∈ pre, i.tag < s.next) ∧ (∀ i ∈ q, i.tag < s1.next) := fun c hc => by
    obtain ⟨z, hz, e⟩ := hs2 c hc
    obtain ⟨pre, q, e1, hq, hpre⟩ := g1 c hc
    rw [e1] at hz
    obtain ⟨pre', rfl, hm⟩ := key pre q z (fun i hi => Nat.ne_of_lt (hpre i hi)) hz
    exact ⟨pre', q, e, hq, fun i hi => hpre i (hm i hi), fun i hi => w1 c i (by rw [e1]; simp [hi])⟩
  have hp2 : ∀ c ∈ whole x N, Wr s.next (s2.stacks c) := fun c hc => by
    obtain ⟨pre, q, e, -⟩ := g2 c hc
    rw [e]; exact Stack.wr_cons _ (Stack.wr_append _ (Stack.wr_top (by simp [canWrite])))
  obtain ⟨s3, e3, n3, f3, hs3, w3⟩ := reMut_eq (s := s2) (t := s.next) (cells := whole x N) hp2
  have g3 : ∀ c ∈ whole x N, ∃ pre q, s3.stacks c = ⟨.unique, s2.next⟩ :: (pre ++ ⟨.sharedRW, s.next⟩ :: q) ∧ Wr b q ∧
      (∀ i ∈ pre, i.tag < s.next) ∧ (∀ i ∈ q, i.tag < s1.next) := fun c hc => by
    obtain ⟨z, hz, e⟩ := hs3 c hc
    obtain ⟨pre, q, e1, hq, hpre, hq'⟩ := g2 c hc
    rw [e1] at hz
    have hj : canWrite s.next ⟨.unique, s1.next⟩ = false := by simp [canWrite, n1]
    simp only [Stack.write, hj, Bool.false_eq_true, if_false] at hz
    cases hy : Stack.write s.next (pre ++ ⟨.sharedRW, s.next⟩ :: q) with
    | none => rw [hy] at hz; simp at hz
    | some y =>
      rw [hy] at hz
      simp [Stack.stays] at hz
      subst hz
      obtain ⟨pre', rfl, hm⟩ := key pre q y (fun i hi => Nat.ne_of_lt (hpre i hi)) hy
      exact ⟨pre', q, e, hq, fun i hi => hpre i (hm i hi), hq'⟩
  refine ⟨s1.next, s2.next, s3, ?_, ?_, ?_⟩
  · simp only [splitAt, P.bind_run, e1, e2, e3, Option.bind_some, P.pure_run]
  · refine ⟨by omega, fun i hi => ?_⟩
    obtain ⟨pre, q, e, -, hpre, hq⟩ := g3 (.head x) (by simp [whole])
    rw [e] at hi
    simp only [List.mem_cons, List.mem_append] at hi
    rcases hi with rfl | hi | rfl | hi
    · simp only; omega
    · have := hpre i hi; omega
    · simp only; omega
    · have := hq i hi; omega
  · refine ⟨by omega, fun c hc => ?_⟩
    obtain ⟨pre, q, e, hb, hpre, hq⟩ := g3 c hc
    refine ⟨[], _, e, by simp, fun i hi => ?_, Stack.wr_append _ (Stack.wr_cons _ hb)⟩
    simp only [List.mem_cons, List.mem_append] at hi
    rcases hi with hi | rfl | hi
    · have := hpre i hi; omega
    · simp only; omega
    · have := hq i hi; omega

end SB
/-! ### Tree Borrows -/

namespace TB
variable {s s' : TB} {t b h o l r x : Nat} {cells cs : List Cell} {cell : Cell} {w : Bool}

/-- The reference is of no use at the cell any more, not even for reading. -/
structure Off (s : TB) (o : Nat) (cell : Cell) : Prop where
  lt : o < s.next
  self : o ∈ s.up o
  off : s.perm o cell = .disabled

theorem off_access {u : Nat} (e : access w u cells s = some s') (hd : Off s o cell) : Off s' o cell := by
  obtain ⟨h1, h2⟩ := access_inv e
  obtain ⟨z, e', g1, g2, g3, g4, g5⟩ := access_eq h1 h2
  rw [e] at e'
  cases e'
  refine ⟨by rw [g2]; exact hd.lt, by rw [g1]; exact hd.self, ?_⟩
  by_cases hc : cell ∈ cells
  · by_cases hu : o ∈ s.up u
    · have := g4 o cell hc hu
      rw [hd.off] at this
      simp [TPerm.child] at this
    · rw [g5 o cell hc hu, hd.off]; rfl
  · rw [g3 o cell hc]; exact hd.off
theorem off_sprout {u : Nat} (p : TPerm) (hd : Off s o cell) : Off (sprout u p s) o cell :=
  ⟨Nat.lt_succ_of_lt hd.lt, by simpa [sprout, Nat.ne_of_lt hd.lt] using hd.self, by simpa [sprout, Nat.ne_of_lt hd.lt] using hd.off⟩

theorem robust_off (o : Nat) (cell : Cell) : Robust rules (fun s => Off s o cell) where
  reMut u cs s n s' hd e := by
    simp only [rules] at e
    split at e
    · cases hx : access false s.next cs (sprout u .reserved s) with
      | none => rw [hx] at e; simp at e
      | some z => rw [hx] at e; cases e; exact ⟨off_access hx (off_sprout _ hd), trivial⟩
    · simp at e
  reShr u cs s n s' hd e := by
    simp only [rules] at e
    split at e
    · cases hx : access false s.next cs (sprout u .frozen s) with
      | none => rw [hx] at e; simp at e
      | some z => rw [hx] at e; cases e; exact ⟨off_access hx (off_sprout _ hd), trivial⟩
    · simp at e
  raw u cs s n s' hd e := by rw [raw_run] at e; cases e; exact ⟨hd, trivial⟩
  read u cs s n s' hd e := by
    simp only [rules] at e
    cases hx : access false u cs s with
    | none => rw [hx] at e; simp at e
    | some z => rw [hx] at e; cases e; exact ⟨off_access hx hd, trivial⟩
  write u cs s n s' hd e := by
    simp only [rules] at e
    cases hx : access true u cs s with
    | none => rw [hx] at e; simp at e
    | some z => rw [hx] at e; cases e; exact ⟨off_access hx hd, trivial⟩

/-- Nothing can be made from it. -/
theorem off_reMut (hd : Off s o cell) (hc : cell ∈ cells) : rules.reMut o cells s = none ∧ rules.reShr o cells s = none := by
  have key : ∀ p, access false s.next cells (sprout o p s) = none := fun p => by
    cases hx : access false s.next cells (sprout o p s) with
    | none => rfl
    | some z =>
      have := (access_inv hx).2 cell hc o (by simp [sprout, hd.self])
      simp [sprout, Nat.ne_of_lt hd.lt, hd.off, TPerm.child] at this
  simp [rules, key]

theorem reMut_new {n : Nat} (e : rules.reMut t cells s = some (n, s')) : n = s.next ∧ s'.next = s.next + 1 ∧ s'.up s.next = s.next :: s.up t := by
  simp only [rules] at e
  split at e
  · cases hx : access false s.next cells (sprout t .reserved s) with
    | none => rw [hx] at e; simp at e
    | some z =>
      rw [hx] at e
      cases e
      obtain ⟨h1, h2⟩ := access_keeps hx
      exact ⟨rfl, by rw [h2]; rfl, by rw [h1]; simp [sprout]⟩
  · simp at e

theorem Res.toOwn (h : Res s t b cs) : Own s t cs := ⟨h.wf, h.lt, fun _ hu => hu, h.gd, fun _ _ _ hu hn => absurd hu hn⟩

/-- `get_mut` through one reference puts an end to another which was not made from the same. -/
theorem getMut_off {i : Nat} (hi : i < N) (ho : Own s h (whole x N)) (lo : o < s.next) (so : o ∈ s.up o) (ha : o ∉ s.up h) : ∃ s',
    Call.run rules N (fun _ => h) (.getMut x i) s = some ((), s') ∧ Own s' h (whole x N) ∧ Off s' o (.slot x i) ∧ Kept s s' h x := by
  have hc : Cell.slot x i ∈ slots x N := slot_mem hi _ (by simp)
  obtain ⟨s1, e1, r1, q1⟩ := q_reMut (x := x) ho.lt (fun c hc => box_whole hc) ho
  have l1 := Nat.lt_of_lt_of_le ho.lt q1.next
  obtain ⟨s2, e2, r2, q2⟩ := q_reMut (x := x) l1 (SB.box_sub slots_whole) (r1.mono slots_whole)
  have l2 := Nat.lt_of_lt_of_le l1 q2.next
  obtain ⟨s3, e3, r3, q3⟩ := q_reMut (x := x) (cells := [.slot x i]) l2 (by simp [SB.box]) (r2.mono (by simpa using hc))
  have l3 := Nat.lt_of_lt_of_le l2 q3.next
  obtain ⟨s4, e4, q4⟩ := q_read (x := x) (cells := [.slot x i]) l3 (by simp [SB.box]) r3.rd
  have r4 := q4.res _ _ r3
  obtain ⟨s5, e5, k5, -⟩ := k_write (x := x) (cells := [.slot x i]) (Nat.lt_of_lt_of_le l3 q4.next) (by simp [SB.box]) r4
  have k : Kept s s5 h x := (((q1.trans q2).trans q3).trans q4).toKept.trans k5
  obtain ⟨-, n1, u1⟩ := reMut_new e1
  obtain ⟨-, n2, u2⟩ := reMut_new e2
  obtain ⟨-, n3, u3⟩ := reMut_new e3
  have hu : o ∉ s4.up s2.next := by
    rw [q4.up _ (by omega), u3, u2, u1]
    simp only [List.mem_cons, not_or]
    exact ⟨by omega, by omega, by omega, ha⟩
  refine ⟨s5, by simp only [Call.run, mutPtr, P.bind_run, e1, e2, raw_run, e3, e4, e5, Option.bind_some], k.res ho, ?_, k⟩
  have hx : access true s2.next [.slot x i] s4 = some s5 := by
    simp only [rules] at e5
    cases hx : access true s2.next [.slot x i] s4 with
    | none => rw [hx] at e5; simp at e5
    | some z => rw [hx] at e5; cases e5; rfl
  obtain ⟨h1, h2⟩ := access_inv hx
  obtain ⟨z, e, g1, g2, g3, g4, g5⟩ := access_eq h1 h2
  rw [hx] at e
  cases e
  refine ⟨Nat.lt_of_lt_of_le lo k.next, by rw [k.up o lo]; exact so, ?_⟩
  rw [g5 o _ (by simp) hu]
  cases s4.perm o (Cell.slot x i) <;> rfl

/-- The tag of a half. -/
def half (l r : Nat) (right : Bool) : Nat := if right then r else l

/-- Once one half has been written through. -/
theorem halfUses_after (side : Bool) (cell : Cell) (hc : cell ∈ whole x N) (ho : Own s (half l r side) (whole x N)) (hd : Off s (half l r !side) cell)
    (hb : b < s.next) (hu : ∀ u ∈ s.up b, u ∈ s.up (half l r side)) (us : List HalfUse) (hr : ∀ u ∈ us, u.i < N) :
    ((halfUses rules N x (l, r) us s).isSome ↔ ∀ u ∈ us, u.right = side) ∧
    ∀ s', halfUses rules N x (l, r) us s = some ((), s') → rules.Usable s' b (whole x N) := by
  induction us generalizing s with
  | nil =>
    refine ⟨by simp [halfUses, P.pure_run], fun s' e => ?_⟩
    simp only [halfUses, P.pure_run, Option.some.injEq, Prod.mk.injEq, true_and] at e
    subst e
    exact usable_of hb fun c hc u h => ho.good c hc u (hu u h)
  | cons u us ih =>
    by_cases hs : u.right = side
    · have hi : u.i < N := hr u (by simp)
      have : ∃ s1, halfUse rules N x (l, r) u s = some ((), s1) ∧ Kept s s1 (half l r side) x := by
        obtain ⟨rt, w, j⟩ := u
        simp only at hs hi
        subst hs
        cases w
        · obtain ⟨p, s1, e1, r1, q1⟩ := tb_ptr ho
          obtain ⟨s2, e2, q2⟩ := tb_itemShr (x := x) (i := j) (Nat.lt_of_lt_of_le ho.lt q1.next) (slot_mem hi _ (by simp)) r1
          refine ⟨s2, ?_, (q1.trans q2).toKept⟩
          simp only [halfUse, Bool.false_eq_true, if_false, Call.run]
          rw [P.bind_run]
          simp only [half] at e1
          rw [e1]; exact e2
        · obtain ⟨p, s1, e1, r1, q1⟩ := tb_mutPtr ho
          obtain ⟨s2, e2, q2⟩ := tb_item (x := x) (i := j) (Nat.lt_of_lt_of_le ho.lt q1.next) (slot_mem hi _ (by simp)) r1
          refine ⟨s2, ?_, q1.toKept.trans q2⟩
          simp only [halfUse, if_true, Call.run]
          rw [P.bind_run]
          simp only [half] at e1
          rw [e1]; exact e2
      obtain ⟨s1, e1, k⟩ := this
      obtain ⟨h1, h2⟩ := ih (k.res ho) ((robust_off _ cell).halfUse x _ u s _ s1 hd e1).1 (Nat.lt_of_lt_of_le hb k.next)
        (by rw [k.up b hb, k.up _ ho.lt]; exact hu) (fun v hv => hr v (List.mem_cons_of_mem _ hv))
      simp only [halfUses, P.bind_run, e1, Option.bind_some]
      exact ⟨by rw [h1]; simp [hs], h2⟩
    · have e1 : halfUse rules N x (l, r) u s = none := by
        obtain ⟨hm, hs'⟩ := off_reMut hd hc
        obtain ⟨rt, w, j⟩ := u
        simp only at hs
        have : rt = !side := by cases rt <;> cases side <;> simp at hs ⊢
        subst this
        cases side <;> simp only [half, Bool.not_true, Bool.not_false, if_true, Bool.false_eq_true, if_false] at hm hs' <;> cases w <;> simp [halfUse, Call.run, ptr, mutPtr, P.bind_run, hm, hs']
      simp only [halfUses, P.bind_run, e1, Option.bind_none]
      exact ⟨by simp [hs], by simp⟩

end TB

/-- Once a half has been written through, only that half is used. -/
def OneWriter (us : List HalfUse) : Prop := ∀ pre u post, us = pre ++ u :: post → u.w = true → ∀ v ∈ post, v.right = u.right

theorem oneWriter_cons {u : HalfUse} {us : List HalfUse} : OneWriter (u :: us) ↔ (u.w = true → ∀ v ∈ us, v.right = u.right) ∧ OneWriter us := by
  refine ⟨fun h => ⟨fun hw => h [] u us rfl hw, fun pre v post e hw => h (u :: pre) v post (by rw [e]; rfl) hw⟩, fun ⟨h1, h2⟩ pre v post e hw => ?_⟩
  cases pre with
  | nil => cases e; exact h1 hw
  | cons p pre => cases e; exact h2 pre v post rfl hw
theorem oneWriter_same {side : Bool} {us : List HalfUse} (h : ∀ v ∈ us, v.right = side) : OneWriter us := fun pre u post e hw v hv => by
  subst e
  rw [h v (by simp [hv]), h u (by simp)]

namespace TB
variable {s s' : TB} {t b h o l r x : Nat} {cells cs : List Cell} {cell : Cell} {w : Bool}

/-- While neither half has been written through. -/
structure Both (N x b l r : Nat) (s : TB) : Prop where
  lt : b < s.next
  res : ∀ side, Res s (half l r side) b (whole x N)
  self : ∀ side, half l r side ∈ s.up (half l r side)
  apart : ∀ side, half l r (!side) ∉ s.up (half l r side)

theorem halfUses_before (hb : Both N x b l r s) (us : List HalfUse) (hr : ∀ u ∈ us, u.i < N) :
    ((halfUses rules N x (l, r) us s).isSome ↔ OneWriter us) ∧
    ∀ s', halfUses rules N x (l, r) us s = some ((), s') → rules.Usable s' b (whole x N) := by
  induction us generalizing s with
  | nil =>
    refine ⟨by simp [halfUses, P.pure_run, OneWriter], fun s' e => ?_⟩
    simp only [halfUses, P.pure_run, Option.some.injEq, Prod.mk.injEq, true_and] at e
    subst e
    exact usable_of hb.lt (hb.res true).good
  | cons u us ih =>
    obtain ⟨rt, w, j⟩ := u
    have hi : j < N := hr ⟨rt, w, j⟩ (by simp)
    have hr' : ∀ v ∈ us, v.i < N := fun v hv => hr v (List.mem_cons_of_mem _ hv)
    rw [oneWriter_cons]
    cases w
    · obtain ⟨a, s1, p, s2, e1, e2, -, r2, q2⟩ := tb_shr2 (x := x) hb.lt (hb.res rt).rd slots_whole
      obtain ⟨s3, e3, q3⟩ := tb_itemShr (x := x) (i := j) (Nat.lt_of_lt_of_le hb.lt q2.next) (slot_mem hi _ (by simp)) r2
      have q := q2.trans q3
      have e : halfUse rules N x (l, r) ⟨rt, false, j⟩ s = some ((), s3) := by
        simp only [half] at e1
        simp only [halfUse, Bool.false_eq_true, if_false, Call.run, ptr]
        rw [P.bind_run, P.bind_run, e1, Option.bind_some, e2, Option.bind_some]
        exact e3
      obtain ⟨h1, h2⟩ := ih ⟨Nat.lt_of_lt_of_le hb.lt q.next, fun side => q.res _ _ (hb.res side),
        fun side => by rw [q.up _ (hb.res side).lt]; exact hb.self side, fun side => by rw [q.up _ (hb.res side).lt]; exact hb.apart side⟩ hr'
      simp only [halfUses, P.bind_run, e, Option.bind_some]
      exact ⟨by rw [h1]; simp, h2⟩
    · obtain ⟨s1, e1, o1, f1, k1⟩ := getMut_off (x := x) (i := j) hi (hb.res rt).toOwn (hb.res !rt).lt (hb.self !rt) (hb.apart rt)
      have e : halfUse rules N x (l, r) ⟨rt, true, j⟩ s = some ((), s1) := e1
      obtain ⟨h1, h2⟩ := halfUses_after (b := b) rt _ (SB.whole_slot hi _ (by simp)) o1 f1 (Nat.lt_of_lt_of_le hb.lt k1.next)
        (by rw [k1.up b hb.lt, k1.up _ (hb.res rt).lt]; exact (hb.res rt).sub) us hr'
      simp only [halfUses, P.bind_run, e, Option.bind_some]
      exact ⟨by rw [h1]; exact ⟨fun h => ⟨fun _ => h, oneWriter_same h⟩, fun h => h.1 trivial⟩, h2⟩

theorem splitAt_ok (h : Own s b (whole x N)) : ∃ l r s', splitAt rules N x b s = some ((l, r), s') ∧ Both N x b l r s' := by
  obtain ⟨s1, e1, r1, q1⟩ := q_reMut (x := x) h.lt (fun c hc => box_whole hc) h
  have l1 := Nat.lt_of_lt_of_le h.lt q1.next
  obtain ⟨s2, e2, r2, q2⟩ := q_reMut (x := x) l1 (fun c hc => box_whole hc) (q1.res _ _ h)
  obtain ⟨-, n1, u1⟩ := reMut_new e1
  obtain ⟨-, n2, u2⟩ := reMut_new e2
  have hb := h.wf b h.lt
  refine ⟨s.next, s1.next, s2, by simp only [splitAt, P.bind_run, raw_run, e1, e2, Option.bind_some, P.pure_run],
    Nat.lt_of_lt_of_le l1 q2.next, fun side => ?_, fun side => ?_, fun side => ?_⟩ <;> cases side
  · exact q2.res _ _ r1
  · exact r2
  · show s.next ∈ s2.up s.next
    rw [q2.up _ (by omega), u1]; simp
  · show s1.next ∈ s2.up s1.next
    rw [u2]; simp
  · show s1.next ∉ s2.up s.next
    rw [q2.up _ (by omega), u1]
    simp only [List.mem_cons, not_or]
    exact ⟨by omega, fun hm => by have : s1.next < s.next := hb _ hm; omega⟩
  · show s.next ∉ s2.up s1.next
    rw [u2, q1.up b h.lt]
    simp only [List.mem_cons, not_or]
    exact ⟨by omega, fun hm => by have : s.next < s.next := hb _ hm; omega⟩

end TB

/-! ### C98 -/

/-- A client of the two halves is accepted exactly if `policy` holds of what it does; the program goes on from a state it may be in, and
the borrow of the buffer may be used again. -/
def SplitExactly (R : Rules σ) (i : σ) (N x b : Nat) (uses : List HalfUse) (policy : Prop) (s : σ) : Prop :=
  ((splitClient R N x b uses s).isSome ↔ policy) ∧
  ∀ s', splitClient R N x b uses s = some ((), s') → Reach R i s' ∧ R.Usable s' b (whole x N)

/-- C98, Stacked Borrows. The full claim would be that the two halves may be used in any order. What holds is that a client is accepted
exactly if it never uses the left half. -/
theorem C98_split_at_stacked_borrows_partial {k : Nat} {s : SB} (hs : Reach SB.rules (SB.start k) s) {x b : Nat}
    (hb : SB.rules.Usable s b (whole x N)) (uses : List HalfUse) (hr : ∀ u ∈ uses, u.i < N) :
    SplitExactly SB.rules (SB.start k) N x b uses (∀ u ∈ uses, u.right = true) s := by
  obtain ⟨l, r, s1, e1, g, ba⟩ := SB.splitAt_ok (SB.Reach.wf hs) (SB.usable_iff.1 hb)
  obtain ⟨h1, h2⟩ := SB.halfUses_exact g ba uses hr
  have e : splitClient SB.rules N x b uses s = halfUses SB.rules N x (l, r) uses s1 := by
    simp only [splitClient, P.bind_run, e1, Option.bind_some]
  exact ⟨by rw [e]; exact h1, fun s' e' => ⟨stays_splitClient _ _ _ s () s' hs e', h2 s' (by rw [← e]; exact e')⟩⟩

/-- C98, Tree Borrows. What holds is that a client is accepted exactly if, once it has written through one half, it no longer uses the
other one. -/
theorem C98_split_at_tree_borrows_partial {k : Nat} {s : TB} (hs : Reach TB.rules (TB.start k) s) {x b : Nat}
    (hb : TB.rules.Usable s b (whole x N)) (uses : List HalfUse) (hr : ∀ u ∈ uses, u.i < N) :
    SplitExactly TB.rules (TB.start k) N x b uses (OneWriter uses) s := by
  obtain ⟨l, r, s1, e1, g⟩ := TB.splitAt_ok (TB.usable_own (TB.Reach.wf hs) (by simp [whole]) hb)
  obtain ⟨h1, h2⟩ := TB.halfUses_before g uses hr
  have e : splitClient TB.rules N x b uses s = halfUses TB.rules N x (l, r) uses s1 := by
    simp only [splitClient, P.bind_run, e1, Option.bind_some]
  exact ⟨by rw [e]; exact h1, fun s' e' => ⟨stays_splitClient _ _ _ s () s' hs e', h2 s' (by rw [← e]; exact e')⟩⟩

/-- C98 is false of the code: reading through the left half is undefined behaviour under Stacked Borrows even if nothing else is done;
writing an item of the left half and then one of the right half, as one does with halves, is under Tree Borrows. -/
theorem C98_split_at_counterexample :
    splitClient SB.rules 2 0 0 [⟨false, false, 0⟩] (SB.start 2) = none ∧
    splitClient TB.rules 2 0 0 [⟨false, true, 0⟩, ⟨true, true, 1⟩] (TB.start 2) = none := by
  refine ⟨Option.not_isSome_iff_eq_none.1 ?_, Option.not_isSome_iff_eq_none.1 ?_⟩ <;> decide +kernel

/-- Both policies can be met and broken. -/
example : OneWriter [⟨false, false, 0⟩, ⟨true, true, 1⟩, ⟨true, false, 0⟩] ∧ ¬OneWriter [⟨true, true, 1⟩, ⟨false, false, 0⟩] :=
  by
  have h0 : OneWriter [] := fun pre u post e => by simp at e
  simp [oneWriter_cons, h0]
example : SplitExactly SB.rules (SB.start 2) 2 0 0 [⟨true, true, 1⟩, ⟨true, false, 0⟩] (∀ u ∈ [⟨true, true, 1⟩, ⟨true, false, 0⟩], HalfUse.right u = true) (SB.start 2) :=
  C98_split_at_stacked_borrows_partial .init (SB.start_usable (by decide)) _ (by decide)
example : SplitExactly TB.rules (TB.start 2) 2 0 0 [⟨false, false, 0⟩, ⟨true, true, 1⟩] (OneWriter [⟨false, false, 0⟩, ⟨true, true, 1⟩]) (TB.start 2) :=
  C98_split_at_tree_borrows_partial .init (TB.start_usable (by decide)) _ (by decide)
example : (splitClient SB.rules 2 0 0 [⟨true, true, 1⟩, ⟨true, false, 0⟩] (SB.start 2)).isSome ∧
    (splitClient TB.rules 2 0 0 [⟨false, false, 0⟩, ⟨true, true, 1⟩, ⟨true, true, 0⟩] (TB.start 2)).isSome := by decide +kernel

end Verif.Alias
