import Verif.Props.AliasCalls
/-
Every pointer operation of the four containers under Tree Borrows.
-/
namespace Verif.Alias
open Verif
namespace TB
variable {s s' : TB} {t b p q a : Nat} {cells cs ds : List Cell} {x y N : Nat} {w : Bool}

/-- The reference may still be written through. -/
def Good (p : TPerm) : Prop := p = .reserved ∨ p = .active

theorem child_true {p : TPerm} : (p.child true).isSome ↔ Good p := by cases p <;> simp [TPerm.child, Good]
theorem child_false {p : TPerm} : (p.child false).isSome ↔ p ≠ .disabled := by cases p <;> simp [TPerm.child]
theorem Good.ne {p : TPerm} (h : Good p) : p ≠ .disabled := by rcases h with h | h <;> rw [h] <;> decide
theorem child_good {p p' : TPerm} (h : p.child w = some p') (hg : Good p) : Good p' := by
  rcases hg with rfl | rfl <;> cases w <;> simp [TPerm.child] at h <;> simp [Good, ← h]
theorem child_read {p p' : TPerm} (h : p.child false = some p') : p' = p := by
  cases p <;> simp [TPerm.child] at h <;> exact h.symm
theorem foreign_read {p : TPerm} (h : p ≠ .disabled) : p.foreign false ≠ .disabled := by cases p <;> simp [TPerm.foreign] at h ⊢

/-- Only issued tags are used. -/
def WF (s : TB) : Prop := ∀ t, t < s.next → ∀ u ∈ s.up t, u < s.next

theorem access_eq (ht : t < s.next) (h : ∀ c ∈ cells, ∀ u ∈ s.up t, ((s.perm u c).child w).isSome) :
    ∃ s', access w t cells s = some s' ∧ s'.up = s.up ∧ s'.next = s.next ∧
      (∀ u c, c ∉ cells → s'.perm u c = s.perm u c) ∧
      (∀ u c, c ∈ cells → u ∈ s.up t → (s.perm u c).child w = some (s'.perm u c)) ∧
      (∀ u c, c ∈ cells → u ∉ s.up t → s'.perm u c = (s.perm u c).foreign w) := by
  refine ⟨_, if_pos ⟨ht, h⟩, rfl, rfl, fun u c hc => by simp [hc], fun u c hc hu => ?_, fun u c hc hu => by simp [hc, hu]⟩
  obtain ⟨r, e⟩ := Option.isSome_iff_exists.1 (h c hc u hu)
  simp [hc, hu, e]

theorem access_inv (h : access w t cells s = some s') : t < s.next ∧ (∀ c ∈ cells, ∀ u ∈ s.up t, ((s.perm u c).child w).isSome) := by
  unfold access at h
  split at h
  · assumption
  · simp at h

theorem access_keeps (h : access w t cells s = some s') : s'.up = s.up ∧ s'.next = s.next := by
  obtain ⟨h1, h2⟩ := access_inv h
  obtain ⟨s2, e, h3, h4, -⟩ := access_eq h1 h2
  rw [h] at e
  cases e
  exact ⟨h3, h4⟩

theorem sprout_wf (hw : WF s) (ht : t < s.next) (p : TPerm) : WF (sprout t p s) := by
  intro v hv u hu
  change v < s.next + 1 at hv
  change u < s.next + 1
  simp only [sprout] at hu
  split at hu
  · rcases List.mem_cons.1 hu with h | hu
    · rw [h]; exact Nat.lt_succ_self _
    · exact Nat.lt_succ_of_lt (hw t ht u hu)
  · rename_i h
    exact Nat.lt_succ_of_lt (hw v (Nat.lt_of_le_of_ne (Nat.le_of_lt_succ hv) h) u hu)

theorem Reach.wf {k : Nat} (h : Reach rules (start k) s) : WF s := by
  induction h with
  | init => intro t ht u hu; simp only [start, List.mem_singleton] at hu; rw [hu]; exact ht
  | reMut _ h ih =>
    rename_i s s' t n cells _
    simp only [rules] at h
    split at h
    · rename_i ht
      cases hx : access false s.next cells (sprout t .reserved s) with
      | none => rw [hx] at h; simp at h
      | some z =>
        rw [hx] at h
        cases h
        obtain ⟨h1, h2⟩ := access_keeps hx
        have := sprout_wf ih ht .reserved
        unfold WF at this ⊢
        rwa [h1, h2]
    · simp at h
  | reShr _ h ih =>
    rename_i s s' t n cells _
    simp only [rules] at h
    split at h
    · rename_i ht
      cases hx : access false s.next cells (sprout t .frozen s) with
      | none => rw [hx] at h; simp at h
      | some z =>
        rw [hx] at h
        cases h
        obtain ⟨h1, h2⟩ := access_keeps hx
        have := sprout_wf ih ht .frozen
        unfold WF at this ⊢
        rwa [h1, h2]
    · simp at h
  | raw _ h ih => cases h; exact ih
  | read _ h ih =>
    rename_i s s' t cells _
    simp only [rules] at h
    cases hx : access false t cells s with
    | none => rw [hx] at h; simp at h
    | some z =>
      rw [hx] at h
      cases h
      obtain ⟨h1, h2⟩ := access_keeps hx
      unfold WF at ih ⊢
      rwa [h1, h2]
  | write _ h ih =>
    rename_i s s' t cells _
    simp only [rules] at h
    cases hx : access true t cells s with
    | none => rw [hx] at h; simp at h
    | some z =>
      rw [hx] at h
      cases h
      obtain ⟨h1, h2⟩ := access_keeps hx
      unfold WF at ih ⊢
      rwa [h1, h2]

/-! ### Pointers -/

/-- `p` comes from `b`, may be written through at the cells, and what was made between `b` and `p` has not been written through
there yet. -/
structure Res (s : TB) (p b : Nat) (cs : List Cell) : Prop where
  wf : WF s
  lt : p < s.next
  sub : ∀ u ∈ s.up b, u ∈ s.up p
  good : ∀ c ∈ cs, ∀ u ∈ s.up b, Good (s.perm u c)
  res : ∀ c ∈ cs, ∀ u ∈ s.up p, u ∉ s.up b → s.perm u c = .reserved

/-- `p` comes from `b` and may be read through at the cells. -/
structure Rd (s : TB) (p b : Nat) (cs : List Cell) : Prop where
  wf : WF s
  lt : p < s.next
  sub : ∀ u ∈ s.up b, u ∈ s.up p
  ok : ∀ c ∈ cs, ∀ u ∈ s.up p, s.perm u c ≠ .disabled

theorem Res.gd (h : Res s p b cs) : ∀ c ∈ cs, ∀ u ∈ s.up p, Good (s.perm u c) := fun c hc u hu => by
  by_cases hb : u ∈ s.up b
  · exact h.good c hc u hb
  · exact .inl (h.res c hc u hu hb)
theorem Res.rd (h : Res s p b cs) : Rd s p b cs := ⟨h.wf, h.lt, h.sub, fun c hc u hu => (h.gd c hc u hu).ne⟩
theorem Res.mono (h : Res s p b cs) (hd : ∀ c ∈ ds, c ∈ cs) : Res s p b ds :=
  ⟨h.wf, h.lt, h.sub, fun c hc => h.good c (hd c hc), fun c hc => h.res c (hd c hc)⟩
theorem Rd.mono (h : Rd s p b cs) (hd : ∀ c ∈ ds, c ∈ cs) : Rd s p b ds := ⟨h.wf, h.lt, h.sub, fun c hc => h.ok c (hd c hc)⟩

/-- `b` itself. -/
abbrev Own (s : TB) (b : Nat) (cs : List Cell) : Prop := Res s b b cs

theorem usable_own (hw : WF s) (hn : cs ≠ []) (h : rules.Usable s b cs) : Own s b cs := by
  have h1 : ∀ c ∈ cs, b < s.next ∧ ∀ u ∈ s.up b, Good (s.perm u c) := by
    intro c hc
    obtain ⟨s', e⟩ := h c hc
    simp only [rules] at e
    cases hx : access true b [c] s with
    | none => rw [hx] at e; simp at e
    | some z =>
      obtain ⟨h1, h2⟩ := access_inv hx
      exact ⟨h1, fun u hu => child_true.1 (h2 c (by simp) u hu)⟩
  obtain ⟨c, hc⟩ := List.exists_mem_of_ne_nil _ hn
  exact ⟨hw, (h1 c hc).1, fun u hu => hu, fun c hc u hu => (h1 c hc).2 u hu, fun c hc u hu hn => absurd hu hn⟩
theorem usable_of (hl : p < s.next) (hg : ∀ c ∈ cs, ∀ u ∈ s.up p, Good (s.perm u c)) : rules.Usable s p cs := by
  intro c hc
  obtain ⟨s', e, -⟩ := access_eq (w := true) (s := s) (t := p) (cells := [c]) hl (by simpa using fun u hu => child_true.2 (hg c hc u hu))
  exact ⟨s', by simp only [rules]; rw [e]; rfl⟩
theorem Res.usable (h : Res s p b cs) : rules.Usable s p cs := usable_of h.lt h.gd

/-- `s'` comes after `s` by operations on container `x` through references that come from `b`. -/
structure Kept (s s' : TB) (b x : Nat) : Prop where
  lt : b < s.next
  next : s.next ≤ s'.next
  up : ∀ t, t < s.next → s'.up t = s.up t
  own : ∀ u ∈ s.up b, ∀ c, Good (s.perm u c) → Good (s'.perm u c)
  frame : ∀ c, SB.box c ≠ x → ∀ u, u < s.next → s'.perm u c = s.perm u c
  wf : WF s'

theorem Kept.trans {s''} (h : Kept s s' b x) (k : Kept s' s'' b x) : Kept s s'' b x where
  lt := h.lt
  next := Nat.le_trans h.next k.next
  up t ht := (k.up t (Nat.lt_of_lt_of_le ht h.next)).trans (h.up t ht)
  own u hu c hg := k.own u (by rw [h.up b h.lt]; exact hu) c (h.own u hu c hg)
  frame c hc u hu := (k.frame c hc u (Nat.lt_of_lt_of_le hu h.next)).trans (h.frame c hc u hu)
  wf := k.wf

theorem Kept.res (h : Kept s s' b x) (ho : Own s b cs) : Own s' b cs where
  wf := h.wf
  lt := Nat.lt_of_lt_of_le h.lt h.next
  sub u hu := hu
  good c hc u hu := by rw [h.up b h.lt] at hu; exact h.own u hu c (ho.good c hc u hu)
  res c hc u hu hn := absurd hu hn

/-- What is known about pointers into other containers stays. -/
theorem Kept.other (h : Kept s s' b x) {a : Nat} (hr : Res s p a cs) (hl : a < s.next) (hx : ∀ c ∈ cs, SB.box c ≠ x) :
    Res s' p a cs where
  wf := h.wf
  lt := Nat.lt_of_lt_of_le hr.lt h.next
  sub u hu := by rw [h.up a hl] at hu; rw [h.up p hr.lt]; exact hr.sub u hu
  good c hc u hu := by
    rw [h.up a hl] at hu
    rw [h.frame c (hx c hc) u (hr.wf a hl u hu)]
    exact hr.good c hc u hu
  res c hc u hu hn := by
    rw [h.up p hr.lt] at hu
    rw [h.up a hl] at hn
    rw [h.frame c (hx c hc) u (hr.wf p hr.lt u hu)]
    exact hr.res c hc u hu hn
theorem Kept.other_rd (h : Kept s s' b x) {a : Nat} (hr : Rd s p a cs) (hl : a < s.next) (hx : ∀ c ∈ cs, SB.box c ≠ x) :
    Rd s' p a cs where
  wf := h.wf
  lt := Nat.lt_of_lt_of_le hr.lt h.next
  sub u hu := by rw [h.up a hl] at hu; rw [h.up p hr.lt]; exact hr.sub u hu
  ok c hc u hu := by
    rw [h.up p hr.lt] at hu
    rw [h.frame c (hx c hc) u (hr.wf p hr.lt u hu)]
    exact hr.ok c hc u hu

/-- A step which only reads: everything known about pointers from `b` stays. -/
structure Quiet (s s' : TB) (b x : Nat) : Prop extends Kept s s' b x where
  res : ∀ p cs, Res s p b cs → Res s' p b cs
  rd : ∀ p cs, Rd s p b cs → Rd s' p b cs

theorem Quiet.trans {s''} (h : Quiet s s' b x) (k : Quiet s' s'' b x) : Quiet s s'' b x :=
  ⟨h.toKept.trans k.toKept, fun p cs r => k.res p cs (h.res p cs r), fun p cs r => k.rd p cs (h.rd p cs r)⟩

/-- A read through a pointer that comes from `b`. -/
theorem access_quiet (hb : b < s.next) (hx : ∀ c ∈ cells, SB.box c = x) (h : Rd s t b cells) :
    ∃ s', access false t cells s = some s' ∧ Quiet s s' b x ∧ s'.next = s.next := by
  obtain ⟨s', e, h1, h2, h3, h4, h5⟩ := access_eq (w := false) h.lt (fun c hc u hu => child_false.2 (h.ok c hc u hu))
  have hw : WF s' := by have := h.wf; unfold WF at this ⊢; rwa [h1, h2]
  -- what happens to the permission of a tag at a cell
  have hp : ∀ u c, (s'.perm u c = s.perm u c) ∨ (u ∉ s.up t ∧ c ∈ cells ∧ s'.perm u c = (s.perm u c).foreign false) := by
    intro u c
    by_cases hc : c ∈ cells
    · by_cases hu : u ∈ s.up t
      · exact .inl (child_read (h4 u c hc hu))
      · exact .inr ⟨hu, hc, h5 u c hc hu⟩
    · exact .inl (h3 u c hc)
  refine ⟨s', e, ⟨⟨hb, by omega, fun _ _ => by rw [h1], fun u hu c hg => ?_, fun c hc u hu => ?_, hw⟩, fun p cs r => ?_, fun p cs r => ?_⟩, h2⟩
  · rcases hp u c with h' | ⟨h', -⟩
    · rw [h']; exact hg
    · exact absurd (h.sub u hu) h'
  · rcases hp u c with h' | ⟨-, h', -⟩
    · exact h'
    · exact absurd (hx c h') hc
  · refine ⟨hw, by rw [h2]; exact r.lt, by rw [h1]; exact r.sub, fun c hc u hu => ?_, fun c hc u hu hn => ?_⟩
    · rw [h1] at hu
      rcases hp u c with h' | ⟨h', -⟩
      · rw [h']; exact r.good c hc u hu
      · exact absurd (h.sub u hu) h'
    · rw [h1] at hu hn
      have := r.res c hc u hu hn
      rcases hp u c with h' | ⟨-, -, h'⟩
      · rw [h', this]
      · rw [h', this]; rfl
  · refine ⟨hw, by rw [h2]; exact r.lt, by rw [h1]; exact r.sub, fun c hc u hu => ?_⟩
    rw [h1] at hu
    have := r.ok c hc u hu
    rcases hp u c with h' | ⟨-, -, h'⟩
    · rw [h']; exact this
    · rw [h']; exact foreign_read this

theorem sprout_quiet (hw : WF s) (hb : b < s.next) (ht : t < s.next) (p : TPerm) : Quiet s (sprout t p s) b x := by
  have hn : ∀ u, u < s.next → u ≠ s.next := fun u hu => Nat.ne_of_lt hu
  have hup : ∀ v, v < s.next → (sprout t p s).up v = s.up v := fun v hv => by simp [sprout, hn v hv]
  have hpm : ∀ u c, u < s.next → (sprout t p s).perm u c = s.perm u c := fun u c hu => by simp [sprout, hn u hu]
  refine ⟨⟨hb, by simp [sprout], hup, fun u hu c hg => ?_, fun c _ u hu => hpm u c hu, sprout_wf hw ht p⟩, fun q cs r => ?_, fun q cs r => ?_⟩
  · rw [hpm u c (hw b hb u hu)]; exact hg
  · refine ⟨sprout_wf hw ht p, Nat.lt_succ_of_lt r.lt, ?_, fun c hc u hu => ?_, fun c hc u hu hx => ?_⟩
    · rw [hup b hb, hup q r.lt]; exact r.sub
    · rw [hup b hb] at hu
      rw [hpm u c (hw b hb u hu)]; exact r.good c hc u hu
    · rw [hup q r.lt] at hu
      rw [hup b hb] at hx
      rw [hpm u c (hw q r.lt u hu)]; exact r.res c hc u hu hx
  · refine ⟨sprout_wf hw ht p, Nat.lt_succ_of_lt r.lt, ?_, fun c hc u hu => ?_⟩
    · rw [hup b hb, hup q r.lt]; exact r.sub
    · rw [hup q r.lt] at hu
      rw [hpm u c (hw q r.lt u hu)]; exact r.ok c hc u hu

theorem q_reMut (hb : b < s.next) (hx : ∀ c ∈ cells, SB.box c = x) (h : Res s t b cells) :
    ∃ s', rules.reMut t cells s = some (s.next, s') ∧ Res s' s.next b cells ∧ Quiet s s' b x := by
  have hq := sprout_quiet (x := x) h.wf hb h.lt .reserved
  have hn : (sprout t .reserved s).up s.next = s.next :: s.up t := by simp [sprout]
  have hub : (sprout t .reserved s).up b = s.up b := hq.up b hb
  have h1 : Res (sprout t .reserved s) s.next b cells := by
    have ht := hq.res t cells h
    have hut : (sprout t .reserved s).up t = s.up t := hq.up t h.lt
    refine ⟨hq.wf, by simp [sprout], fun u hu => ?_, ht.good, fun c hc u hu hx => ?_⟩
    · rw [hn]; rw [hub] at hu; exact List.mem_cons_of_mem _ (h.sub u hu)
    · rw [hn] at hu
      rcases List.mem_cons.1 hu with rfl | hu
      · simp [sprout]
      · exact ht.res c hc u (by rw [hut]; exact hu) hx
  obtain ⟨s', e, q2, -⟩ := access_quiet (x := x) (show b < (sprout t .reserved s).next from Nat.lt_succ_of_lt hb) hx h1.rd
  exact ⟨s', by simp only [rules, if_pos h.lt]; rw [e]; rfl, q2.res _ _ h1, hq.trans q2⟩

theorem q_reShr (hb : b < s.next) (hx : ∀ c ∈ cells, SB.box c = x) (h : Rd s t b cells) :
    ∃ s', rules.reShr t cells s = some (s.next, s') ∧ Rd s' s.next b cells ∧ Quiet s s' b x := by
  have hq := sprout_quiet (x := x) h.wf hb h.lt .frozen
  have hn : (sprout t .frozen s).up s.next = s.next :: s.up t := by simp [sprout]
  have hub : (sprout t .frozen s).up b = s.up b := hq.up b hb
  have h1 : Rd (sprout t .frozen s) s.next b cells := by
    have ht := hq.rd t cells h
    have hut : (sprout t .frozen s).up t = s.up t := hq.up t h.lt
    refine ⟨hq.wf, by simp [sprout], fun u hu => ?_, fun c hc u hu => ?_⟩
    · rw [hn]; rw [hub] at hu; exact List.mem_cons_of_mem _ (h.sub u hu)
    · rw [hn] at hu
      rcases List.mem_cons.1 hu with rfl | hu
      · simp [sprout]
      · exact ht.ok c hc u (by rw [hut]; exact hu)
  obtain ⟨s', e, q2, -⟩ := access_quiet (x := x) (show b < (sprout t .frozen s).next from Nat.lt_succ_of_lt hb) hx h1
  exact ⟨s', by simp only [rules, if_pos h.lt]; rw [e]; rfl, q2.rd _ _ h1, hq.trans q2⟩

theorem q_read (hb : b < s.next) (hx : ∀ c ∈ cells, SB.box c = x) (h : Rd s t b cells) :
    ∃ s', rules.read t cells s = some ((), s') ∧ Quiet s s' b x := by
  obtain ⟨s', e, q, -⟩ := access_quiet hb hx h
  exact ⟨s', by simp only [rules]; rw [e]; rfl, q⟩

/-- A write through a pointer that comes from `b`; pointers are as they were at other cells. -/
theorem k_write (hb : b < s.next) (hx : ∀ c ∈ cells, SB.box c = x) (h : Res s t b cells) :
    ∃ s', rules.write t cells s = some ((), s') ∧ Kept s s' b x ∧
      (∀ p cs, Res s p b cs → (∀ c ∈ cs, c ∉ cells) → Res s' p b cs) := by
  obtain ⟨s', e, h1, h2, h3, h4, h5⟩ := access_eq (w := true) h.lt (fun c hc u hu => child_true.2 (h.gd c hc u hu))
  have hw : WF s' := by have := h.wf; unfold WF at this ⊢; rwa [h1, h2]
  refine ⟨s', by simp only [rules]; rw [e]; rfl, ⟨hb, by omega, fun _ _ => by rw [h1], fun u hu c hg => ?_, fun c hc u hu => ?_, hw⟩,
    fun p cs r hd => ⟨hw, by rw [h2]; exact r.lt, by rw [h1]; exact r.sub, fun c hc u hu => ?_, fun c hc u hu hn => ?_⟩⟩
  · by_cases hc : c ∈ cells
    · exact child_good (h4 u c hc (h.sub u hu)) hg
    · rw [h3 u c hc]; exact hg
  · exact h3 u c fun hm => hc (hx c hm)
  · rw [h3 u c (hd c hc)]; rw [h1] at hu; exact r.good c hc u hu
  · rw [h3 u c (hd c hc)]; rw [h1] at hu hn; exact r.res c hc u hu hn

/-! ### The calls -/

open SB (box_sub whole_slot span_mem span_whole head_mem)

theorem slots_whole : ∀ c ∈ slots x N, c ∈ whole x N := fun _ => slots_sub

theorem raw_run : rules.raw t cells s = some (t, s) := rfl

/-- `&mut self` and `&mut` of a part of it. -/
theorem tb_mut2 (h : Own s b (whole x N)) (hd : ∀ c ∈ ds, c ∈ whole x N) : ∃ a s1 p s2, rules.reMut b (whole x N) s = some (a, s1) ∧
    rules.reMut a ds s1 = some (p, s2) ∧ Res s2 a b (whole x N) ∧ Res s2 p b ds ∧ Quiet s s2 b x := by
  obtain ⟨s1, e1, r1, q1⟩ := q_reMut (x := x) h.lt (fun c hc => box_whole hc) h
  obtain ⟨s2, e2, r2, q2⟩ := q_reMut (x := x) (Nat.lt_of_lt_of_le h.lt q1.next) (box_sub hd) (r1.mono hd)
  exact ⟨_, s1, _, s2, e1, e2, q2.res _ _ r1, r2, q1.trans q2⟩
theorem tb_mutPtr (h : Own s b (whole x N)) : ∃ p s', mutPtr rules N x b s = some (p, s') ∧ Res s' p b (slots x N) ∧ Quiet s s' b x := by
  obtain ⟨a, s1, p, s2, e1, e2, -, r, q⟩ := tb_mut2 h (ds := slots x N) slots_whole
  exact ⟨p, s2, by simp only [mutPtr, P.bind_run, e1, e2, raw_run, Option.bind_some], r, q⟩
theorem tb_dataMut (h : Own s b (whole x N)) : ∃ p s', dataMut rules N x b s = some (p, s') ∧ Res s' p b (whole x N) ∧ Quiet s s' b x := by
  obtain ⟨a, s1, p, s2, e1, e2, -, r, q⟩ := tb_mut2 h (ds := whole x N) (fun c => id)
  exact ⟨p, s2, by simp only [dataMut, P.bind_run, e1, e2, raw_run, Option.bind_some], r, q⟩

/-- The same, shared, through any pointer from `b` which can be read through. -/
theorem tb_shr2 (hb : b < s.next) (h : Rd s t b (whole x N)) (hd : ∀ c ∈ ds, c ∈ whole x N) : ∃ a s1 p s2,
    rules.reShr t (whole x N) s = some (a, s1) ∧
    rules.reShr a ds s1 = some (p, s2) ∧ Rd s2 a b (whole x N) ∧ Rd s2 p b ds ∧ Quiet s s2 b x := by
  obtain ⟨s1, e1, r1, q1⟩ := q_reShr (x := x) hb (fun c hc => box_whole hc) h
  obtain ⟨s2, e2, r2, q2⟩ := q_reShr (x := x) (Nat.lt_of_lt_of_le hb q1.next) (box_sub hd) (r1.mono hd)
  exact ⟨_, s1, _, s2, e1, e2, q2.rd _ _ r1, r2, q1.trans q2⟩
theorem tb_ptr (h : Own s b (whole x N)) : ∃ p s', ptr rules N x b s = some (p, s') ∧ Rd s' p b (slots x N) ∧ Quiet s s' b x := by
  obtain ⟨a, s1, p, s2, e1, e2, -, r, q⟩ := tb_shr2 h.lt h.rd (ds := slots x N) slots_whole
  exact ⟨p, s2, by simp only [ptr, P.bind_run, e1, e2, Option.bind_some], r, q⟩
theorem tb_dataConst (hb : b < s.next) (h : Rd s t b (whole x N)) : ∃ p s', dataConst rules N x t s = some (p, s') ∧
    Rd s' p b (whole x N) ∧ Quiet s s' b x := by
  obtain ⟨a, s1, p, s2, e1, e2, -, r, q⟩ := tb_shr2 hb h (ds := whole x N) (fun c => id)
  exact ⟨p, s2, by simp only [dataConst, P.bind_run, e1, e2, Option.bind_some], r, q⟩
theorem tb_lenOf (hb : b < s.next) (h : Rd s t b (whole x N)) : ∃ s', lenOf rules N x t s = some ((), s') ∧ Quiet s s' b x := by
  obtain ⟨s1, e1, r1, q1⟩ := q_reShr (x := x) hb (fun c hc => box_whole hc) h
  obtain ⟨s2, e2, q2⟩ := q_read (x := x) (Nat.lt_of_lt_of_le hb q1.next) (box_sub (N := N) head_mem) (r1.mono head_mem)
  exact ⟨s2, by simp only [lenOf, P.bind_run, e1, e2, Option.bind_some], q1.trans q2⟩
theorem tb_readLen (hb : b < s.next) (h : Rd s t b (whole x N)) : ∃ s', readLen rules N x t s = some ((), s') ∧ Quiet s s' b x := by
  obtain ⟨p, s1, e1, r1, q1⟩ := tb_dataConst hb h
  obtain ⟨s2, e2, q2⟩ := q_read (x := x) (Nat.lt_of_lt_of_le hb q1.next) (box_sub (N := N) head_mem) (r1.mono head_mem)
  exact ⟨s2, by simp only [readLen, P.bind_run, e1, e2, Option.bind_some], q1.trans q2⟩
theorem tb_setLen (h : Own s b (whole x N)) : ∃ s', setLen rules N x b s = some ((), s') ∧ Kept s s' b x ∧
    (∀ p cs, Res s p b cs → (∀ c ∈ cs, c ≠ .head x) → Res s' p b cs) := by
  obtain ⟨p, s1, e1, r1, q1⟩ := tb_dataMut h
  have l1 := Nat.lt_of_lt_of_le h.lt q1.next
  obtain ⟨s2, e2, q2⟩ := q_read (x := x) l1 (box_sub (N := N) head_mem) (r1.rd.mono head_mem)
  obtain ⟨s3, e3, k3, g3⟩ := k_write (x := x) (Nat.lt_of_lt_of_le l1 q2.next) (box_sub (N := N) head_mem)
    ((q2.res _ _ r1).mono head_mem)
  exact ⟨s3, by simp only [setLen, P.bind_run, e1, e2, e3, Option.bind_some], (q1.trans q2).toKept.trans k3,
    fun p cs r hn => g3 p cs ((q1.trans q2).res p cs r) (by simpa using hn)⟩

/-- `&mut` to an item through a pointer, read and written. -/
theorem tb_item {i : Nat} (hb : b < s.next) (hi : Cell.slot x i ∈ cs) (r : Res s p b cs) : ∃ s',
    (do let r ← rules.reMut p [.slot x i]
        rules.read r [.slot x i]
        rules.write r [.slot x i] : P TB Unit) s = some ((), s') ∧ Kept s s' b x := by
  obtain ⟨s1, e1, r1, q1⟩ := q_reMut (x := x) (cells := [.slot x i]) hb (by simp [SB.box]) (r.mono (by simpa using hi))
  have l1 := Nat.lt_of_lt_of_le hb q1.next
  obtain ⟨s2, e2, q2⟩ := q_read (x := x) (cells := [.slot x i]) l1 (by simp [SB.box]) r1.rd
  obtain ⟨s3, e3, k3, -⟩ := k_write (x := x) (cells := [.slot x i]) (Nat.lt_of_lt_of_le l1 q2.next) (by simp [SB.box]) (q2.res _ _ r1)
  exact ⟨s3, by simp only [P.bind_run, e1, e2, e3, Option.bind_some], (q1.trans q2).toKept.trans k3⟩
/-- A shared reference to an item through a pointer, and a read. -/
theorem tb_itemShr {i : Nat} (hb : b < s.next) (hi : Cell.slot x i ∈ cs) (r : Rd s p b cs) : ∃ s',
    (do let r ← rules.reShr p [.slot x i]
        rules.read r [.slot x i] : P TB Unit) s = some ((), s') ∧ Quiet s s' b x := by
  obtain ⟨s1, e1, r1, q1⟩ := q_reShr (x := x) (cells := [.slot x i]) hb (by simp [SB.box]) (r.mono (by simpa using hi))
  obtain ⟨s2, e2, q2⟩ := q_read (x := x) (cells := [.slot x i]) (Nat.lt_of_lt_of_le hb q1.next) (by simp [SB.box]) r1
  exact ⟨s2, by simp only [P.bind_run, e1, e2, Option.bind_some], q1.trans q2⟩

/-- Nothing is taken from anybody. -/
structure Fair (N : Nat) (b : Nat → Nat) (s s' : TB) : Prop where
  own : ∀ y, Own s (b y) (whole y N) → Own s' (b y) (whole y N)
theorem Fair.refl {b : Nat → Nat} : Fair N b s s := ⟨fun _ h => h⟩
theorem Fair.trans {b : Nat → Nat} {s''} (h : Fair N b s s') (k : Fair N b s' s'') : Fair N b s s'' :=
  ⟨fun y h' => k.own y (h.own y h')⟩
theorem Kept.fair {b : Nat → Nat} (h : Kept s s' (b x) x) : Fair N b s s' :=
  ⟨fun y hy => by
    by_cases hh : y = x
    · subst hh; exact h.res hy
    · exact h.other hy hy.lt fun c hc => by rw [box_whole hc]; exact hh⟩

/-- Reading one piece of a container and writing another through `p`. -/
theorem tb_move {i j n : Nat} (hb : b < s.next) (h1 : i + n ≤ N) (h2 : j + n ≤ N) (r : Res s p b (slots x N)) : ∃ s1 s2,
    rules.read p (span x i n) s = some ((), s1) ∧ rules.write p (span x j n) s1 = some ((), s2) ∧ Kept s s2 b x ∧
      (∀ q cs, Res s q b cs → (∀ c ∈ cs, c ∉ span x j n) → Res s2 q b cs) := by
  obtain ⟨s1, e1, q1⟩ := q_read (x := x) hb (box_sub (span_whole h1)) (r.rd.mono fun c hc => span_sub h1 hc)
  obtain ⟨s2, e2, k2, g2⟩ := k_write (x := x) (Nat.lt_of_lt_of_le hb q1.next) (box_sub (span_whole h2))
    ((q1.res _ _ r).mono fun c hc => span_sub h2 hc)
  exact ⟨s1, s2, e1, e2, q1.toKept.trans k2, fun q cs h hn => g2 q cs (q1.res _ _ h) hn⟩

/-- Reading from one container, writing to another. -/
theorem tb_across {i j n : Nat} {b2 : Nat} (hxy : x ≠ y) (hb : b < s.next) (hb2 : b2 < s.next) (h1 : i + n ≤ N) (h2 : j + n ≤ N)
    (r : Rd s p b (slots x N)) (r2 : Res s q b2 (slots y N)) : ∃ s1 s2,
    rules.read p (span x i n) s = some ((), s1) ∧ rules.write q (span y j n) s1 = some ((), s2) ∧ Kept s s1 b x ∧
      Kept s1 s2 b2 y := by
  obtain ⟨s1, e1, q1⟩ := q_read (x := x) hb (box_sub (span_whole h1)) (r.mono fun c hc => span_sub h1 hc)
  have r3 := q1.toKept.other (r2.mono (ds := span y j n) fun c hc => span_sub h2 hc) hb2
    (fun c hc => by rw [box_sub (span_whole h2) c hc]; exact Ne.symm hxy)
  obtain ⟨s2, e2, k2, g2⟩ := k_write (x := y) (Nat.lt_of_lt_of_le hb2 q1.next) (box_sub (span_whole h2)) r3
  exact ⟨s1, s2, e1, e2, q1.toKept, k2⟩

/-- Every call is accepted. -/
theorem call_ok (b : Nat → Nat) (c : Call) (hr : c.InRange N) (ho : ∀ x ∈ c.boxes, Own s (b x) (whole x N)) :
    ∃ s', c.run rules N b s = some ((), s') ∧ Fair N b s s' := by
  cases c with
  | field x w =>
    have h : Own s (b x) (whole x N) := ho x (by simp [Call.boxes])
    cases w
    · obtain ⟨s', e, q⟩ := q_read (x := x) h.lt (box_sub (N := N) head_mem) (h.rd.mono head_mem)
      exact ⟨s', by simpa [Call.run] using e, q.fair⟩
    · obtain ⟨s', e, k, -⟩ := k_write (x := x) h.lt (box_sub (N := N) head_mem) (h.mono head_mem)
      exact ⟨s', by simpa [Call.run] using e, k.fair⟩
  | len x =>
    have h : Own s (b x) (whole x N) := ho x (by simp [Call.boxes])
    obtain ⟨s', e, q⟩ := tb_lenOf h.lt h.rd
    exact ⟨s', e, q.fair⟩
  | readAt x i =>
    have h : Own s (b x) (whole x N) := ho x (by simp [Call.boxes])
    obtain ⟨p, s1, e1, r1, q1⟩ := tb_ptr h
    obtain ⟨s2, e2, q2⟩ := q_read (x := x) (Nat.lt_of_lt_of_le h.lt q1.next) (box_sub (whole_slot hr)) (r1.mono (slot_mem hr))
    exact ⟨s2, by simp only [Call.run, P.bind_run, e1, e2, Option.bind_some], (q1.trans q2).fair⟩
  | writeAt x i =>
    have h : Own s (b x) (whole x N) := ho x (by simp [Call.boxes])
    obtain ⟨p, s1, e1, r1, q1⟩ := tb_mutPtr h
    obtain ⟨s2, e2, k2, -⟩ := k_write (x := x) (Nat.lt_of_lt_of_le h.lt q1.next) (box_sub (whole_slot hr)) (r1.mono (slot_mem hr))
    exact ⟨s2, by simp only [Call.run, P.bind_run, e1, e2, Option.bind_some], (q1.toKept.trans k2).fair⟩
  | dropAt x i =>
    have h : Own s (b x) (whole x N) := ho x (by simp [Call.boxes])
    obtain ⟨p, s1, e1, r1, q1⟩ := tb_mutPtr h
    obtain ⟨s2, e2, k2⟩ := tb_item (x := x) (i := i) (Nat.lt_of_lt_of_le h.lt q1.next) (slot_mem hr _ (by simp)) r1
    exact ⟨s2, by rw [Call.run, P.bind_run, e1, Option.bind_some, e2], (q1.toKept.trans k2).fair⟩
  | getMut x i =>
    have h : Own s (b x) (whole x N) := ho x (by simp [Call.boxes])
    obtain ⟨p, s1, e1, r1, q1⟩ := tb_mutPtr h
    obtain ⟨s2, e2, k2⟩ := tb_item (x := x) (i := i) (Nat.lt_of_lt_of_le h.lt q1.next) (slot_mem hr _ (by simp)) r1
    exact ⟨s2, by rw [Call.run, P.bind_run, e1, Option.bind_some, e2], (q1.toKept.trans k2).fair⟩
  | getRef x i =>
    have h : Own s (b x) (whole x N) := ho x (by simp [Call.boxes])
    obtain ⟨p, s1, e1, r1, q1⟩ := tb_ptr h
    obtain ⟨s2, e2, q2⟩ := tb_itemShr (x := x) (i := i) (Nat.lt_of_lt_of_le h.lt q1.next) (slot_mem hr _ (by simp)) r1
    exact ⟨s2, by rw [Call.run, P.bind_run, e1, Option.bind_some, e2], (q1.trans q2).fair⟩
  | copyWithin x frm to count =>
    have h : Own s (b x) (whole x N) := ho x (by simp [Call.boxes])
    obtain ⟨h1, h2⟩ := hr
    by_cases h0 : count > 0
    · obtain ⟨p, s1, e1, r1, q1⟩ := tb_ptr h
      have l1 := Nat.lt_of_lt_of_le h.lt q1.next
      obtain ⟨q, s2, e2, r2, q2⟩ := tb_mutPtr (q1.res _ _ h)
      have l2 := Nat.lt_of_lt_of_le l1 q2.next
      obtain ⟨s3, e3, q3⟩ := q_read (x := x) l2 (box_sub (span_whole h1)) ((q2.rd _ _ r1).mono fun c hc => span_sub h1 hc)
      obtain ⟨s4, e4, k4, -⟩ := k_write (x := x) (Nat.lt_of_lt_of_le l2 q3.next) (box_sub (span_whole h2))
        ((q3.res _ _ r2).mono fun c hc => span_sub h2 hc)
      exact ⟨s4, by simp only [Call.run, if_pos h0, P.bind_run, e1, e2, e3, e4, Option.bind_some],
        (((q1.trans q2).trans q3).toKept.trans k4).fair⟩
    · exact ⟨s, by simp only [Call.run, if_neg h0]; rfl, .refl⟩
  | copyTo x y frm to count =>
    have h : Own s (b x) (whole x N) := ho x (by simp [Call.boxes])
    have h' : Own s (b y) (whole y N) := ho y (by simp [Call.boxes])
    obtain ⟨hxy, h1, h2⟩ := hr
    by_cases h0 : count > 0
    · obtain ⟨p, s1, e1, r1, q1⟩ := tb_ptr h
      have l1 := Nat.lt_of_lt_of_le h.lt q1.next
      have hy := q1.toKept.other h' h'.lt (fun c hc => by rw [box_whole hc]; exact Ne.symm hxy)
      obtain ⟨q, s2, e2, r2, q2⟩ := tb_mutPtr hy
      have hp := q2.toKept.other_rd r1 l1 (fun c hc => by rw [box_whole (slots_sub hc)]; exact hxy)
      obtain ⟨s3, s4, e3, e4, k3, k4⟩ := tb_across hxy (Nat.lt_of_lt_of_le l1 q2.next) (Nat.lt_of_lt_of_le hy.lt q2.next) h1 h2 hp r2
      exact ⟨s4, by simp only [Call.run, if_pos h0, P.bind_run, e1, e2, e3, e4, Option.bind_some],
        q1.fair.trans (q2.fair.trans (k3.fair.trans k4.fair))⟩
    · exact ⟨s, by simp only [Call.run, if_neg h0]; rfl, .refl⟩
  | ringCopy x y frm to count =>
    have h : Own s (b x) (whole x N) := ho x (by simp [Call.boxes])
    have h' : Own s (b y) (whole y N) := ho y (by simp [Call.boxes])
    obtain ⟨hxy, h1, h2⟩ := hr
    by_cases h0 : count > 0
    · obtain ⟨p, s1, e1, r1, q1⟩ := tb_mutPtr h
      have l1 := Nat.lt_of_lt_of_le h.lt q1.next
      have hy := q1.toKept.other h' h'.lt (fun c hc => by rw [box_whole hc]; exact Ne.symm hxy)
      obtain ⟨q, s2, e2, r2, q2⟩ := tb_mutPtr hy
      have hp := q2.toKept.other_rd r1.rd l1 (fun c hc => by rw [box_whole (slots_sub hc)]; exact hxy)
      obtain ⟨s3, s4, e3, e4, k3, k4⟩ := tb_across hxy (Nat.lt_of_lt_of_le l1 q2.next) (Nat.lt_of_lt_of_le hy.lt q2.next) h1 h2 hp r2
      exact ⟨s4, by simp only [Call.run, if_pos h0, P.bind_run, e1, e2, e3, e4, Option.bind_some],
        q1.fair.trans (q2.fair.trans (k3.fair.trans k4.fair))⟩
    · exact ⟨s, by simp only [Call.run, if_neg h0]; rfl, .refl⟩
  | slice x lo n i =>
    have h : Own s (b x) (whole x N) := ho x (by simp [Call.boxes])
    obtain ⟨h1, h2, h3⟩ := hr
    obtain ⟨a, s1, d, s2, e1, e2, ra, rd, q2⟩ := tb_shr2 h.lt h.rd (ds := slots x N) slots_whole
    have l2 := Nat.lt_of_lt_of_le h.lt q2.next
    obtain ⟨s3, e3, q3⟩ := q_read (x := x) l2 (box_sub (N := N) head_mem) (ra.mono head_mem)
    have l3 := Nat.lt_of_lt_of_le l2 q3.next
    obtain ⟨s4, e4, q4⟩ := tb_lenOf l3 (q3.rd _ _ ra)
    have l4 := Nat.lt_of_lt_of_le l3 q4.next
    obtain ⟨s5, e5, r5, q5⟩ := q_reShr (x := x) l4 (box_sub (span_whole h3)) ((q4.rd _ _ (q3.rd _ _ rd)).mono fun c hc => span_sub h3 hc)
    obtain ⟨s6, e6, q6⟩ := q_read (x := x) (cells := [.slot x i]) (Nat.lt_of_lt_of_le l4 q5.next) (by simp [SB.box])
      (r5.mono (span_mem h1 h2))
    exact ⟨s6, by simp only [Call.run, P.bind_run, e1, e2, e3, e4, e5, e6, Option.bind_some],
      ((((q2.trans q3).trans q4).trans q5).trans q6).fair⟩
  | sliceMut x lo n i =>
    have h : Own s (b x) (whole x N) := ho x (by simp [Call.boxes])
    obtain ⟨h1, h2, h3⟩ := hr
    obtain ⟨a, s1, d, s2, e1, e2, ra, rd, q2⟩ := tb_mut2 h (ds := slots x N) slots_whole
    have l2 := Nat.lt_of_lt_of_le h.lt q2.next
    obtain ⟨s3, e3, q3⟩ := q_read (x := x) l2 (box_sub (N := N) head_mem) (ra.rd.mono head_mem)
    have l3 := Nat.lt_of_lt_of_le l2 q3.next
    obtain ⟨s4, e4, q4⟩ := tb_lenOf l3 (q3.rd _ _ ra.rd)
    have l4 := Nat.lt_of_lt_of_le l3 q4.next
    obtain ⟨s5, e5, r5, q5⟩ := q_reMut (x := x) l4 (box_sub (span_whole h3)) ((q4.res _ _ (q3.res _ _ rd)).mono fun c hc => span_sub h3 hc)
    have l5 := Nat.lt_of_lt_of_le l4 q5.next
    obtain ⟨s6, e6, q6⟩ := q_read (x := x) (cells := [.slot x i]) l5 (by simp [SB.box]) (r5.rd.mono (span_mem h1 h2))
    obtain ⟨s7, e7, k7, -⟩ := k_write (x := x) (cells := [.slot x i]) (Nat.lt_of_lt_of_le l5 q6.next) (by simp [SB.box])
      ((q6.res _ _ r5).mono (span_mem h1 h2))
    exact ⟨s7, by simp only [Call.run, P.bind_run, e1, e2, raw_run, e3, e4, e5, e6, e7, Option.bind_some],
      (((((q2.trans q3).trans q4).trans q5).trans q6).toKept.trans k7).fair⟩
  | values x i =>
    have h : Own s (b x) (whole x N) := ho x (by simp [Call.boxes])
    obtain ⟨a, s1, d, s2, e1, e2, ra, rd, q2⟩ := tb_shr2 h.lt h.rd (ds := slots x N) slots_whole
    have l2 := Nat.lt_of_lt_of_le h.lt q2.next
    obtain ⟨s3, e3, r3, q3⟩ := q_reShr (x := x) l2 (box_sub slots_whole) rd
    obtain ⟨s4, e4, q4⟩ := tb_itemShr (x := x) (i := i) (Nat.lt_of_lt_of_le l2 q3.next) (slot_mem hr _ (by simp)) r3
    exact ⟨s4, by rw [Call.run, P.bind_run, e1, Option.bind_some, P.bind_run, e2, Option.bind_some, P.bind_run, e3, Option.bind_some, e4],
      ((q2.trans q3).trans q4).fair⟩
  | valuesMut x i =>
    have h : Own s (b x) (whole x N) := ho x (by simp [Call.boxes])
    obtain ⟨a, s1, d, s2, e1, e2, ra, rd, q2⟩ := tb_mut2 h (ds := slots x N) slots_whole
    have l2 := Nat.lt_of_lt_of_le h.lt q2.next
    obtain ⟨s3, e3, r3, q3⟩ := q_reMut (x := x) l2 (box_sub slots_whole) rd
    obtain ⟨s4, e4, k4⟩ := tb_item (x := x) (i := i) (Nat.lt_of_lt_of_le l2 q3.next) (slot_mem hr _ (by simp)) r3
    exact ⟨s4, by rw [Call.run, P.bind_run, e1, Option.bind_some, P.bind_run, e2, Option.bind_some, P.bind_run, raw_run, Option.bind_some,
      P.bind_run, e3, Option.bind_some, e4], ((q2.trans q3).toKept.trans k4).fair⟩
  | inlineLen x =>
    have h : Own s (b x) (whole x N) := ho x (by simp [Call.boxes])
    obtain ⟨s', e, q⟩ := tb_readLen h.lt h.rd
    exact ⟨s', e, q.fair⟩
  | inlineSetLen x =>
    obtain ⟨s', e, k, -⟩ := tb_setLen (ho x (by simp [Call.boxes]))
    exact ⟨s', e, k.fair⟩
  | inlineRead x i =>
    have h : Own s (b x) (whole x N) := ho x (by simp [Call.boxes])
    obtain ⟨p, s1, e1, r1, q1⟩ := tb_dataConst h.lt h.rd
    obtain ⟨s2, e2, q2⟩ := q_read (x := x) (Nat.lt_of_lt_of_le h.lt q1.next) (box_sub (whole_slot hr)) (r1.mono (whole_slot hr))
    exact ⟨s2, by simp only [Call.run, P.bind_run, e1, e2, Option.bind_some], (q1.trans q2).fair⟩
  | inlineWrite x i =>
    have h : Own s (b x) (whole x N) := ho x (by simp [Call.boxes])
    obtain ⟨p, s1, e1, r1, q1⟩ := tb_dataMut h
    obtain ⟨s2, e2, k2, -⟩ := k_write (x := x) (Nat.lt_of_lt_of_le h.lt q1.next) (box_sub (whole_slot hr)) (r1.mono (whole_slot hr))
    exact ⟨s2, by simp only [Call.run, P.bind_run, e1, e2, Option.bind_some], (q1.toKept.trans k2).fair⟩
  | inlineInsert x i n =>
    have h : Own s (b x) (whole x N) := ho x (by simp [Call.boxes])
    obtain ⟨h1, h2⟩ := hr
    obtain ⟨p, s1, e1, r1, q1⟩ := tb_dataMut h
    have l1 := Nat.lt_of_lt_of_le h.lt q1.next
    obtain ⟨s2, e2, q2⟩ := tb_readLen l1 (q1.res _ _ h).rd
    have l2 := Nat.lt_of_lt_of_le l1 q2.next
    have r2 := (q2.res _ _ r1).mono slots_whole
    obtain ⟨s3, s4, e3, e4, k4, g4⟩ := tb_move (i := i) (j := i + 1) (n := n - i) l2 (by omega) (by omega) r2
    have l4 := Nat.lt_of_lt_of_le l2 k4.next
    obtain ⟨s5, e5, k5, -⟩ := k_write (x := x) (cells := [.slot x i]) l4 (by simp [SB.box])
      (g4 p [.slot x i] (r2.mono (slot_mem (by omega))) (by simp; omega))
    have k := ((q1.trans q2).toKept.trans k4).trans k5
    obtain ⟨s6, e6, k6, -⟩ := tb_setLen (k.res h)
    exact ⟨s6, by simp only [Call.run, P.bind_run, e1, e2, e3, e4, e5, e6, Option.bind_some], (k.trans k6).fair⟩
  | inlineRemove x i n =>
    have h : Own s (b x) (whole x N) := ho x (by simp [Call.boxes])
    obtain ⟨h1, h2⟩ := hr
    obtain ⟨p, s1, e1, r1, q1⟩ := tb_dataMut h
    have l1 := Nat.lt_of_lt_of_le h.lt q1.next
    have hi : i < N := by omega
    obtain ⟨s2, e2, q2⟩ := q_read (x := x) l1 (box_sub (whole_slot hi)) (r1.rd.mono (whole_slot hi))
    obtain ⟨s3, e3, k3, g3⟩ := tb_setLen (q2.res _ _ (q1.res _ _ h))
    have r3 := g3 p (slots x N) ((q2.res _ _ r1).mono slots_whole) (fun c hc e => by simp [e] at hc)
    have o3 := k3.res (q2.res _ _ (q1.res _ _ h))
    obtain ⟨s4, e4, q4⟩ := tb_readLen o3.lt o3.rd
    obtain ⟨s5, s6, e5, e6, k6, -⟩ := tb_move (i := i + 1) (j := i) (n := n - 1 - i) (q4.res _ _ o3).lt (by omega) (by omega) (q4.res _ _ r3)
    exact ⟨s6, by simp only [Call.run, P.bind_run, e1, e2, e3, e4, e5, e6, Option.bind_some],
      ((((q1.trans q2).toKept.trans k3).trans q4.toKept).trans k6).fair⟩
  | inlineCopy x y frm count =>
    have h : Own s (b x) (whole x N) := ho x (by simp [Call.boxes])
    have h' : Own s (b y) (whole y N) := ho y (by simp [Call.boxes])
    obtain ⟨hxy, h1⟩ := hr
    obtain ⟨p, s1, e1, r1, q1⟩ := tb_dataConst h.lt h.rd
    have l1 := Nat.lt_of_lt_of_le h.lt q1.next
    have hy := q1.toKept.other h' h'.lt (fun c hc => by rw [box_whole hc]; exact Ne.symm hxy)
    obtain ⟨q, s2, e2, r2, q2⟩ := tb_dataMut hy
    have o2 := q2.toKept.other (q1.res _ _ h) l1 (fun c hc => by rw [box_whole hc]; exact hxy)
    have hp := q2.toKept.other_rd r1 l1 (fun c hc => by rw [box_whole hc]; exact hxy)
    obtain ⟨s3, e3, q3⟩ := tb_readLen o2.lt o2.rd
    have ly := Nat.lt_of_lt_of_le hy.lt q2.next
    have r3 := q3.toKept.other r2 ly (fun c hc => by rw [box_whole hc]; exact Ne.symm hxy)
    obtain ⟨s4, s5, e4, e5, k4, k5⟩ := tb_across (i := frm) (j := 0) hxy (Nat.lt_of_lt_of_le o2.lt q3.next) (Nat.lt_of_lt_of_le ly q3.next) h1 (by omega)
      ((q3.rd _ _ hp).mono slots_whole) (r3.mono slots_whole)
    exact ⟨s5, by simp only [Call.run, P.bind_run, e1, e2, e3, e4, e5, Option.bind_some],
      q1.fair.trans (q2.fair.trans (q3.fair.trans (k4.fair.trans k5.fair)))⟩
  | inlineDeref x n i =>
    have h : Own s (b x) (whole x N) := ho x (by simp [Call.boxes])
    obtain ⟨h1, h2⟩ := hr
    have m1 := span_whole (x := x) (N := N) (lo := 0) (n := n) (by omega)
    have m2 := span_mem (x := x) (lo := 0) (n := n) (i := i) (by omega) (by omega)
    obtain ⟨a, s1, d, s2, e1, e2, ra, rd, q2⟩ := tb_shr2 h.lt h.rd (ds := whole x N) (fun c => id)
    have l2 := Nat.lt_of_lt_of_le h.lt q2.next
    obtain ⟨s3, e3, q3⟩ := tb_readLen l2 ra
    have l3 := Nat.lt_of_lt_of_le l2 q3.next
    obtain ⟨s4, e4, r4, q4⟩ := q_reShr (x := x) l3 (box_sub m1) ((q3.rd _ _ rd).mono m1)
    obtain ⟨s5, e5, q5⟩ := q_read (x := x) (cells := [.slot x i]) (Nat.lt_of_lt_of_le l3 q4.next) (by simp [SB.box]) (r4.mono m2)
    exact ⟨s5, by simp only [Call.run, P.bind_run, e1, e2, e3, e4, e5, Option.bind_some], (((q2.trans q3).trans q4).trans q5).fair⟩
  | inlineDerefMut x n i =>
    have h : Own s (b x) (whole x N) := ho x (by simp [Call.boxes])
    obtain ⟨h1, h2⟩ := hr
    have m1 := span_whole (x := x) (N := N) (lo := 0) (n := n) (by omega)
    have m2 := span_mem (x := x) (lo := 0) (n := n) (i := i) (by omega) (by omega)
    obtain ⟨a, s1, d, s2, e1, e2, ra, rd, q2⟩ := tb_mut2 h (ds := whole x N) (fun c => id)
    have l2 := Nat.lt_of_lt_of_le h.lt q2.next
    obtain ⟨s3, e3, q3⟩ := tb_readLen l2 ra.rd
    have l3 := Nat.lt_of_lt_of_le l2 q3.next
    obtain ⟨s4, e4, r4, q4⟩ := q_reMut (x := x) l3 (box_sub m1) ((q3.res _ _ rd).mono m1)
    have l4 := Nat.lt_of_lt_of_le l3 q4.next
    obtain ⟨s5, e5, q5⟩ := q_read (x := x) (cells := [.slot x i]) l4 (by simp [SB.box]) (r4.rd.mono m2)
    obtain ⟨s6, e6, k6, -⟩ := k_write (x := x) (cells := [.slot x i]) (Nat.lt_of_lt_of_le l4 q5.next) (by simp [SB.box])
      ((q5.res _ _ r4).mono m2)
    exact ⟨s6, by simp only [Call.run, P.bind_run, e1, e2, raw_run, e3, e4, e5, e6, Option.bind_some],
      ((((q2.trans q3).trans q4).trans q5).toKept.trans k6).fair⟩

end TB
end Verif.Alias
