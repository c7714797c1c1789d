import Verif.Props.AliasStacked
/-
Every pointer operation of the four containers under Stacked Borrows.
-/
namespace Verif.Alias
open Verif
open Stack (Wr canRead canWrite)
namespace SB
variable {s s' : SB} {t b p q a : Nat} {cells cs ds : List Cell} {x y N : Nat}

theorem box_sub (hd : ∀ c ∈ ds, c ∈ whole x N) : ∀ c ∈ ds, box c = x := fun c hc => box_whole (hd c hc)

/-- `&mut self`, `&mut` of a part of it, and its cast to a raw pointer. -/
theorem chain (h : Own s b (whole x N)) (hd : ∀ c ∈ ds, c ∈ whole x N) : ∃ s1 s2 s3,
    rules.reMut b (whole x N) s = some (s.next, s1) ∧ rules.reMut s.next ds s1 = some (s1.next, s2) ∧
    rules.raw s1.next ds s2 = some (s2.next, s3) ∧ RWOver s3 s2.next s.next b ds ∧
    (∀ c ∈ whole x N, c ∉ ds → MTop s3 s.next b [c]) ∧ Kept s s3 b x := by
  obtain ⟨s1, e1, t1, f1, k1, n1⟩ := own_reMut (x := x) (fun c hc => box_whole hc) h
  obtain ⟨s2, e2, hn2, hf2, hs2, w2⟩ := reMut_eq (s := s1) (t := s.next) (cells := ds) (fun c hc => by
    obtain ⟨i, r, e, hi, -⟩ := t1 c (hd c hc)
    rw [e]; exact Stack.wr_top hi)
  have g2 : ∀ c ∈ ds, ∃ i r, s2.stacks c = ⟨.unique, s1.next⟩ :: i :: r ∧ canWrite s.next i = true ∧ Wr b r := fun c hc => by
    obtain ⟨r, hr, e⟩ := hs2 c hc
    obtain ⟨i, r', e3, hi, hb⟩ := t1 c (hd c hc)
    rw [e3, Stack.write, if_pos hi] at hr
    cases hr
    exact ⟨i, r', e, hi, hb⟩
  have m2 : MTop s2 s1.next b ds := fun c hc => by
    obtain ⟨i, r, e, -, hb⟩ := g2 c hc
    exact ⟨_, _, e, by simp [canWrite], Stack.wr_cons i hb⟩
  have k2 : Kept s1 s2 b x := kept_of (box_sub hd) (by omega) hf2 m2.shr.own w2
  obtain ⟨s3, e3, hn3, hf3, hs3, w3⟩ := raw_eq (s := s2) (t := s1.next) (cells := ds) (fun c hc => by
    obtain ⟨i, r, e, -, -⟩ := g2 c hc
    exact ⟨_, by rw [e, Stack.pushRaw, if_pos (by simp [canWrite])]⟩)
  have g3 : ∀ c ∈ ds, ∃ i r, s3.stacks c = ⟨.sharedRW, s2.next⟩ :: ⟨.unique, s1.next⟩ :: i :: r ∧ canWrite s.next i = true ∧ Wr b r :=
    fun c hc => by
      obtain ⟨i, r, e, hi, hb⟩ := g2 c hc
      have := hs3 c hc
      rw [e, Stack.pushRaw, if_pos (by simp [canWrite])] at this
      exact ⟨i, r, (Option.some.inj this).symm, hi, hb⟩
  have r3 : RWOver s3 s2.next s.next b ds := fun c hc => by
    obtain ⟨i, r, e, hi, hb⟩ := g3 c hc
    exact ⟨[], [⟨.unique, s1.next⟩, i], r, e, by simp, ⟨i, by simp, Stack.canRead_of_write hi⟩, hb⟩
  refine ⟨s1, s2, s3, e1, e2, e3, r3, fun c hc hn => ?_, (k1.trans k2).trans (kept_of (box_sub hd) (by omega) hf3 r3.rw.own w3)⟩
  exact (t1.mono (by simpa using hc)).frame (by simp [hf2 c hn, hf3 c hn])

theorem sb_mutPtr (h : Own s b (whole x N)) : ∃ p s', mutPtr rules N x b s = some (p, s') ∧ RWIn s' p b (slots x N) ∧ Kept s s' b x := by
  obtain ⟨s1, s2, s3, e1, e2, e3, r3, -, k⟩ := chain h (ds := slots x N) (fun c => slots_sub)
  exact ⟨_, s3, by simp only [mutPtr, P.bind_run, e1, e2, e3, Option.bind_some], r3.rw, k⟩
theorem sb_dataMut (h : Own s b (whole x N)) : ∃ p s', dataMut rules N x b s = some (p, s') ∧ RWIn s' p b (whole x N) ∧ Kept s s' b x := by
  obtain ⟨s1, s2, s3, e1, e2, e3, r3, -, k⟩ := chain h (ds := whole x N) (fun c => id)
  exact ⟨_, s3, by simp only [dataMut, P.bind_run, e1, e2, e3, Option.bind_some], r3.rw, k⟩

theorem sb_shr2 (h : Own s b (whole x N)) (hd : ∀ c ∈ ds, c ∈ whole x N) : ∃ a s1 p s2, rules.reShr b (whole x N) s = some (a, s1) ∧
    rules.reShr a ds s1 = some (p, s2) ∧ ROIn s2 a b (whole x N) ∧ ROIn s2 p b ds ∧ (∀ q cs, ROIn s q b cs → ROIn s2 q b cs) ∧
    Kept s s2 b x := by
  obtain ⟨s1, e1, r1, q1, k1⟩ := ro_own (x := x) (fun c hc => box_whole hc) h
  obtain ⟨s2, e2, r2, q2, k2⟩ := ro_reShr (x := x) (box_sub hd) (r1.mono hd)
  exact ⟨_, s1, _, s2, e1, e2, q2 _ _ r1, r2, fun q cs hq => q2 q cs (q1 q cs hq), k1.trans k2⟩

theorem sb_ptr (h : Own s b (whole x N)) : ∃ p s', ptr rules N x b s = some (p, s') ∧ ROIn s' p b (slots x N) ∧
    (∀ q cs, ROIn s q b cs → ROIn s' q b cs) ∧ Kept s s' b x := by
  obtain ⟨a, s1, p, s2, e1, e2, -, r, q, k⟩ := sb_shr2 h (ds := slots x N) (fun c => slots_sub)
  exact ⟨p, s2, by simp only [ptr, P.bind_run, e1, e2, Option.bind_some], r, q, k⟩
theorem sb_dataConst (h : Own s b (whole x N)) : ∃ p s', dataConst rules N x b s = some (p, s') ∧ ROIn s' p b (whole x N) ∧
    (∀ q cs, ROIn s q b cs → ROIn s' q b cs) ∧ Kept s s' b x := by
  obtain ⟨a, s1, p, s2, e1, e2, -, r, q, k⟩ := sb_shr2 h (ds := whole x N) (fun c => id)
  exact ⟨p, s2, by simp only [dataConst, P.bind_run, e1, e2, Option.bind_some], r, q, k⟩

theorem head_mem : ∀ c ∈ [Cell.head x], c ∈ whole x N := by simp

theorem sb_lenOf (h : Own s b (whole x N)) : ∃ s', lenOf rules N x b s = some ((), s') ∧ Kept s s' b x := by
  obtain ⟨s1, e1, r1, -, k1⟩ := ro_own (x := x) (fun c hc => box_whole hc) h
  exact ⟨s1, by simp only [lenOf, P.bind_run, e1, Option.bind_some, ro_read (r1.mono head_mem)], k1⟩
theorem sb_readLen (h : Own s b (whole x N)) : ∃ s', readLen rules N x b s = some ((), s') ∧
    (∀ q cs, ROIn s q b cs → ROIn s' q b cs) ∧ Kept s s' b x := by
  obtain ⟨p, s1, e1, r1, q, k1⟩ := sb_dataConst h
  exact ⟨s1, by simp only [readLen, P.bind_run, e1, Option.bind_some, ro_read (r1.mono head_mem)], q, k1⟩
theorem sb_setLen (h : Own s b (whole x N)) : ∃ s', setLen rules N x b s = some ((), s') ∧ Kept s s' b x := by
  obtain ⟨p, s1, e1, r1, k1⟩ := sb_dataMut h
  obtain ⟨s2, e2, t2, f2, k2⟩ := rw_write (x := x) (box_sub (head_mem (N := N))) (r1.mono head_mem)
  exact ⟨s2, by simp only [setLen, P.bind_run, e1, e2, Option.bind_some, rw_read (r1.mono head_mem)], k1.trans k2⟩

theorem whole_slot {i : Nat} (h : i < N) : ∀ c ∈ [Cell.slot x i], c ∈ whole x N := by simp [h]
theorem span_mem {lo n i : Nat} (h1 : lo ≤ i) (h2 : i < lo + n) : ∀ c ∈ [Cell.slot x i], c ∈ span x lo n := by simp [h1, h2]
theorem span_whole {lo n : Nat} (hn : lo + n ≤ N) : ∀ c ∈ span x lo n, c ∈ whole x N := fun c hc => slots_sub (span_sub hn hc)

/-- `&mut` to an item through a raw pointer, read and written. -/
theorem sb_item {i : Nat} (hi : i < N) (r : RWIn s p b (slots x N)) : ∃ s',
    (do let r ← rules.reMut p [.slot x i]
        rules.read r [.slot x i]
        rules.write r [.slot x i] : P SB Unit) s = some ((), s') ∧ Kept s s' b x := by
  obtain ⟨s1, e1, t1, -, k1⟩ := rw_reMut (x := x) (box_sub (whole_slot hi)) (r.mono (slot_mem hi))
  exact ⟨s1, by simp only [P.bind_run, e1, Option.bind_some, top_read t1.shr, top_write t1], k1⟩

/-- A shared reborrow of a pointer which may already read the cells as they are. -/
theorem push_reShr (hx : ∀ c ∈ cells, box c = x) (h : STop s p b cells) : ∃ s', rules.reShr p cells s = some (s.next, s') ∧
    STop s' s.next b cells ∧ (∀ q ds, RWIn s q b ds → RWIn s' q b ds) ∧ Kept s s' b x := by
  have h1 : ∀ c ∈ cells, Stack.read p (s.stacks c) = some (s.stacks c) := fun c hc => by
    obtain ⟨i, r, e, hi, -⟩ := h c hc
    rw [e, Stack.read, if_pos hi]
  obtain ⟨s', e, t, hf, k, -⟩ := top_reShr hx h
  refine ⟨s', e, t, fun q ds hq c hc => ?_, k⟩
  by_cases hm : c ∈ cells
  · obtain ⟨s2, e', -, -, hs, -⟩ := reShr_eq (s := s) (t := p) (cells := cells) (fun c hc => ⟨_, h1 c hc⟩)
    rw [e] at e'
    cases e'
    obtain ⟨r, hr, e2⟩ := hs c hm
    rw [h1 c hm] at hr
    cases hr
    obtain ⟨pre, r, e3, hp, hb⟩ := hq c hc
    exact ⟨⟨.sharedRO, s.next⟩ :: pre, r, by rw [e2, e3]; rfl, by simpa using hp, hb⟩
  · rw [hf c hm]; exact hq c hc

theorem rw_own_reShr' (hx : ∀ c ∈ cells, box c = x) (h : RWIn s p b cells) : ∃ s', rules.reShr b cells s = some (s.next, s') ∧
    RWIn s' p b cells ∧ STop s' s.next b cells ∧ Kept s s' b x := by
  obtain ⟨s', e, r, -, k⟩ := rw_own_reShr hx h
  obtain ⟨s2, e', t, -⟩ := own_reShr hx h.own
  rw [e] at e'
  cases e'
  exact ⟨s', e, r, t, k⟩

/-- `len()` of an `InlineArray` while a raw pointer into it is live. -/
theorem rw_readLen (h : RWIn s p b (whole x N)) : ∃ s', readLen rules N x b s = some ((), s') ∧ RWIn s' p b (whole x N) ∧
    Kept s s' b x := by
  obtain ⟨s1, e1, r1, t1, k1⟩ := rw_own_reShr' (x := x) (fun c hc => box_whole hc) h
  obtain ⟨s2, e2, t2, q2, k2⟩ := push_reShr (x := x) (fun c hc => box_whole hc) t1
  exact ⟨s2, by simp only [readLen, dataConst, P.bind_run, e1, e2, Option.bind_some, top_read (t2.mono head_mem)], q2 _ _ r1,
    k1.trans k2⟩

/-- Nothing is taken from anybody. -/
structure Good (N : Nat) (b : Nat → Nat) (s s' : SB) : Prop where
  own : ∀ y, Own s (b y) (whole y N) → Own s' (b y) (whole y N)
  wf : WF s → WF s'
theorem Good.refl {b : Nat → Nat} : Good N b s s := ⟨fun _ h => h, id⟩
theorem Good.trans {b : Nat → Nat} {s''} (h : Good N b s s') (k : Good N b s' s'') : Good N b s s'' :=
  ⟨fun y h' => k.own y (h.own y h'), fun w => k.wf (h.wf w)⟩
theorem Kept.good {b : Nat → Nat} (h : Kept s s' (b x) x) : Good N b s s' :=
  ⟨fun y hy => by
    by_cases hh : y = x
    · subst hh; exact h.own _ hy
    · exact h.other hh hy, h.wf⟩

/-- Everything but the two stale pointers is accepted. -/
theorem call_ok (b : Nat → Nat) (c : Call) (hr : c.InRange N) (hs : ¬c.Stale) (ho : ∀ x ∈ c.boxes, Own s (b x) (whole x N)) :
    ∃ s', c.run rules N b s = some ((), s') ∧
      Good N b s s' := by
  cases c with
  | field x w =>
    have h : Own s (b x) [.head x] := (ho x (by simp [Call.boxes])).mono head_mem
    cases w
    · obtain ⟨s', e, k⟩ := own_read (x := x) (by simp [box]) h
      exact ⟨s', by simpa [Call.run] using e, Kept.good (k)⟩
    · obtain ⟨s', e, k⟩ := own_write (x := x) (by simp [box]) h
      exact ⟨s', by simpa [Call.run] using e, Kept.good (k)⟩
  | len x =>
    obtain ⟨s', e, k⟩ := sb_lenOf (ho x (by simp [Call.boxes]))
    exact ⟨s', e, Kept.good (k)⟩
  | readAt x i =>
    obtain ⟨p, s', e, r, -, k⟩ := sb_ptr (ho x (by simp [Call.boxes]))
    exact ⟨s', by simp only [Call.run, P.bind_run, e, Option.bind_some, ro_read (r.mono (slot_mem hr))], Kept.good (k)⟩
  | writeAt x i =>
    obtain ⟨p, s1, e, r, k⟩ := sb_mutPtr (ho x (by simp [Call.boxes]))
    obtain ⟨s2, e2, -, -, k2⟩ := rw_write (x := x) (box_sub (whole_slot (N := N) hr)) (r.mono (slot_mem hr))
    exact ⟨s2, by simp only [Call.run, P.bind_run, e, e2, Option.bind_some], Kept.good (k.trans k2)⟩
  | dropAt x i =>
    obtain ⟨p, s1, e, r, k⟩ := sb_mutPtr (ho x (by simp [Call.boxes]))
    obtain ⟨s2, e2, k2⟩ := sb_item hr r
    exact ⟨s2, by rw [Call.run, P.bind_run, e, Option.bind_some, e2], Kept.good (k.trans k2)⟩
  | getRef x i =>
    obtain ⟨p, s1, e, r, -, k⟩ := sb_ptr (ho x (by simp [Call.boxes]))
    obtain ⟨s2, e2, r2, -, k2⟩ := ro_reShr (x := x) (box_sub (whole_slot (N := N) hr)) (r.mono (slot_mem hr))
    exact ⟨s2, by simp only [Call.run, P.bind_run, e, e2, Option.bind_some, ro_read r2], Kept.good (k.trans k2)⟩
  | getMut x i =>
    obtain ⟨p, s1, e, r, k⟩ := sb_mutPtr (ho x (by simp [Call.boxes]))
    obtain ⟨s2, e2, k2⟩ := sb_item hr r
    exact ⟨s2, by rw [Call.run, P.bind_run, e, Option.bind_some, e2], Kept.good (k.trans k2)⟩
  | copyWithin x frm to count =>
    have h0 : ¬count > 0 := hs
    exact ⟨s, by simp only [Call.run, if_neg h0]; rfl, .refl⟩
  | copyTo x y frm to count =>
    obtain ⟨hxy, h1, h2⟩ := hr
    by_cases h0 : count > 0
    · obtain ⟨p, s1, e, r, -, k⟩ := sb_ptr (ho x (by simp [Call.boxes]))
      obtain ⟨q, s2, e2, r2, k2⟩ := sb_mutPtr (k.other (Ne.symm hxy) (ho y (by simp [Call.boxes])))
      have hp : ROIn s2 p (b x) (span x frm count) := (r.mono (fun c hc => span_sub h1 hc)).frame fun c hc =>
        k2.frame c (by rw [box_sub (span_whole h1) c hc]; exact hxy)
      obtain ⟨s3, e3, -, -, k3⟩ := rw_write (x := y) (box_sub (span_whole h2)) (r2.mono (fun c hc => span_sub h2 hc))
      exact ⟨s3, by simp only [Call.run, if_pos h0, P.bind_run, e, e2, e3, Option.bind_some, ro_read hp],
        k.good.trans (k2.good.trans k3.good)⟩
    · exact ⟨s, by simp only [Call.run, if_neg h0]; rfl, .refl⟩
  | ringCopy x y frm to count =>
    obtain ⟨hxy, h1, h2⟩ := hr
    by_cases h0 : count > 0
    · obtain ⟨p, s1, e, r, k⟩ := sb_mutPtr (ho x (by simp [Call.boxes]))
      obtain ⟨q, s2, e2, r2, k2⟩ := sb_mutPtr (k.other (Ne.symm hxy) (ho y (by simp [Call.boxes])))
      have hp : RWIn s2 p (b x) (span x frm count) := fun c hc => by
        rw [k2.frame c (by rw [box_sub (span_whole h1) c hc]; exact hxy)]
        exact r c (span_sub h1 hc)
      obtain ⟨s3, e3, -, -, k3⟩ := rw_write (x := y) (box_sub (span_whole h2)) (r2.mono (fun c hc => span_sub h2 hc))
      exact ⟨s3, by simp only [Call.run, if_pos h0, P.bind_run, e, e2, e3, Option.bind_some, rw_read hp],
        k.good.trans (k2.good.trans k3.good)⟩
    · exact ⟨s, by simp only [Call.run, if_neg h0]; rfl, .refl⟩
  | slice x lo n i =>
    obtain ⟨h1, h2, h3⟩ := hr
    obtain ⟨a, s1, d, s2, e1, e2, ra, rd, -, k⟩ := sb_shr2 (ho x (by simp [Call.boxes])) (ds := slots x N) (fun c => slots_sub)
    obtain ⟨s3, e3, r3, q3, k3⟩ := ro_reShr (x := x) (box_sub (fun c => id)) ra
    obtain ⟨s4, e4, r4, -, k4⟩ := ro_reShr (x := x) (box_sub (span_whole h3)) ((q3 _ _ rd).mono fun c hc => span_sub h3 hc)
    exact ⟨s4, by simp only [Call.run, lenOf, P.bind_run, e1, e2, e3, e4, Option.bind_some, ro_read (ra.mono head_mem),
      ro_read (r3.mono head_mem), ro_read (r4.mono (span_mem h1 h2))], Kept.good ((k.trans k3).trans k4)⟩
  | sliceMut x lo n i =>
    obtain ⟨h1, h2, h3⟩ := hr
    obtain ⟨s1, s2, s3, e1, e2, e3, r3, m3, k⟩ := chain (ho x (by simp [Call.boxes])) (ds := slots x N) (fun c => slots_sub)
    have hh : MTop s3 s.next (b x) [.head x] := m3 (.head x) (by simp) (by simp)
    obtain ⟨s4, e4, g4, t4, k4⟩ := rw_over_reShr (x := x) (s := s3) (p := s2.next) (a := s.next) (b := b x) (cells := whole x N)
      (fun c hc => box_whole hc) (fun c hc => by
        by_cases hm : c ∈ slots x N
        · exact .inl (r3.mono (by simpa using hm))
        · exact .inr (m3 c hc hm))
    have r4 : RWIn s4 s2.next (b x) (span x lo n) := fun c hc =>
      (g4 c (span_whole h3 c hc) (r3.mono (by simpa using span_sub h3 hc))).rw c (by simp)
    obtain ⟨s5, e5, t5, -, k5⟩ := rw_reMut (x := x) (box_sub (span_whole h3)) r4
    exact ⟨s5, by simp only [Call.run, lenOf, P.bind_run, e1, e2, e3, e4, e5, Option.bind_some, top_read hh.shr,
      top_read (t4 (.head x) (by simp)), top_read (t5.shr.mono (span_mem h1 h2)), top_write (t5.mono (span_mem h1 h2))],
      Kept.good ((k.trans k4).trans k5)⟩
  | values x i =>
    obtain ⟨a, s1, d, s2, e1, e2, ra, rd, -, k⟩ := sb_shr2 (ho x (by simp [Call.boxes])) (ds := slots x N) (fun c => slots_sub)
    obtain ⟨s3, e3, r3, -, k3⟩ := ro_reShr (x := x) (box_sub (fun c => slots_sub)) rd
    obtain ⟨s4, e4, r4, -, k4⟩ := ro_reShr (x := x) (box_sub (whole_slot (N := N) hr)) (r3.mono (slot_mem hr))
    exact ⟨s4, by simp only [Call.run, P.bind_run, e1, e2, e3, e4, Option.bind_some, ro_read r4],
      Kept.good ((k.trans k3).trans k4)⟩
  | valuesMut x i =>
    obtain ⟨s1, s2, s3, e1, e2, e3, r3, m3, k⟩ := chain (ho x (by simp [Call.boxes])) (ds := slots x N) (fun c => slots_sub)
    obtain ⟨s4, e4, t4, -, k4⟩ := rw_reMut (x := x) (box_sub (fun c => slots_sub)) r3.rw
    obtain ⟨s5, e5, t5, -, k5, -⟩ := top_reMut (x := x) (box_sub (whole_slot (N := N) hr)) (t4.mono (slot_mem hr))
    exact ⟨s5, by simp only [Call.run, P.bind_run, e1, e2, e3, e4, e5, Option.bind_some, top_read t5.shr, top_write t5],
      Kept.good ((k.trans k4).trans k5)⟩
  | inlineLen x =>
    obtain ⟨s', e, -, k⟩ := sb_readLen (ho x (by simp [Call.boxes]))
    exact ⟨s', e, Kept.good (k)⟩
  | inlineSetLen x =>
    obtain ⟨s', e, k⟩ := sb_setLen (ho x (by simp [Call.boxes]))
    exact ⟨s', e, Kept.good (k)⟩
  | inlineRead x i =>
    obtain ⟨p, s', e, r, -, k⟩ := sb_dataConst (ho x (by simp [Call.boxes]))
    exact ⟨s', by simp only [Call.run, P.bind_run, e, Option.bind_some, ro_read (r.mono (whole_slot hr))], Kept.good (k)⟩
  | inlineWrite x i =>
    obtain ⟨p, s1, e, r, k⟩ := sb_dataMut (ho x (by simp [Call.boxes]))
    obtain ⟨s2, e2, -, -, k2⟩ := rw_write (x := x) (box_sub (whole_slot (N := N) hr)) (r.mono (whole_slot hr))
    exact ⟨s2, by simp only [Call.run, P.bind_run, e, e2, Option.bind_some], Kept.good (k.trans k2)⟩
  | inlineInsert x i n =>
    obtain ⟨h1, h2⟩ := hr
    obtain ⟨p, s1, e1, r1, k1⟩ := sb_dataMut (ho x (by simp [Call.boxes]))
    obtain ⟨s2, e2, r2, k2⟩ := rw_readLen r1
    have m1 := span_whole (x := x) (N := N) (lo := i) (n := n - i) (by omega)
    have m2 := span_whole (x := x) (N := N) (lo := i + 1) (n := n - i) (by omega)
    have m3 := whole_slot (x := x) (N := N) (i := i) (by omega)
    obtain ⟨s3, e3, t3, f3, k3⟩ := rw_write (x := x) (box_sub m2) (r2.mono m2)
    have r3 : RWIn s3 p (b x) [.slot x i] := fun c hc => by
      simp only [List.mem_singleton] at hc
      subst hc
      rw [f3 _ (by simp; omega)]
      exact r2 _ (m3 _ (by simp))
    obtain ⟨s4, e4, -, -, k4⟩ := rw_write (x := x) (box_sub m3) r3
    have k := ((k1.trans k2).trans k3).trans k4
    obtain ⟨s5, e5, k5⟩ := sb_setLen (k.own _ (ho x (by simp [Call.boxes])))
    exact ⟨s5, by simp only [Call.run, P.bind_run, e1, e2, e3, e4, e5, Option.bind_some, rw_read (r2.mono m1)],
      Kept.good (k.trans k5)⟩
  | inlineRemove x i n =>
    obtain ⟨h1, h2⟩ := hr
    have h0 : n - 1 - i = 0 := by simp only [Call.Stale] at hs; omega
    obtain ⟨p, s1, e1, r1, k1⟩ := sb_dataMut (ho x (by simp [Call.boxes]))
    obtain ⟨s2, e2, k2⟩ := sb_setLen (k1.own _ (ho x (by simp [Call.boxes])))
    obtain ⟨s3, e3, -, k3⟩ := sb_readLen (k2.own _ (k1.own _ (ho x (by simp [Call.boxes]))))
    have w0 : ∀ t lo (s : SB), rules.write t (span x lo 0) s = some ((), s) := fun t lo s => by
      rw [write_run, each_self (by simp [span])]; rfl
    have rd0 : ∀ t lo (s : SB), rules.read t (span x lo 0) s = some ((), s) := fun t lo s => by
      rw [read_run, each_self (by simp [span])]; rfl
    exact ⟨s3, by simp only [Call.run, P.bind_run, e1, e2, e3, Option.bind_some, rw_read (r1.mono (whole_slot (Nat.lt_of_lt_of_le h1 h2))), h0, w0, rd0],
      Kept.good ((k1.trans k2).trans k3)⟩
  | inlineCopy x y frm count =>
    obtain ⟨hxy, h1⟩ := hr
    obtain ⟨p, s1, e1, r1, -, k1⟩ := sb_dataConst (ho x (by simp [Call.boxes]))
    obtain ⟨q, s2, e2, r2, k2⟩ := sb_dataMut (k1.other (Ne.symm hxy) (ho y (by simp [Call.boxes])))
    have hp : ROIn s2 p (b x) (whole x N) := r1.frame fun c hc => k2.frame c (by rw [box_whole hc]; exact hxy)
    obtain ⟨s3, e3, q3, k3⟩ := sb_readLen hp.own
    have hq : RWIn s3 q (b y) (span y 0 count) := fun c hc => by
      rw [k3.frame c (by rw [box_sub (span_whole (N := N) (by omega)) c hc]; exact Ne.symm hxy)]
      exact r2 c (span_whole (by omega) c hc)
    obtain ⟨s4, e4, -, -, k4⟩ := rw_write (x := y) (box_sub (span_whole (N := N) (by omega))) hq
    exact ⟨s4, by simp only [Call.run, P.bind_run, e1, e2, e3, e4, Option.bind_some,
      ro_read ((q3 _ _ hp).mono (span_whole h1))],
      (k1.good.trans k2.good).trans (k3.good.trans k4.good)⟩
  | inlineDeref x n i =>
    obtain ⟨h1, h2⟩ := hr
    have m1 := span_whole (x := x) (N := N) (lo := 0) (n := n) (by omega)
    obtain ⟨a, s1, d, s2, e1, e2, ra, rd, -, k⟩ := sb_shr2 (ho x (by simp [Call.boxes])) (ds := whole x N) (fun c => id)
    obtain ⟨s3, e3, r3, q3, k3⟩ := ro_reShr (x := x) (box_sub (fun c => id)) ra
    obtain ⟨s4, e4, r4, q4, k4⟩ := ro_reShr (x := x) (box_sub (fun c => id)) r3
    obtain ⟨s5, e5, r5, -, k5⟩ := ro_reShr (x := x) (box_sub m1) ((q4 _ _ (q3 _ _ rd)).mono m1)
    have m2 := span_mem (x := x) (lo := 0) (n := n) (i := i) (by omega) (by omega)
    exact ⟨s5, by simp only [Call.run, readLen, dataConst, P.bind_run, e1, e2, e3, e4, e5, Option.bind_some, ro_read (r4.mono head_mem),
      ro_read (r5.mono m2)], Kept.good (((k.trans k3).trans k4).trans k5)⟩
  | inlineDerefMut x n i =>
    obtain ⟨h1, h2⟩ := hr
    have m1 := span_whole (x := x) (N := N) (lo := 0) (n := n) (by omega)
    obtain ⟨s1, s2, s3, e1, e2, e3, r3, m3, k⟩ := chain (ho x (by simp [Call.boxes])) (ds := whole x N) (fun c => id)
    obtain ⟨s4, e4, g4, t4, k4⟩ := rw_over_reShr (x := x) (s := s3) (p := s2.next) (a := s.next) (b := b x) (cells := whole x N)
      (fun c hc => box_whole hc) (fun c hc => .inl (r3.mono (by simpa using hc)))
    have r4 : RWIn s4 s2.next (b x) (whole x N) := fun c hc => (g4 c hc (r3.mono (by simpa using hc))).rw c (by simp)
    have t4' : STop s4 s3.next (b x) (whole x N) := fun c hc => t4 c hc c (by simp)
    obtain ⟨s5, e5, t5, q5, k5⟩ := push_reShr (x := x) (fun c hc => box_whole hc) t4'
    obtain ⟨s6, e6, t6, -, k6⟩ := rw_reMut (x := x) (box_sub m1) ((q5 _ _ r4).mono m1)
    have m2 := span_mem (x := x) (lo := 0) (n := n) (i := i) (by omega) (by omega)
    exact ⟨s6, by simp only [Call.run, readLen, dataConst, P.bind_run, e1, e2, e3, e4, e5, e6, Option.bind_some,
      top_read (t5.mono head_mem), top_read (t6.shr.mono m2), top_write (t6.mono m2)],
      Kept.good (((k.trans k4).trans k5).trans k6)⟩

/-! ### The two stale pointers -/

theorem fresh_inv {f : Nat → List Item → Option (List Item)} {n : Nat} (h : fresh f cells s = some (n, s')) :
    n = s.next ∧ s'.next = s.next + 1 ∧ (∀ c, c ∉ cells → s'.stacks c = s.stacks c) ∧
      ∀ c ∈ cells, f s.next (s.stacks c) = some (s'.stacks c) := by
  unfold fresh at h
  cases hx : each (f s.next) cells s with
  | none => rw [hx] at h; simp at h
  | some z =>
    rw [hx] at h
    cases h
    obtain ⟨h1, h2, h3⟩ := each_inv hx
    exact ⟨rfl, rfl, h2, h3⟩

theorem reMut_inv {n : Nat} (h : rules.reMut t cells s = some (n, s')) : n = s.next ∧ s'.next = s.next + 1 ∧
    (∀ c, c ∉ cells → s'.stacks c = s.stacks c) ∧
    ∀ c ∈ cells, (Stack.write t (s.stacks c)).map (⟨.unique, s.next⟩ :: ·) = some (s'.stacks c) :=
  fresh_inv (f := fun n st => (Stack.write t st).map (⟨.unique, n⟩ :: ·)) h
theorem reShr_inv {n : Nat} (h : rules.reShr t cells s = some (n, s')) : n = s.next ∧ s'.next = s.next + 1 ∧
    (∀ c, c ∉ cells → s'.stacks c = s.stacks c) ∧
    ∀ c ∈ cells, (Stack.read t (s.stacks c)).map (⟨.sharedRO, s.next⟩ :: ·) = some (s'.stacks c) :=
  fresh_inv (f := fun n st => (Stack.read t st).map (⟨.sharedRO, n⟩ :: ·)) h
theorem raw_inv {n : Nat} (h : rules.raw t cells s = some (n, s')) : n = s.next ∧ s'.next = s.next + 1 ∧
    (∀ c, c ∉ cells → s'.stacks c = s.stacks c) ∧ ∀ c ∈ cells, Stack.pushRaw t s.next (s.stacks c) = some (s'.stacks c) :=
  fresh_inv (f := Stack.pushRaw t) h

/-- No item of `p` is left at the cell, and `p` is not a tag still to be issued. -/
def Gone (s : SB) (p : Nat) (c : Cell) : Prop := p < s.next ∧ ∀ i ∈ s.stacks c, i.tag ≠ p

theorem fresh_gone {f : Nat → List Item → Option (List Item)} {n : Nat} {c : Cell} (h : fresh f cells s = some (n, s'))
    (hf : ∀ st st', f s.next st = some st' → ∀ i ∈ st', (∃ j ∈ st, j.tag = i.tag) ∨ i.tag = s.next) (hg : Gone s p c) : Gone s' p c := by
  obtain ⟨-, h2, h3, h4⟩ := fresh_inv h
  have hp := hg.1
  refine ⟨by omega, fun i hi => ?_⟩
  by_cases hc : c ∈ cells
  · rcases hf _ _ (h4 c hc) i hi with ⟨j, hj, e⟩ | e
    · rw [← e]; exact hg.2 j hj
    · rw [e]; exact Nat.ne_of_gt hp
  · exact hg.2 i (by rw [← h3 c hc]; exact hi)
theorem reMut_gone {n : Nat} {c : Cell} (h : rules.reMut t cells s = some (n, s')) (hg : Gone s p c) : Gone s' p c :=
  fresh_gone (f := fun n st => (Stack.write t st).map (⟨.unique, n⟩ :: ·)) h (fun st st' e i hi => by
    cases hw : Stack.write t st with
    | none => rw [hw] at e; simp at e
    | some r =>
      rw [hw] at e
      cases e
      rcases List.mem_cons.1 hi with rfl | hi
      · exact .inr rfl
      · exact .inl ⟨i, Stack.mem_write hw i hi, rfl⟩) hg
theorem reShr_gone {n : Nat} {c : Cell} (h : rules.reShr t cells s = some (n, s')) (hg : Gone s p c) : Gone s' p c :=
  fresh_gone (f := fun n st => (Stack.read t st).map (⟨.sharedRO, n⟩ :: ·)) h (fun st st' e i hi => by
    cases hw : Stack.read t st with
    | none => rw [hw] at e; simp at e
    | some r =>
      rw [hw] at e
      cases e
      rcases List.mem_cons.1 hi with rfl | hi
      · exact .inr rfl
      · exact .inl (Stack.mem_read hw i hi)) hg
theorem raw_gone {n : Nat} {c : Cell} (h : rules.raw t cells s = some (n, s')) (hg : Gone s p c) : Gone s' p c :=
  fresh_gone (f := Stack.pushRaw t) h (fun _ _ e i hi => (Stack.mem_pushRaw e i hi).imp (fun h => ⟨i, h, rfl⟩) id) hg
theorem read_inv (h : rules.read t cells s = some ((), s')) : s'.next = s.next ∧ (∀ c, c ∉ cells → s'.stacks c = s.stacks c) ∧
    ∀ c ∈ cells, Stack.read t (s.stacks c) = some (s'.stacks c) := by
  rw [read_run] at h
  cases hx : each (Stack.read t) cells s with
  | none => rw [hx] at h; simp at h
  | some z => rw [hx] at h; cases h; exact each_inv hx
theorem write_inv (h : rules.write t cells s = some ((), s')) : s'.next = s.next ∧ (∀ c, c ∉ cells → s'.stacks c = s.stacks c) ∧
    ∀ c ∈ cells, Stack.write t (s.stacks c) = some (s'.stacks c) := by
  rw [write_run] at h
  cases hx : each (Stack.write t) cells s with
  | none => rw [hx] at h; simp at h
  | some z => rw [hx] at h; cases h; exact each_inv hx
theorem read_gone {c : Cell} (h : rules.read t cells s = some ((), s')) (hg : Gone s p c) : Gone s' p c := by
  obtain ⟨h1, h2, h3⟩ := read_inv h
  refine ⟨by rw [h1]; exact hg.1, fun i hi => ?_⟩
  by_cases hc : c ∈ cells
  · obtain ⟨j, hj, e⟩ := Stack.mem_read (h3 c hc) i hi
    exact e ▸ hg.2 j hj
  · exact hg.2 i (by rw [← h2 c hc]; exact hi)
theorem write_gone {c : Cell} (h : rules.write t cells s = some ((), s')) (hg : Gone s p c) : Gone s' p c := by
  obtain ⟨h1, h2, h3⟩ := write_inv h
  refine ⟨by rw [h1]; exact hg.1, fun i hi => ?_⟩
  by_cases hc : c ∈ cells
  · exact hg.2 i (Stack.mem_write (h3 c hc) i hi)
  · exact hg.2 i (by rw [← h2 c hc]; exact hi)

theorem read_tag {st st' : List Item} (h : Stack.read t st = some st') : ∃ i ∈ st, i.tag = t := by
  induction st generalizing st' with
  | nil => simp [Stack.read] at h
  | cons i st ih =>
    by_cases hr : canRead t i = true
    · simp only [canRead, Bool.and_eq_true, beq_iff_eq] at hr
      exact ⟨i, List.mem_cons_self, hr.1⟩
    · cases hx : Stack.read t st with
      | none => simp [Stack.read, hr, hx] at h
      | some z =>
        obtain ⟨j, hj, e⟩ := ih hx
        exact ⟨j, List.mem_cons_of_mem _ hj, e⟩
theorem write_tag {st st' : List Item} (h : Stack.write t st = some st') : ∃ i ∈ st, i.tag = t := by
  induction st generalizing st' with
  | nil => simp [Stack.write] at h
  | cons i st ih =>
    by_cases hr : canWrite t i = true
    · simp only [canWrite, Bool.and_eq_true, beq_iff_eq] at hr
      exact ⟨i, List.mem_cons_self, hr.1⟩
    · cases hx : Stack.write t st with
      | none => simp [Stack.write, hr, hx] at h
      | some z =>
        obtain ⟨j, hj, e⟩ := ih hx
        exact ⟨j, List.mem_cons_of_mem _ hj, e⟩

/-- A pointer which is gone cannot be read through. -/
theorem gone_read {c : Cell} (hg : Gone s p c) (hc : c ∈ cells) : rules.read p cells s = none := by
  cases h : rules.read p cells s with
  | none => rfl
  | some r =>
    obtain ⟨-, -, h3⟩ := read_inv (s' := r.2) (by rw [h])
    obtain ⟨i, hi, e⟩ := read_tag (h3 c hc)
    exact absurd e (hg.2 i hi)

theorem mutPtr_gone {c : Cell} (h : mutPtr rules N x b s = some (q, s')) {s1 : SB} {a : Nat}
    (h1 : rules.reMut b (whole x N) s = some (a, s1)) (hg : Gone s1 p c) : Gone s' p c := by
  simp only [mutPtr, P.bind_run, h1, Option.bind_some] at h
  cases e2 : rules.reMut a (slots x N) s1 with
  | none => rw [e2] at h; simp at h
  | some r2 => rw [e2] at h; exact raw_gone h (reMut_gone e2 hg)

/-- `Chunk::force_copy` of at least one item: the source pointer is dead before it is read through. -/
theorem copyWithin_rejected (hw : WF s) (b : Nat → Nat) {frm to count : Nat} (h0 : count > 0) (h1 : frm + count ≤ N) :
    Call.run rules N b (.copyWithin x frm to count) s = none := by
  simp only [Call.run, if_pos h0, P.bind_run]
  cases e1 : ptr rules N x (b x) s with
  | none => rfl
  | some r1 =>
    obtain ⟨p, s2⟩ := r1
    simp only [Option.bind_some]
    cases e2 : mutPtr rules N x (b x) s2 with
    | none => rfl
    | some r2 =>
      obtain ⟨q, s3⟩ := r2
      simp only [Option.bind_some]
      have hc : Cell.slot x frm ∈ slots x N := by simp; omega
      -- the source pointer
      simp only [ptr, P.bind_run] at e1
      cases f1 : rules.reShr (b x) (whole x N) s with
      | none => rw [f1] at e1; simp at e1
      | some z1 =>
        obtain ⟨a, s1⟩ := z1
        rw [f1] at e1
        simp only [Option.bind_some] at e1
        obtain ⟨rfl, n1, g1, k1⟩ := reShr_inv f1
        obtain ⟨rfl, n2, g2, k2⟩ := reShr_inv e1
        have hb : b x < s.next := by
          have := k1 (.head x) (by simp)
          cases hx : Stack.read (b x) (s.stacks (.head x)) with
          | none => rw [hx] at this; simp at this
          | some r =>
            obtain ⟨i, hi, e⟩ := read_tag hx
            exact e ▸ hw _ i hi
        have st1 : ∃ r, s1.stacks (.slot x frm) = ⟨.sharedRO, s.next⟩ :: r ∧ ∀ i ∈ r, i.tag < s.next := by
          have := k1 _ (slots_sub hc)
          cases hx : Stack.read (b x) (s.stacks (.slot x frm)) with
          | none => rw [hx] at this; simp at this
          | some r =>
            rw [hx] at this
            refine ⟨r, (Option.some.inj this).symm, fun i hi => ?_⟩
            obtain ⟨j, hj, e⟩ := Stack.mem_read hx i hi
            exact e ▸ hw _ j hj
        obtain ⟨r, st1, hr⟩ := st1
        have st2 : s2.stacks (.slot x frm) = ⟨.sharedRO, s1.next⟩ :: ⟨.sharedRO, s.next⟩ :: r := by
          have := k2 _ hc
          rw [st1, Stack.read, if_pos (by simp [canRead])] at this
          exact (Option.some.inj this).symm
        -- the `&mut self` made for the target pointer
        cases f3 : rules.reMut (b x) (whole x N) s2 with
        | none => rw [mutPtr, P.bind_run, f3] at e2; simp at e2
        | some z3 =>
          obtain ⟨a', s2'⟩ := z3
          obtain ⟨rfl, n3, g3, k3⟩ := reMut_inv f3
          have hgone : Gone s2' s1.next (.slot x frm) := by
            refine ⟨by omega, fun i hi => ?_⟩
            have := k3 _ (slots_sub hc)
            rw [st2, show (⟨.sharedRO, s1.next⟩ :: ⟨.sharedRO, s.next⟩ :: r : List Item) = [⟨.sharedRO, s1.next⟩, ⟨.sharedRO, s.next⟩] ++ r from rfl,
              Stack.write_ro (by simp)] at this
            cases hx : Stack.write (b x) r with
            | none => rw [hx] at this; simp at this
            | some r' =>
              rw [hx] at this
              rw [← Option.some.inj this] at hi
              rcases List.mem_cons.1 hi with rfl | hi
              · show s2.next ≠ s1.next; omega
              · have := hr i (Stack.mem_write hx i hi); omega
          rw [gone_read (mutPtr_gone e2 f3 hgone) (by simp; omega)]
          rfl

theorem readLen_gone {c : Cell} (h : readLen rules N x b s = some ((), s')) (hg : Gone s p c) : Gone s' p c := by
  simp only [readLen, dataConst, P.bind_run] at h
  cases e1 : rules.reShr b (whole x N) s with
  | none => rw [e1] at h; simp at h
  | some r1 =>
    rw [e1] at h
    simp only [Option.bind_some] at h
    cases e2 : rules.reShr r1.1 (whole x N) r1.2 with
    | none => rw [e2] at h; simp at h
    | some r2 =>
      rw [e2] at h
      exact read_gone h (reShr_gone e2 (reShr_gone e1 hg))

theorem setLen_gone {c : Cell} (h : setLen rules N x b s = some ((), s')) {s1 : SB} {a : Nat}
    (h1 : rules.reMut b (whole x N) s = some (a, s1)) (hg : Gone s1 p c) : Gone s' p c := by
  simp only [setLen, dataMut, P.bind_run, h1, Option.bind_some] at h
  cases e2 : rules.reMut a (whole x N) s1 with
  | none => rw [e2] at h; simp at h
  | some r2 =>
    rw [e2] at h
    simp only [Option.bind_some] at h
    cases e3 : rules.raw r2.1 (whole x N) r2.2 with
    | none => rw [e3] at h; simp at h
    | some r3 =>
      rw [e3] at h
      simp only [Option.bind_some] at h
      cases e4 : rules.read r3.1 [.head x] r3.2 with
      | none => rw [e4] at h; simp at h
      | some r4 =>
        rw [e4] at h
        exact write_gone h (read_gone e4 (raw_gone e3 (reMut_gone e2 hg)))

/-- `InlineArray::remove` of an item which is not the last: the pointer is dead before the others are moved through it. -/
theorem inlineRemove_rejected (hw : WF s) (b : Nat → Nat) {i n : Nat} (h0 : i + 1 < n) (h1 : n ≤ N) :
    Call.run rules N b (.inlineRemove x i n) s = none := by
  simp only [Call.run, P.bind_run]
  cases e1 : dataMut rules N x (b x) s with
  | none => rfl
  | some r1 =>
    obtain ⟨p, s3⟩ := r1
    simp only [Option.bind_some]
    cases e4 : rules.read p [.slot x i] s3 with
    | none => rfl
    | some r4 =>
      obtain ⟨⟨⟩, s4⟩ := r4
      simp only [Option.bind_some]
      cases e5 : setLen rules N x (b x) s4 with
      | none => rfl
      | some r5 =>
        obtain ⟨⟨⟩, s5⟩ := r5
        simp only [Option.bind_some]
        cases e6 : readLen rules N x (b x) s5 with
        | none => rfl
        | some r6 =>
          obtain ⟨⟨⟩, s6⟩ := r6
          simp only [Option.bind_some]
          have hc : Cell.slot x (i + 1) ∈ whole x N := by simp; omega
          simp only [dataMut, P.bind_run] at e1
          cases f1 : rules.reMut (b x) (whole x N) s with
          | none => rw [f1] at e1; simp at e1
          | some z1 =>
            obtain ⟨a, s1⟩ := z1
            rw [f1] at e1
            simp only [Option.bind_some] at e1
            cases f2 : rules.reMut a (whole x N) s1 with
            | none => rw [f2] at e1; simp at e1
            | some z2 =>
              obtain ⟨d, s2⟩ := z2
              rw [f2] at e1
              simp only [Option.bind_some] at e1
              obtain ⟨rfl, n1, -, k1⟩ := reMut_inv f1
              obtain ⟨rfl, n2, -, k2⟩ := reMut_inv f2
              obtain ⟨rfl, n3, -, k3⟩ := raw_inv e1
              obtain ⟨n4, g4, -⟩ := read_inv e4
              have hb : b x < s.next := by
                have := k1 (.head x) (by simp)
                cases hx : Stack.write (b x) (s.stacks (.head x)) with
                | none => rw [hx] at this; simp at this
                | some r =>
                  obtain ⟨i, hi, e⟩ := write_tag hx
                  exact e ▸ hw _ i hi
              have st1 : ∃ r, s1.stacks (.slot x (i + 1)) = ⟨.unique, s.next⟩ :: r ∧ ∀ i ∈ r, i.tag < s.next := by
                have := k1 _ hc
                cases hx : Stack.write (b x) (s.stacks (.slot x (i + 1))) with
                | none => rw [hx] at this; simp at this
                | some r =>
                  rw [hx] at this
                  exact ⟨r, (Option.some.inj this).symm, fun i hi => hw _ i (Stack.mem_write hx i hi)⟩
              obtain ⟨r, st1, hr⟩ := st1
              have st2 : s2.stacks (.slot x (i + 1)) = ⟨.unique, s1.next⟩ :: ⟨.unique, s.next⟩ :: r := by
                have := k2 _ hc
                rw [st1, Stack.write, if_pos (by simp [canWrite])] at this
                exact (Option.some.inj this).symm
              have st4 : s4.stacks (.slot x (i + 1)) = ⟨.sharedRW, s2.next⟩ :: ⟨.unique, s1.next⟩ :: ⟨.unique, s.next⟩ :: r := by
                have := k3 _ hc
                rw [st2, Stack.pushRaw, if_pos (by simp [canWrite])] at this
                rw [g4 _ (by simp)]
                exact (Option.some.inj this).symm
              cases f5 : rules.reMut (b x) (whole x N) s4 with
              | none => rw [setLen, dataMut] at e5; simp only [P.bind_run] at e5; rw [f5] at e5; simp at e5
              | some z5 =>
                obtain ⟨a', s4'⟩ := z5
                obtain ⟨rfl, n5, -, k5⟩ := reMut_inv f5
                have hgone : Gone s4' s2.next (.slot x (i + 1)) := by
                  refine ⟨by omega, fun j hj => ?_⟩
                  have := k5 _ hc
                  rw [st4] at this
                  have ne : ∀ (m : Nat) (q : Perm), s.next ≤ m → canWrite (b x) ⟨q, m⟩ = false := fun m q hm => by
                    have : m ≠ b x := by omega
                    simp [canWrite, this]
                  simp only [Stack.write, ne _ _ (show s.next ≤ s2.next by omega), ne _ _ (show s.next ≤ s1.next by omega),
                    ne _ _ (Nat.le_refl _), Bool.false_eq_true, if_false] at this
                  cases hx : Stack.write (b x) r with
                  | none => rw [hx] at this; simp at this
                  | some r' =>
                    rw [hx] at this
                    simp [Stack.stays] at this
                    rw [← this] at hj
                    rcases List.mem_cons.1 hj with rfl | hj
                    · show s4.next ≠ s2.next; omega
                    · have := hr j (Stack.mem_write hx j hj); omega
                rw [gone_read (readLen_gone e6 (setLen_gone e5 f5 hgone)) (by simp; omega)]
                rfl

/-- A stale call is rejected whatever the state. -/
theorem stale_rejected (hw : WF s) (b : Nat → Nat) (c : Call) (hr : c.InRange N) (hs : c.Stale) : c.run rules N b s = none := by
  cases c <;> simp only [Call.Stale] at hs
  · exact copyWithin_rejected hw b hs hr.1
  · exact inlineRemove_rejected hw b hs hr.2

end SB
end Verif.Alias
