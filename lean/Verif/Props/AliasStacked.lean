import Verif.Alias
/-
Stacked Borrows: what the stacks look like while the code holds its pointers.
-/
namespace Verif.Alias
open Verif
variable {σ α β A : Type}

theorem P.bind_run (x : P σ α) (f : α → P σ β) (s : σ) : (x >>= f) s = (x s).bind fun r => f r.1 r.2 := by
  show StateT.bind x f s = _
  unfold StateT.bind
  cases x s <;> rfl
theorem P.pure_run (a : α) (s : σ) : (pure a : P σ α) s = some (a, s) := rfl

/-! ### Cells -/

@[simp] theorem mem_span_slot {x y lo n i : Nat} : Cell.slot y i ∈ span x lo n ↔ y = x ∧ lo ≤ i ∧ i < lo + n := by
  simp only [span, List.mem_map, Cell.slot.injEq, List.mem_range'_1]
  constructor
  · rintro ⟨a, h, rfl, rfl⟩; exact ⟨rfl, h.1, h.2⟩
  · rintro ⟨rfl, h1, h2⟩; exact ⟨i, ⟨h1, h2⟩, rfl, rfl⟩
@[simp] theorem mem_span_head {x y lo n : Nat} : Cell.head y ∈ span x lo n ↔ False := by simp [span]
@[simp] theorem mem_slots_slot {x y N i : Nat} : Cell.slot y i ∈ slots x N ↔ y = x ∧ i < N := by simp [slots]
@[simp] theorem mem_slots_head {x y N : Nat} : Cell.head y ∈ slots x N ↔ False := by simp [slots]
@[simp] theorem mem_whole_slot {x y N i : Nat} : Cell.slot y i ∈ whole x N ↔ y = x ∧ i < N := by simp [whole]
@[simp] theorem mem_whole_head {x y N : Nat} : Cell.head y ∈ whole x N ↔ y = x := by simp [whole]

theorem slots_sub {x N : Nat} {c : Cell} (h : c ∈ slots x N) : c ∈ whole x N := List.mem_cons_of_mem _ h
theorem span_sub {x N lo n : Nat} (hn : lo + n ≤ N) {c : Cell} (h : c ∈ span x lo n) : c ∈ slots x N := by
  cases c with
  | head y => simp at h
  | slot y i => simp at h ⊢; omega
theorem box_whole {x N : Nat} {c : Cell} (h : c ∈ whole x N) : SB.box c = x := by
  cases c <;> simp at h <;> simp [SB.box, h]
theorem slot_mem {x N i : Nat} (h : i < N) : ∀ c ∈ [Cell.slot x i], c ∈ slots x N := by simp [h]

/-! ### One stack -/

namespace Stack

/-- A write through `t` would be accepted. -/
def Wr (t : Nat) (st : List Item) : Prop := ∃ st', write t st = some st'

theorem wr_cons {t : Nat} {st : List Item} (i : Item) (h : Wr t st) : Wr t (i :: st) := by
  obtain ⟨st', h⟩ := h
  unfold Wr
  simp only [write, h, Option.map_some]
  split <;> exact ⟨_, rfl⟩
theorem wr_top {t : Nat} {i : Item} {st : List Item} (h : canWrite t i = true) : Wr t (i :: st) :=
  ⟨i :: st, by simp [write, h]⟩
theorem wr_append {t : Nat} {st : List Item} (pre : List Item) (h : Wr t st) : Wr t (pre ++ st) := by
  induction pre with
  | nil => exact h
  | cons i pre ih => exact wr_cons i ih
theorem canRead_of_write {t : Nat} {i : Item} (h : canWrite t i = true) : canRead t i = true := by
  simp only [canWrite, canRead, Bool.and_eq_true, Bool.or_eq_true, beq_iff_eq, bne_iff_ne] at h ⊢
  refine ⟨h.1, ?_⟩
  rcases h.2 with h | h <;> rw [h] <;> decide

theorem read_of_wr {t : Nat} {st : List Item} (h : Wr t st) : ∃ st', read t st = some st' ∧ Wr t st' := by
  induction st with
  | nil => obtain ⟨_, h⟩ := h; simp [write] at h
  | cons i st ih =>
    by_cases hr : canRead t i = true
    · exact ⟨_, by simp [read, hr], h⟩
    · have hw : canWrite t i = false := by
        cases hh : canWrite t i
        · rfl
        · exact absurd (canRead_of_write hh) hr
      have : Wr t st := by
        obtain ⟨st', h⟩ := h
        simp only [write, hw, Bool.false_eq_true, if_false] at h
        cases hx : write t st with
        | none => rw [hx] at h; simp at h
        | some z => exact ⟨z, hx⟩
      obtain ⟨st', e, w⟩ := ih this
      exact ⟨demote i :: st', by simp [read, hr, e], wr_cons _ w⟩

theorem wr_of_write {t : Nat} {st st' : List Item} (h : write t st = some st') : Wr t st' := by
  induction st generalizing st' with
  | nil => simp [write] at h
  | cons i st ih =>
    simp only [write] at h
    split at h
    · rename_i hw
      simp only [Option.some.injEq] at h
      subst h
      exact wr_top hw
    · cases hx : write t st with
      | none => rw [hx] at h; simp at h
      | some z =>
        rw [hx] at h
        simp only [Option.map_some, Option.some.injEq] at h
        subst h
        have := ih hx
        split
        · exact wr_cons _ this
        · exact this

/-- Tags of a stack after an access are tags that were there. -/
theorem mem_write {t : Nat} {st st' : List Item} (h : write t st = some st') : ∀ i ∈ st', i ∈ st := by
  induction st generalizing st' with
  | nil => simp [write] at h
  | cons j st ih =>
    simp only [write] at h
    split at h
    · simp only [Option.some.injEq] at h
      subst h
      exact fun i hi => hi
    · cases hx : write t st with
      | none => rw [hx] at h; simp at h
      | some z =>
        rw [hx] at h
        simp only [Option.map_some, Option.some.injEq] at h
        subst h
        intro i hi
        split at hi
        · rcases List.mem_cons.1 hi with rfl | hi
          · exact List.mem_cons_self
          · exact List.mem_cons_of_mem _ (ih hx i hi)
        · exact List.mem_cons_of_mem _ (ih hx i hi)
theorem demote_tag (i : Item) : (demote i).tag = i.tag := by unfold demote; split <;> rfl
theorem mem_read {t : Nat} {st st' : List Item} (h : read t st = some st') : ∀ i ∈ st', ∃ j ∈ st, j.tag = i.tag := by
  induction st generalizing st' with
  | nil => simp [read] at h
  | cons j st ih =>
    simp only [read] at h
    split at h
    · simp only [Option.some.injEq] at h
      subst h
      exact fun i hi => ⟨i, hi, rfl⟩
    · cases hx : read t st with
      | none => rw [hx] at h; simp at h
      | some z =>
        rw [hx] at h
        simp only [Option.map_some, Option.some.injEq] at h
        subst h
        intro i hi
        rcases List.mem_cons.1 hi with rfl | hi
        · exact ⟨j, List.mem_cons_self, (demote_tag j).symm⟩
        · obtain ⟨k, hk, e⟩ := ih hx i hi
          exact ⟨k, List.mem_cons_of_mem _ hk, e⟩
theorem mem_pushRaw {t n : Nat} {st st' : List Item} (h : pushRaw t n st = some st') : ∀ i ∈ st', i ∈ st ∨ i.tag = n := by
  induction st generalizing st' with
  | nil => simp [pushRaw] at h
  | cons j st ih =>
    simp only [pushRaw] at h
    split at h
    · simp only [Option.some.injEq] at h
      subst h
      intro i hi
      rcases List.mem_cons.1 hi with rfl | hi
      · exact .inr rfl
      · exact .inl hi
    · cases hx : pushRaw t n st with
      | none => rw [hx] at h; simp at h
      | some z =>
        rw [hx] at h
        simp only [Option.map_some, Option.some.injEq] at h
        subst h
        intro i hi
        rcases List.mem_cons.1 hi with rfl | hi
        · exact .inl List.mem_cons_self
        · exact (ih hx i hi).imp (List.mem_cons_of_mem _) id

end Stack
open Stack (Wr canRead canWrite)

/-! ### The operations -/

namespace SB
variable {s s' : SB} {t b p : Nat} {cells cs : List Cell} {x : Nat}

theorem each_eq {f : List Item → Option (List Item)} (h : ∀ c ∈ cells, ∃ r, f (s.stacks c) = some r) :
    ∃ s', each f cells s = some s' ∧ s'.next = s.next ∧ (∀ c, c ∉ cells → s'.stacks c = s.stacks c) ∧
      ∀ c ∈ cells, f (s.stacks c) = some (s'.stacks c) := by
  refine ⟨_, if_pos (fun c hc => ?_), rfl, fun c hc => if_neg hc, fun c hc => ?_⟩
  · obtain ⟨r, e⟩ := h c hc; rw [e]; rfl
  · obtain ⟨r, e⟩ := h c hc
    simp [hc, e]

theorem each_inv {f : List Item → Option (List Item)} (h : each f cells s = some s') :
    s'.next = s.next ∧ (∀ c, c ∉ cells → s'.stacks c = s.stacks c) ∧ ∀ c ∈ cells, f (s.stacks c) = some (s'.stacks c) := by
  unfold each at h
  split at h
  · rename_i hh
    obtain ⟨s'', e, h1, h2, h3⟩ := each_eq (s := s) (f := f) (cells := cells) (fun c hc => Option.isSome_iff_exists.1 (hh c hc))
    rw [show each f cells s = _ from if_pos hh] at e
    rw [Option.some.inj (h.symm.trans e)]
    exact ⟨h1, h2, h3⟩
  · simp at h

theorem each_self {f : List Item → Option (List Item)} (h : ∀ c ∈ cells, f (s.stacks c) = some (s.stacks c)) :
    each f cells s = some s := by
  obtain ⟨s', e, h1, h2, h3⟩ := each_eq (s := s) (f := f) (cells := cells) (fun c hc => ⟨_, h c hc⟩)
  rw [e]
  congr 1
  cases s'; cases s
  simp only [mk.injEq] at h1 ⊢
  refine ⟨funext fun c => ?_, h1⟩
  by_cases hc : c ∈ cells
  · exact Option.some.inj ((h3 c hc).symm.trans (h c hc))
  · exact h2 c hc

theorem reMut_run : rules.reMut t cells s =
    (each (fun st => (Stack.write t st).map (⟨.unique, s.next⟩ :: ·)) cells s).map fun s' => (s.next, { s' with next := s.next + 1 }) := rfl
theorem reShr_run : rules.reShr t cells s =
    (each (fun st => (Stack.read t st).map (⟨.sharedRO, s.next⟩ :: ·)) cells s).map fun s' => (s.next, { s' with next := s.next + 1 }) := rfl
theorem raw_run : rules.raw t cells s =
    (each (Stack.pushRaw t s.next) cells s).map fun s' => (s.next, { s' with next := s.next + 1 }) := rfl
theorem read_run : rules.read t cells s = (each (Stack.read t) cells s).map fun s' => ((), s') := rfl
theorem write_run : rules.write t cells s = (each (Stack.write t) cells s).map fun s' => ((), s') := rfl

/-- Every tag in the stacks has been issued. -/
def WF (s : SB) : Prop := ∀ c, ∀ i ∈ s.stacks c, i.tag < s.next

/-- Writes through `b` to the cells would be accepted. -/
def Own (s : SB) (b : Nat) (cs : List Cell) : Prop := ∀ c ∈ cs, Wr b (s.stacks c)

theorem usable_iff : rules.Usable s b cs ↔ Own s b cs := by
  unfold Rules.Usable Own
  refine forall_congr' fun c => forall_congr' fun _ => ?_
  constructor
  · rintro ⟨s', h⟩
    rw [write_run] at h
    cases hx : each (Stack.write b) [c] s with
    | none => rw [hx] at h; simp at h
    | some z => exact ⟨_, (each_inv hx).2.2 c (by simp)⟩
  · rintro ⟨r, h⟩
    obtain ⟨s', e, -⟩ := each_eq (s := s) (f := Stack.write b) (cells := [c]) (by simpa using ⟨r, h⟩)
    exact ⟨s', by rw [write_run, e]; rfl⟩

/-- `s'` comes after `s` by operations on container `x` which never take anything from `b`. -/
structure Kept (s s' : SB) (b : Nat) (x : Nat) : Prop where
  own : ∀ cs, Own s b cs → Own s' b cs
  frame : ∀ c, box c ≠ x → s'.stacks c = s.stacks c
  next : s.next ≤ s'.next
  wf : WF s → WF s'

theorem Kept.refl : Kept s s b x := ⟨fun _ h => h, fun _ _ => rfl, Nat.le_refl _, id⟩
theorem Kept.trans {s''} (h : Kept s s' b x) (k : Kept s' s'' b x) : Kept s s'' b x :=
  ⟨fun cs h' => k.own cs (h.own cs h'), fun c hc => (k.frame c hc).trans (h.frame c hc), Nat.le_trans h.next k.next,
    fun w => k.wf (h.wf w)⟩
/-- Other containers are not touched. -/
theorem Kept.other (h : Kept s s' b x) {y N : Nat} (hy : y ≠ x) {t : Nat} (ho : Own s t (whole y N)) : Own s' t (whole y N) := by
  intro c hc
  rw [h.frame c (by rw [box_whole hc]; exact hy)]
  exact ho c hc

/-- The stacks after a mutable reborrow. -/
theorem reMut_eq (h : ∀ c ∈ cells, Wr t (s.stacks c)) : ∃ s', rules.reMut t cells s = some (s.next, s') ∧ s'.next = s.next + 1 ∧
    (∀ c, c ∉ cells → s'.stacks c = s.stacks c) ∧
    (∀ c ∈ cells, ∃ r, Stack.write t (s.stacks c) = some r ∧ s'.stacks c = ⟨.unique, s.next⟩ :: r) ∧ (WF s → WF s') := by
  obtain ⟨s1, e, h1, h2, h3⟩ := each_eq (s := s) (f := fun st => (Stack.write t st).map (⟨.unique, s.next⟩ :: ·)) (cells := cells)
    (fun c hc => by obtain ⟨r, hr⟩ := h c hc; exact ⟨_, by rw [hr]; rfl⟩)
  have h4 : ∀ c ∈ cells, ∃ r, Stack.write t (s.stacks c) = some r ∧ s1.stacks c = ⟨.unique, s.next⟩ :: r := fun c hc => by
    obtain ⟨r, hr⟩ := h c hc
    have := h3 c hc
    rw [hr] at this
    exact ⟨r, hr, (Option.some.inj this).symm⟩
  refine ⟨⟨s1.stacks, s.next + 1⟩, by rw [reMut_run, e]; rfl, rfl, h2, h4, fun w c i hi => ?_⟩
  by_cases hc : c ∈ cells
  · obtain ⟨r, hr, e2⟩ := h4 c hc
    replace hi : i ∈ s1.stacks c := hi
    rw [e2] at hi
    rcases List.mem_cons.1 hi with rfl | hi
    · exact Nat.lt_succ_self _
    · exact Nat.lt_succ_of_lt (w c i (Stack.mem_write hr i hi))
  · exact Nat.lt_succ_of_lt (w c i (by rw [← h2 c hc]; exact hi))

/-- The stacks after a shared reborrow. -/
theorem reShr_eq (h : ∀ c ∈ cells, ∃ r, Stack.read t (s.stacks c) = some r) :
    ∃ s', rules.reShr t cells s = some (s.next, s') ∧ s'.next = s.next + 1 ∧
    (∀ c, c ∉ cells → s'.stacks c = s.stacks c) ∧
    (∀ c ∈ cells, ∃ r, Stack.read t (s.stacks c) = some r ∧ s'.stacks c = ⟨.sharedRO, s.next⟩ :: r) ∧ (WF s → WF s') := by
  obtain ⟨s1, e, h1, h2, h3⟩ := each_eq (s := s) (f := fun st => (Stack.read t st).map (⟨.sharedRO, s.next⟩ :: ·)) (cells := cells)
    (fun c hc => by obtain ⟨r, hr⟩ := h c hc; exact ⟨_, by rw [hr]; rfl⟩)
  have h4 : ∀ c ∈ cells, ∃ r, Stack.read t (s.stacks c) = some r ∧ s1.stacks c = ⟨.sharedRO, s.next⟩ :: r := fun c hc => by
    obtain ⟨r, hr⟩ := h c hc
    have := h3 c hc
    rw [hr] at this
    exact ⟨r, hr, (Option.some.inj this).symm⟩
  refine ⟨⟨s1.stacks, s.next + 1⟩, by rw [reShr_run, e]; rfl, rfl, h2, h4, fun w c i hi => ?_⟩
  by_cases hc : c ∈ cells
  · obtain ⟨r, hr, e2⟩ := h4 c hc
    replace hi : i ∈ s1.stacks c := hi
    rw [e2] at hi
    rcases List.mem_cons.1 hi with rfl | hi
    · exact Nat.lt_succ_self _
    · obtain ⟨j, hj, e3⟩ := Stack.mem_read hr i hi
      exact Nat.lt_succ_of_lt (e3 ▸ w c j hj)
  · exact Nat.lt_succ_of_lt (w c i (by rw [← h2 c hc]; exact hi))

/-- The stacks after making a raw pointer. -/
theorem raw_eq (h : ∀ c ∈ cells, ∃ r, Stack.pushRaw t s.next (s.stacks c) = some r) :
    ∃ s', rules.raw t cells s = some (s.next, s') ∧ s'.next = s.next + 1 ∧
    (∀ c, c ∉ cells → s'.stacks c = s.stacks c) ∧
    (∀ c ∈ cells, Stack.pushRaw t s.next (s.stacks c) = some (s'.stacks c)) ∧ (WF s → WF s') := by
  obtain ⟨s1, e, h1, h2, h3⟩ := each_eq (s := s) (f := Stack.pushRaw t s.next) (cells := cells) h
  refine ⟨⟨s1.stacks, s.next + 1⟩, by rw [raw_run, e]; rfl, rfl, h2, h3, fun w c i hi => ?_⟩
  by_cases hc : c ∈ cells
  · rcases Stack.mem_pushRaw (h3 c hc) i hi with h | h
    · exact Nat.lt_succ_of_lt (w c i h)
    · exact h ▸ Nat.lt_succ_self _
  · exact Nat.lt_succ_of_lt (w c i (by rw [← h2 c hc]; exact hi))

/-- Every state a program can reach is well-formed. -/
theorem Reach.wf {k : Nat} (h : Reach rules (start k) s) : WF s := by
  induction h with
  | init =>
    intro c i hi
    simp only [start] at hi ⊢
    split at hi
    · simp at hi; subst hi; assumption
    · simp at hi
  | reMut _ h ih =>
    rename_i s s' t n cells _
    rw [reMut_run] at h
    cases hx : each (fun st => (Stack.write t st).map (⟨.unique, s.next⟩ :: ·)) cells s with
    | none => rw [hx] at h; simp at h
    | some z =>
      obtain ⟨-, -, h3⟩ := each_inv hx
      obtain ⟨s2, e, -, -, -, w⟩ := reMut_eq (s := s) (t := t) (cells := cells) (fun c hc => by
        have := h3 c hc
        cases hw : Stack.write t (s.stacks c) with
        | none => rw [hw] at this; simp at this
        | some r => exact ⟨r, hw⟩)
      rw [reMut_run, h] at e
      cases e
      exact w ih
  | reShr _ h ih =>
    rename_i s s' t n cells _
    rw [reShr_run] at h
    cases hx : each (fun st => (Stack.read t st).map (⟨.sharedRO, s.next⟩ :: ·)) cells s with
    | none => rw [hx] at h; simp at h
    | some z =>
      obtain ⟨-, -, h3⟩ := each_inv hx
      obtain ⟨s2, e, -, -, -, w⟩ := reShr_eq (s := s) (t := t) (cells := cells) (fun c hc => by
        have := h3 c hc
        cases hw : Stack.read t (s.stacks c) with
        | none => rw [hw] at this; simp at this
        | some r => exact ⟨r, rfl⟩)
      rw [reShr_run, h] at e
      cases e
      exact w ih
  | raw _ h ih =>
    rename_i s s' t n cells _
    rw [raw_run] at h
    cases hx : each (Stack.pushRaw t s.next) cells s with
    | none => rw [hx] at h; simp at h
    | some z =>
      obtain ⟨-, -, h3⟩ := each_inv hx
      obtain ⟨s2, e, -, -, -, w⟩ := raw_eq (s := s) (t := t) (cells := cells) (fun c hc => ⟨_, h3 c hc⟩)
      rw [raw_run, h] at e
      cases e
      exact w ih
  | read _ h ih =>
    rename_i s s' t cells _
    rw [read_run] at h
    cases hx : each (Stack.read t) cells s with
    | none => rw [hx] at h; simp at h
    | some z =>
      obtain ⟨h1, h2, h3⟩ := each_inv hx
      rw [hx] at h
      cases h
      intro c i hi
      rw [h1]
      by_cases hc : c ∈ cells
      · obtain ⟨j, hj, e⟩ := Stack.mem_read (h3 c hc) i hi
        exact e ▸ ih c j hj
      · exact ih c i (by rw [← h2 c hc]; exact hi)
  | write _ h ih =>
    rename_i s s' t cells _
    rw [write_run] at h
    cases hx : each (Stack.write t) cells s with
    | none => rw [hx] at h; simp at h
    | some z =>
      obtain ⟨h1, h2, h3⟩ := each_inv hx
      rw [hx] at h
      cases h
      intro c i hi
      rw [h1]
      by_cases hc : c ∈ cells
      · exact ih c i (Stack.mem_write (h3 c hc) i hi)
      · exact ih c i (by rw [← h2 c hc]; exact hi)

/-! ### Pointers on top of the stacks -/

/-- `p` is on top of the stacks of the cells and may write; `b` is below. -/
def MTop (s : SB) (p b : Nat) (cs : List Cell) : Prop := ∀ c ∈ cs, ∃ i r, s.stacks c = i :: r ∧ canWrite p i = true ∧ Wr b r
/-- `p` is on top of the stacks of the cells and may read; `b` is below. -/
def STop (s : SB) (p b : Nat) (cs : List Cell) : Prop := ∀ c ∈ cs, ∃ i r, s.stacks c = i :: r ∧ canRead p i = true ∧ Wr b r

theorem MTop.shr (h : MTop s p b cs) : STop s p b cs := fun c hc => by
  obtain ⟨i, r, e, hi, hr⟩ := h c hc
  exact ⟨i, r, e, Stack.canRead_of_write hi, hr⟩
theorem MTop.mono (h : MTop s p b cs) {ds : List Cell} (hd : ∀ c ∈ ds, c ∈ cs) : MTop s p b ds := fun c hc => h c (hd c hc)
theorem STop.mono (h : STop s p b cs) {ds : List Cell} (hd : ∀ c ∈ ds, c ∈ cs) : STop s p b ds := fun c hc => h c (hd c hc)
theorem Own.mono (h : Own s b cs) {ds : List Cell} (hd : ∀ c ∈ ds, c ∈ cs) : Own s b ds := fun c hc => h c (hd c hc)
theorem STop.own (h : STop s p b cs) : Own s b cs := fun c hc => by
  obtain ⟨i, r, e, -, hr⟩ := h c hc
  rw [e]; exact Stack.wr_cons i hr
theorem STop.frame (h : STop s p b cs) (hf : ∀ c ∈ cs, s'.stacks c = s.stacks c) : STop s' p b cs := fun c hc => by
  rw [hf c hc]; exact h c hc
theorem MTop.frame (h : MTop s p b cs) (hf : ∀ c ∈ cs, s'.stacks c = s.stacks c) : MTop s' p b cs := fun c hc => by
  rw [hf c hc]; exact h c hc

/-- From stacks to `Kept`. -/
theorem kept_of (hx : ∀ c ∈ cells, box c = x) (hn : s.next ≤ s'.next) (hf : ∀ c, c ∉ cells → s'.stacks c = s.stacks c)
    (ho : Own s' b cells) (hw : WF s → WF s') : Kept s s' b x where
  own cs h c hc := by
    by_cases hm : c ∈ cells
    · exact ho c hm
    · rw [hf c hm]; exact h c hc
  frame c hc := hf c fun hm => hc (hx c hm)
  next := hn
  wf := hw

theorem own_reMut (hx : ∀ c ∈ cells, box c = x) (h : Own s b cells) : ∃ s', rules.reMut b cells s = some (s.next, s') ∧
    MTop s' s.next b cells ∧ (∀ c, c ∉ cells → s'.stacks c = s.stacks c) ∧ Kept s s' b x ∧ s'.next = s.next + 1 := by
  obtain ⟨s', e, hn, hf, hs, hw⟩ := reMut_eq h
  have ht : MTop s' s.next b cells := fun c hc => by
    obtain ⟨r, hr, e2⟩ := hs c hc
    exact ⟨_, r, e2, by simp [canWrite], Stack.wr_of_write hr⟩
  exact ⟨s', e, ht, hf, kept_of hx (by omega) hf ht.shr.own hw, hn⟩

theorem top_reMut (hx : ∀ c ∈ cells, box c = x) (h : MTop s p b cells) : ∃ s', rules.reMut p cells s = some (s.next, s') ∧
    MTop s' s.next b cells ∧ (∀ c, c ∉ cells → s'.stacks c = s.stacks c) ∧ Kept s s' b x ∧ s'.next = s.next + 1 := by
  obtain ⟨s', e, hn, hf, hs, hw⟩ := reMut_eq (s := s) (t := p) (cells := cells) (fun c hc => by
    obtain ⟨i, r, e, hi, -⟩ := h c hc
    rw [e]; exact Stack.wr_top hi)
  have ht : MTop s' s.next b cells := fun c hc => by
    obtain ⟨r, hr, e2⟩ := hs c hc
    obtain ⟨i, r', e3, hi, hb⟩ := h c hc
    rw [e3, Stack.write, if_pos hi] at hr
    cases hr
    exact ⟨_, _, e2, by simp [canWrite], Stack.wr_cons _ hb⟩
  exact ⟨s', e, ht, hf, kept_of hx (by omega) hf ht.shr.own hw, hn⟩

theorem top_raw (hx : ∀ c ∈ cells, box c = x) (h : MTop s p b cells) : ∃ s', rules.raw p cells s = some (s.next, s') ∧
    MTop s' s.next b cells ∧ (∀ c, c ∉ cells → s'.stacks c = s.stacks c) ∧ Kept s s' b x ∧ s'.next = s.next + 1 := by
  have h1 : ∀ c ∈ cells, ∃ i r, s.stacks c = i :: r ∧ Wr b r ∧ Stack.pushRaw p s.next (s.stacks c) = some (⟨.sharedRW, s.next⟩ :: i :: r) := by
    intro c hc
    obtain ⟨i, r, e, hi, hb⟩ := h c hc
    exact ⟨i, r, e, hb, by rw [e, Stack.pushRaw, if_pos hi]⟩
  obtain ⟨s', e, hn, hf, hs, hw⟩ := raw_eq (s := s) (t := p) (cells := cells) (fun c hc => by
    obtain ⟨i, r, -, -, e⟩ := h1 c hc
    exact ⟨_, e⟩)
  have ht : MTop s' s.next b cells := fun c hc => by
    obtain ⟨i, r, -, hb, e2⟩ := h1 c hc
    exact ⟨_, _, (Option.some.inj ((hs c hc).symm.trans e2)), by simp [canWrite], Stack.wr_cons _ hb⟩
  exact ⟨s', e, ht, hf, kept_of hx (by omega) hf ht.shr.own hw, hn⟩

theorem own_reShr (hx : ∀ c ∈ cells, box c = x) (h : Own s b cells) : ∃ s', rules.reShr b cells s = some (s.next, s') ∧
    STop s' s.next b cells ∧ (∀ c, c ∉ cells → s'.stacks c = s.stacks c) ∧ Kept s s' b x ∧ s'.next = s.next + 1 := by
  obtain ⟨s', e, hn, hf, hs, hw⟩ := reShr_eq (s := s) (t := b) (cells := cells)
    (fun c hc => by obtain ⟨r, e, -⟩ := Stack.read_of_wr (h c hc); exact ⟨r, e⟩)
  have ht : STop s' s.next b cells := fun c hc => by
    obtain ⟨r, hr, e2⟩ := hs c hc
    obtain ⟨r', hr', hw⟩ := Stack.read_of_wr (h c hc)
    rw [hr] at hr'
    cases hr'
    exact ⟨_, r, e2, by simp [canRead], hw⟩
  exact ⟨s', e, ht, hf, kept_of hx (by omega) hf ht.own hw, hn⟩

theorem top_reShr (hx : ∀ c ∈ cells, box c = x) (h : STop s p b cells) : ∃ s', rules.reShr p cells s = some (s.next, s') ∧
    STop s' s.next b cells ∧ (∀ c, c ∉ cells → s'.stacks c = s.stacks c) ∧ Kept s s' b x ∧ s'.next = s.next + 1 := by
  have h1 : ∀ c ∈ cells, Stack.read p (s.stacks c) = some (s.stacks c) ∧ Wr b (s.stacks c) := by
    intro c hc
    obtain ⟨i, r, e, hi, hb⟩ := h c hc
    exact ⟨by rw [e, Stack.read, if_pos hi], by rw [e]; exact Stack.wr_cons _ hb⟩
  obtain ⟨s', e, hn, hf, hs, hw⟩ := reShr_eq (s := s) (t := p) (cells := cells) (fun c hc => ⟨_, (h1 c hc).1⟩)
  have ht : STop s' s.next b cells := fun c hc => by
    obtain ⟨r, hr, e2⟩ := hs c hc
    rw [(h1 c hc).1] at hr
    cases hr
    exact ⟨_, _, e2, by simp [canRead], (h1 c hc).2⟩
  exact ⟨s', e, ht, hf, kept_of hx (by omega) hf ht.own hw, hn⟩

theorem top_read (h : STop s p b cells) : rules.read p cells s = some ((), s) := by
  rw [read_run, each_self fun c hc => by obtain ⟨i, r, e, hi, -⟩ := h c hc; rw [e, Stack.read, if_pos hi]]
  rfl
theorem top_write (h : MTop s p b cells) : rules.write p cells s = some ((), s) := by
  rw [write_run, each_self fun c hc => by obtain ⟨i, r, e, hi, -⟩ := h c hc; rw [e, Stack.write, if_pos hi]]
  rfl

theorem own_read (hx : ∀ c ∈ cells, box c = x) (h : Own s b cells) : ∃ s', rules.read b cells s = some ((), s') ∧ Kept s s' b x := by
  obtain ⟨s', e, hn, hf, hs⟩ := each_eq (s := s) (f := Stack.read b) (cells := cells)
    (fun c hc => by obtain ⟨r, e, -⟩ := Stack.read_of_wr (h c hc); exact ⟨r, e⟩)
  refine ⟨s', by rw [read_run, e]; rfl, kept_of hx (by omega) hf (fun c hc => ?_) (fun w c i hi => ?_)⟩
  · obtain ⟨r, hr, hw⟩ := Stack.read_of_wr (h c hc)
    rw [hs c hc] at hr
    cases hr
    exact hw
  · rw [hn]
    by_cases hc : c ∈ cells
    · obtain ⟨j, hj, e⟩ := Stack.mem_read (hs c hc) i hi
      exact e ▸ w c j hj
    · exact w c i (by rw [← hf c hc]; exact hi)
theorem own_write (hx : ∀ c ∈ cells, box c = x) (h : Own s b cells) : ∃ s', rules.write b cells s = some ((), s') ∧ Kept s s' b x := by
  obtain ⟨s', e, hn, hf, hs⟩ := each_eq (s := s) (f := Stack.write b) (cells := cells) h
  refine ⟨s', by rw [write_run, e]; rfl, kept_of hx (by omega) hf (fun c hc => Stack.wr_of_write (hs c hc)) (fun w c i hi => ?_)⟩
  rw [hn]
  by_cases hc : c ∈ cells
  · exact w c i (Stack.mem_write (hs c hc) i hi)
  · exact w c i (by rw [← hf c hc]; exact hi)

/-! ### Shared pointers, and raw pointers underneath shared ones -/

end SB

namespace Stack
variable {t p b : Nat} {pre m r st : List Item}

theorem read_ro (hp : ∀ i ∈ pre, i.perm = .sharedRO) {st' : List Item} (h : read t st = some st') :
    read t (pre ++ st) = some (pre ++ st') ∨ read t (pre ++ st) = some (pre ++ st) := by
  induction pre with
  | nil => exact .inl h
  | cons i pre ih =>
    by_cases hr : canRead t i = true
    · exact .inr (by simp [read, hr])
    · have hd : demote i = i := by rw [demote, if_neg (by rw [hp i List.mem_cons_self]; decide)]
      rcases ih (fun j hj => hp j (List.mem_cons_of_mem _ hj)) with e | e
      · exact .inl (by simp [read, hr, e, hd])
      · exact .inr (by simp [read, hr, e, hd])

theorem read_ro_wr (hp : ∀ i ∈ pre, i.perm = .sharedRO) (h : Wr b r) : ∃ r', read b (pre ++ r) = some (pre ++ r') ∧ Wr b r' := by
  obtain ⟨r', e, hw⟩ := read_of_wr h
  rcases read_ro hp e with e | e
  · exact ⟨r', e, hw⟩
  · exact ⟨r, e, h⟩

theorem read_ro_mem (hp : ∀ i ∈ pre, i.perm = .sharedRO) (h : ∃ i ∈ pre, i.tag = t) : read t (pre ++ r) = some (pre ++ r) := by
  induction pre with
  | nil => obtain ⟨_, h, -⟩ := h; simp at h
  | cons i pre ih =>
    by_cases hr : canRead t i = true
    · simp [read, hr]
    · have hi := hp i List.mem_cons_self
      have hd : demote i = i := by rw [demote, if_neg (by rw [hi]; decide)]
      obtain ⟨j, hj, e⟩ := h
      rcases List.mem_cons.1 hj with rfl | hj
      · exact absurd (by simp [canRead, e, hi]) hr
      · simp [read, hr, ih (fun j hj => hp j (List.mem_cons_of_mem _ hj)) ⟨j, hj, e⟩, hd]

theorem read_in (h : ∃ i ∈ m, canRead t i = true) : ∃ m', read t (m ++ r) = some (m' ++ r) ∧ ∃ i ∈ m', canRead t i = true := by
  induction m with
  | nil => obtain ⟨_, h, -⟩ := h; simp at h
  | cons i m ih =>
    by_cases hr : canRead t i = true
    · exact ⟨i :: m, by simp [read, hr], i, List.mem_cons_self, hr⟩
    · obtain ⟨j, hj, e⟩ := h
      rcases List.mem_cons.1 hj with rfl | hj
      · exact absurd e hr
      · obtain ⟨m', e1, k, hk, e2⟩ := ih ⟨j, hj, e⟩
        exact ⟨demote i :: m', by simp [read, hr, e1], k, List.mem_cons_of_mem _ hk, e2⟩

theorem write_ro (hp : ∀ i ∈ pre, i.perm = .sharedRO) : write t (pre ++ st) = write t st := by
  induction pre with
  | nil => rfl
  | cons i pre ih =>
    have hi := hp i List.mem_cons_self
    have hw : canWrite t i = false := by simp [canWrite, hi]
    rw [List.cons_append, write, if_neg (by simp [hw]), ih (fun j hj => hp j (List.mem_cons_of_mem _ hj))]
    cases hx : write t st with
    | none => rfl
    | some z => simp [stays, hi]

end Stack

namespace SB
variable {s s' : SB} {t b p q a : Nat} {cells cs ds : List Cell} {x : Nat}

/-- `p` is a shared reference, under nothing but shared references; `b` is below. -/
def ROIn (s : SB) (p b : Nat) (cs : List Cell) : Prop := ∀ c ∈ cs, ∃ pre r, s.stacks c = pre ++ r ∧
  (∀ i ∈ pre, i.perm = .sharedRO) ∧ (∃ i ∈ pre, i.tag = p) ∧ Wr b r

theorem ROIn.mono (h : ROIn s p b cs) (hd : ∀ c ∈ ds, c ∈ cs) : ROIn s p b ds := fun c hc => h c (hd c hc)
theorem ROIn.own (h : ROIn s p b cs) : Own s b cs := fun c hc => by
  obtain ⟨pre, r, e, -, -, hb⟩ := h c hc
  rw [e]; exact Stack.wr_append pre hb
theorem ROIn.frame (h : ROIn s p b cs) (hf : ∀ c ∈ cs, s'.stacks c = s.stacks c) : ROIn s' p b cs := fun c hc => by
  rw [hf c hc]; exact h c hc

theorem ro_own (hx : ∀ c ∈ cells, box c = x) (h : Own s b cells) : ∃ s', rules.reShr b cells s = some (s.next, s') ∧
    ROIn s' s.next b cells ∧ (∀ q ds, ROIn s q b ds → ROIn s' q b ds) ∧ Kept s s' b x := by
  obtain ⟨s', e, hn, hf, hs, hw⟩ := reShr_eq (s := s) (t := b) (cells := cells)
    (fun c hc => by obtain ⟨r, e, -⟩ := Stack.read_of_wr (h c hc); exact ⟨r, e⟩)
  have ht : ROIn s' s.next b cells := fun c hc => by
    obtain ⟨r, hr, e2⟩ := hs c hc
    obtain ⟨r', hr', hw⟩ := Stack.read_of_wr (h c hc)
    rw [hr] at hr'
    cases hr'
    exact ⟨[⟨.sharedRO, s.next⟩], r, e2, by simp, by simp, hw⟩
  refine ⟨s', e, ht, fun q ds hq c hc => ?_, kept_of hx (by omega) hf ht.own hw⟩
  by_cases hm : c ∈ cells
  · obtain ⟨pre, r, e1, hp, ⟨i, hi, ei⟩, hb⟩ := hq c hc
    obtain ⟨r', hr, e2⟩ := hs c hm
    obtain ⟨r'', h1, h2⟩ := Stack.read_ro_wr (b := b) hp hb
    rw [e1, h1] at hr
    cases hr
    exact ⟨⟨.sharedRO, s.next⟩ :: pre, r'', e2, by simpa using hp, ⟨i, List.mem_cons_of_mem _ hi, ei⟩, h2⟩
  · rw [hf c hm]; exact hq c hc

theorem ro_reShr (hx : ∀ c ∈ cells, box c = x) (h : ROIn s p b cells) : ∃ s', rules.reShr p cells s = some (s.next, s') ∧
    ROIn s' s.next b cells ∧ (∀ q ds, ROIn s q b ds → ROIn s' q b ds) ∧ Kept s s' b x := by
  have h1 : ∀ c ∈ cells, Stack.read p (s.stacks c) = some (s.stacks c) := fun c hc => by
    obtain ⟨pre, r, e, hp, hm, -⟩ := h c hc
    rw [e, Stack.read_ro_mem hp hm]
  obtain ⟨s', e, hn, hf, hs, hw⟩ := reShr_eq (s := s) (t := p) (cells := cells) (fun c hc => ⟨_, h1 c hc⟩)
  have h2 : ∀ c ∈ cells, s'.stacks c = ⟨.sharedRO, s.next⟩ :: s.stacks c := fun c hc => by
    obtain ⟨r, hr, e2⟩ := hs c hc
    rw [h1 c hc] at hr
    cases hr
    exact e2
  have ht : ROIn s' s.next b cells := fun c hc => by
    obtain ⟨pre, r, e, hp, hm, hb⟩ := h c hc
    exact ⟨⟨.sharedRO, s.next⟩ :: pre, r, by rw [h2 c hc, e]; rfl, by simpa using hp, by simp, hb⟩
  refine ⟨s', e, ht, fun q ds hq c hc => ?_, kept_of hx (by omega) hf ht.own hw⟩
  by_cases hm : c ∈ cells
  · obtain ⟨pre, r, e, hp, ⟨i, hi, ei⟩, hb⟩ := hq c hc
    exact ⟨⟨.sharedRO, s.next⟩ :: pre, r, by rw [h2 c hm, e]; rfl, by simpa using hp, ⟨i, List.mem_cons_of_mem _ hi, ei⟩, hb⟩
  · rw [hf c hm]; exact hq c hc

theorem ro_read (h : ROIn s p b cells) : rules.read p cells s = some ((), s) := by
  rw [read_run, each_self fun c hc => by
    obtain ⟨pre, r, e, hp, hm, -⟩ := h c hc
    rw [e, Stack.read_ro_mem hp hm]]
  rfl

/-- `p` is a raw pointer under nothing but shared references; `b` is below. -/
def RWIn (s : SB) (p b : Nat) (cs : List Cell) : Prop := ∀ c ∈ cs, ∃ pre r, s.stacks c = pre ++ ⟨.sharedRW, p⟩ :: r ∧
  (∀ i ∈ pre, i.perm = .sharedRO) ∧ Wr b r
/-- The same, and `a` is between them. -/
def RWOver (s : SB) (p a b : Nat) (cs : List Cell) : Prop := ∀ c ∈ cs, ∃ pre m r, s.stacks c = pre ++ ⟨.sharedRW, p⟩ :: (m ++ r) ∧
  (∀ i ∈ pre, i.perm = .sharedRO) ∧ (∃ i ∈ m, canRead a i = true) ∧ Wr b r

theorem RWOver.rw (h : RWOver s p a b cs) : RWIn s p b cs := fun c hc => by
  obtain ⟨pre, m, r, e, hp, -, hb⟩ := h c hc
  exact ⟨pre, m ++ r, e, hp, Stack.wr_append m hb⟩
theorem RWIn.mono (h : RWIn s p b cs) (hd : ∀ c ∈ ds, c ∈ cs) : RWIn s p b ds := fun c hc => h c (hd c hc)
theorem RWOver.mono (h : RWOver s p a b cs) (hd : ∀ c ∈ ds, c ∈ cs) : RWOver s p a b ds := fun c hc => h c (hd c hc)
theorem RWIn.own (h : RWIn s p b cs) : Own s b cs := fun c hc => by
  obtain ⟨pre, r, e, -, hb⟩ := h c hc
  rw [e]; exact Stack.wr_append pre (Stack.wr_cons _ hb)

/-- A shared reborrow of `b` leaves the raw pointer above it alone. -/
theorem rw_own_reShr (hx : ∀ c ∈ cells, box c = x) (h : RWIn s p b cells) : ∃ s', rules.reShr b cells s = some (s.next, s') ∧
    RWIn s' p b cells ∧ ROIn s' s.next b cells ∧ Kept s s' b x := by
  obtain ⟨s', e, hr, -, hk⟩ := ro_own hx h.own
  refine ⟨s', e, fun c hc => ?_, hr, hk⟩
  obtain ⟨s2, e', hn, hf, hs, -⟩ := reShr_eq (s := s) (t := b) (cells := cells)
    (fun c hc => by obtain ⟨r, e, -⟩ := Stack.read_of_wr (h.own c hc); exact ⟨r, e⟩)
  rw [e] at e'
  cases e'
  obtain ⟨pre, r, e1, hp, hb⟩ := h c hc
  obtain ⟨r', hr, e2⟩ := hs c hc
  have : ∃ r'', Stack.read b (⟨.sharedRW, p⟩ :: r) = some (⟨.sharedRW, p⟩ :: r'') ∧ Wr b r'' := by
    simp only [Stack.read]
    split
    · exact ⟨r, rfl, hb⟩
    · obtain ⟨r'', e3, h3⟩ := Stack.read_of_wr hb
      exact ⟨r'', by rw [e3]; rfl, h3⟩
  obtain ⟨r'', e3, h3⟩ := this
  rcases Stack.read_ro hp e3 with e4 | e4
  · rw [e1, e4] at hr
    cases hr
    exact ⟨⟨.sharedRO, s.next⟩ :: pre, r'', e2, by simpa using hp, h3⟩
  · rw [e1, e4] at hr
    cases hr
    exact ⟨⟨.sharedRO, s.next⟩ :: pre, r, e2, by simpa using hp, hb⟩

/-- So does a shared reborrow of a reference in between. -/
theorem rw_over_reShr (hx : ∀ c ∈ cells, box c = x) (h : ∀ c ∈ cells, RWOver s p a b [c] ∨ MTop s a b [c]) :
    ∃ s', rules.reShr a cells s = some (s.next, s') ∧
    (∀ c ∈ cells, RWOver s p a b [c] → RWOver s' p a b [c]) ∧ (∀ c ∈ cells, STop s' s.next b [c]) ∧ Kept s s' b x := by
  have h1 : ∀ c ∈ cells, ∃ r, Stack.read a (s.stacks c) = some r ∧ Wr b r ∧
      (RWOver s p a b [c] → ∃ pre m r', r = pre ++ ⟨.sharedRW, p⟩ :: (m ++ r') ∧
        (∀ i ∈ pre, i.perm = .sharedRO) ∧ (∃ i ∈ m, canRead a i = true) ∧ Wr b r') := by
    intro c hc
    rcases Classical.em (RWOver s p a b [c]) with h' | h'
    · obtain ⟨pre, m, r, e, hp, hm, hb⟩ := h' c (by simp)
      obtain ⟨m', e1, hm'⟩ := Stack.read_in (r := r) hm
      have h2 : ∃ m', Stack.read a (⟨.sharedRW, p⟩ :: (m ++ r)) = some (⟨.sharedRW, p⟩ :: (m' ++ r)) ∧ ∃ i ∈ m', canRead a i = true := by
        rw [Stack.read]
        split
        · exact ⟨m, rfl, hm⟩
        · exact ⟨m', by rw [e1]; rfl, hm'⟩
      obtain ⟨m'', e2, hm''⟩ := h2
      have wr : ∀ m : List Item, Wr b (pre ++ ⟨.sharedRW, p⟩ :: (m ++ r)) := fun m =>
        Stack.wr_append pre (Stack.wr_cons _ (Stack.wr_append m hb))
      rcases Stack.read_ro hp e2 with e3 | e3
      · exact ⟨_, by rw [e, e3], wr _, fun _ => ⟨pre, m'', r, rfl, hp, hm'', hb⟩⟩
      · exact ⟨_, by rw [e, e3], wr _, fun _ => ⟨pre, m, r, rfl, hp, hm, hb⟩⟩
    · rcases h c hc with h2 | h2
      · exact absurd h2 h'
      · obtain ⟨i, r, e, hi, hb⟩ := h2 c (by simp)
        exact ⟨_, by rw [e, Stack.read, if_pos (Stack.canRead_of_write hi)], Stack.wr_cons i hb, fun h3 => absurd h3 h'⟩
  obtain ⟨s', e, hn, hf, hs, hw⟩ := reShr_eq (s := s) (t := a) (cells := cells) (fun c hc => by
    obtain ⟨r, e, -⟩ := h1 c hc; exact ⟨r, e⟩)
  have ht : STop s' s.next b cells := fun c hc => by
    obtain ⟨r, hr, e2⟩ := hs c hc
    obtain ⟨r', hr', hb, -⟩ := h1 c hc
    rw [hr] at hr'
    cases hr'
    exact ⟨_, _, e2, by simp [canRead], hb⟩
  refine ⟨s', e, fun c hc ho => ?_, fun c hc d hd => ht d (by simp at hd; exact hd ▸ hc), kept_of hx (by omega) hf ht.own hw⟩
  intro d hd
  simp at hd
  subst hd
  obtain ⟨r, hr, e2⟩ := hs d hc
  obtain ⟨r', hr', -, h3⟩ := h1 d hc
  rw [hr] at hr'
  cases hr'
  obtain ⟨pre, m, r', e4, hp, hm, hb⟩ := h3 ho
  exact ⟨⟨.sharedRO, s.next⟩ :: pre, m, r', by rw [e2, e4]; rfl, by simpa using hp, hm, hb⟩

/-- Writing through such a raw pointer. -/
theorem rw_write (hx : ∀ c ∈ cells, box c = x) (h : RWIn s p b cells) : ∃ s', rules.write p cells s = some ((), s') ∧
    MTop s' p b cells ∧ (∀ c, c ∉ cells → s'.stacks c = s.stacks c) ∧ Kept s s' b x := by
  have h1 : ∀ c ∈ cells, ∃ r, Stack.write p (s.stacks c) = some (⟨.sharedRW, p⟩ :: r) ∧ Wr b r := fun c hc => by
    obtain ⟨pre, r, e, hp, hb⟩ := h c hc
    exact ⟨r, by rw [e, Stack.write_ro hp, Stack.write, if_pos (by simp [canWrite])], hb⟩
  obtain ⟨s', e, hn, hf, hs⟩ := each_eq (s := s) (f := Stack.write p) (cells := cells) (fun c hc => by
    obtain ⟨r, e, -⟩ := h1 c hc; exact ⟨_, e⟩)
  have ht : MTop s' p b cells := fun c hc => by
    obtain ⟨r, e, hb⟩ := h1 c hc
    exact ⟨_, r, Option.some.inj ((hs c hc).symm.trans e), by simp [canWrite], hb⟩
  refine ⟨s', by rw [write_run, e]; rfl, ht, hf, kept_of hx (by omega) hf ht.shr.own fun w c i hi => ?_⟩
  rw [hn]
  by_cases hc : c ∈ cells
  · exact w c i (Stack.mem_write (hs c hc) i hi)
  · exact w c i (by rw [← hf c hc]; exact hi)

/-- Reading through such a raw pointer. -/
theorem rw_read (h : RWIn s p b cells) : rules.read p cells s = some ((), s) := by
  rw [read_run, each_self fun c hc => by
    obtain ⟨pre, r, e, hp, -⟩ := h c hc
    rcases Stack.read_ro (t := p) (st := ⟨.sharedRW, p⟩ :: r) (st' := ⟨.sharedRW, p⟩ :: r) hp
      (by rw [Stack.read, if_pos (by simp [canRead])]) with e1 | e1 <;> rw [e, e1]]
  rfl

/-- A mutable reference made from such a raw pointer. -/
theorem rw_reMut (hx : ∀ c ∈ cells, box c = x) (h : RWIn s p b cells) : ∃ s', rules.reMut p cells s = some (s.next, s') ∧
    MTop s' s.next b cells ∧ (∀ c, c ∉ cells → s'.stacks c = s.stacks c) ∧ Kept s s' b x := by
  have h1 : ∀ c ∈ cells, ∃ r, Stack.write p (s.stacks c) = some (⟨.sharedRW, p⟩ :: r) ∧ Wr b r := fun c hc => by
    obtain ⟨pre, r, e, hp, hb⟩ := h c hc
    exact ⟨r, by rw [e, Stack.write_ro hp, Stack.write, if_pos (by simp [canWrite])], hb⟩
  obtain ⟨s', e, hn, hf, hs, hw⟩ := reMut_eq (s := s) (t := p) (cells := cells) (fun c hc => by
    obtain ⟨r, e, -⟩ := h1 c hc; exact ⟨_, e⟩)
  have ht : MTop s' s.next b cells := fun c hc => by
    obtain ⟨r, hr, e2⟩ := hs c hc
    obtain ⟨r', e3, hb⟩ := h1 c hc
    rw [hr] at e3
    cases e3
    exact ⟨_, _, e2, by simp [canWrite], Stack.wr_cons _ hb⟩
  exact ⟨s', e, ht, hf, kept_of hx (by omega) hf ht.shr.own hw⟩

end SB
end Verif.Alias
