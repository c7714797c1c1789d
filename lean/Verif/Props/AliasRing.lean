import Verif.Props.AliasTree
/-
C96: the references `RingBuffer::iter_mut` hands out.
-/
namespace Verif.Alias
open Verif
open Verif.Ring (slotsFrom idxOf slots_head slots_tail slots_last slots_dropLast slots_concat slots_length slots_mem slots_nodup
  slots_lt idxNext idxNextBack idxNext_eq idxNextBack_eq iterMut_ok slots_map Rep View)
variable {σ A : Type} {N : Nat} {E : Env} {c : Ring A} {l : List A}

/-! ### Specification -/

/-- The ends at which a client asks for the next reference. -/
def asks : List Use → List Bool
  | [] => []
  | .next :: us => true :: asks us
  | .nextBack :: us => false :: asks us
  | .read _ :: us => asks us
  | .write _ :: us => asks us

/-- The positions at which references are handed out, in order. -/
def handed {α : Type} (uses : List Use) (l : List α) : List α := (Chunk.specIterate (asks uses) l).1.filterMap id

/-! ### Reaching states -/

/-- The computation only leads from reachable states to reachable ones. -/
def Stays {α : Type} (R : Rules σ) (i : σ) (m : P σ α) : Prop := ∀ s a s', Reach R i s → m s = some (a, s') → Reach R i s'

variable {R : Rules σ} {i : σ}
theorem Stays.bind {α β : Type} {m : P σ α} {f : α → P σ β} (h : Stays R i m) (k : ∀ a, Stays R i (f a)) : Stays R i (m >>= f) := by
  intro s b s' hs e
  rw [P.bind_run] at e
  cases hm : m s with
  | none => rw [hm] at e; simp at e
  | some r => rw [hm] at e; exact k r.1 r.2 b s' (h s r.1 r.2 hs hm) e
theorem Stays.pure {α : Type} (a : α) : Stays R i (pure a) := by
  intro s b s' hs e
  rw [P.pure_run] at e
  cases e
  exact hs
theorem Stays.lift {α τ : Type} (o : Out τ α) : Stays R i (lift o) := by
  intro s b s' hs e
  cases o <;> simp [Alias.lift] at e
  rw [← e.2]; exact hs
theorem stays_reMut (t cs) : Stays R i (R.reMut t cs) := fun _ _ _ hs e => .reMut hs e
theorem stays_reShr (t cs) : Stays R i (R.reShr t cs) := fun _ _ _ hs e => .reShr hs e
theorem stays_raw (t cs) : Stays R i (R.raw t cs) := fun _ _ _ hs e => .raw hs e
theorem stays_read (t cs) : Stays R i (R.read t cs) := fun _ _ _ hs e => .read hs e
theorem stays_write (t cs) : Stays R i (R.write t cs) := fun _ _ _ hs e => .write hs e

/-- Prove `Stays` of a program made from the five operations. -/
macro "stays" : tactic => `(tactic| repeat' (first
  | exact Stays.pure _ | exact Stays.lift _ | exact stays_reMut _ _ | exact stays_reShr _ _ | exact stays_raw _ _ | exact stays_read _ _
  | exact stays_write _ _ | apply Stays.bind | intro _ | assumption))

theorem stays_lenOf (x b) : Stays R i (lenOf R N x b) := by unfold lenOf; stays
theorem stays_useRef (x w refs k) : Stays R i (useRef R x w refs k) := by
  unfold useRef
  split
  · stays
  · split <;> stays
theorem stays_ringUses (x d) (uses : List Use) (it refs) : Stays R i (ringUses R N E x d uses it refs) := by
  induction uses generalizing it refs with
  | nil => exact .pure _
  | cons u us ih =>
    refine .bind ?_ fun r => ih r.1 r.2
    have hy : ∀ o, Stays R i (ringYield R x d refs it o) := fun o => by
      match o with
      | none => exact .pure _
      | some (p, it') => unfold ringYield; stays
    cases u with
    | next => exact .bind (.lift _) hy
    | nextBack => exact .bind (.lift _) hy
    | read k => exact .bind (stays_useRef _ _ _ _) fun _ => .pure _
    | write k => exact .bind (stays_useRef _ _ _ _) fun _ => .pure _
theorem stays_ringClient (x b) (uses : List Use) : Stays R i (ringClient R N E x b c uses) := by
  unfold ringClient ringIterMut
  refine .bind ?_ fun d => .bind (.lift _) fun it => stays_ringUses _ _ _ _ _
  refine .bind (stays_reMut _ _) fun _ => .bind (stays_read _ _) fun _ => .bind (stays_lenOf _ _) fun _ => ?_
  stays

/-! ### The client's steps -/

/-- What a discipline has to provide: `I s todo refs` is kept by handing out the next reference from either end, and by using
any of the references. -/
structure Keeps (R : Rules σ) (x d : Nat) (I : σ → List Nat → List (Nat × Nat) → Prop) : Prop where
  yield : ∀ s p todo rest refs, I s todo refs → p ∈ todo → (∀ q ∈ rest, q ∈ todo ∧ q ≠ p) →
    ∃ t s', R.reMut d [.slot x p] s = some (t, s') ∧ I s' rest (refs ++ [(p, t)])
  use : ∀ s w todo refs p t, I s todo refs → (p, t) ∈ refs →
    ∃ s', (if w = true then R.write t [.slot x p] s else R.read t [.slot x p] s) = some ((), s') ∧ I s' todo refs

theorem keeps_useRef {x d : Nat} {I : σ → List Nat → List (Nat × Nat) → Prop} (h : Keeps R x d I) {s : σ} {todo : List Nat}
    {refs : List (Nat × Nat)} (hI : I s todo refs) (w : Bool) (k : Nat) :
    ∃ s', useRef R x w refs k s = some ((), s') ∧ I s' todo refs := by
  cases e : refs[k]? with
  | none => exact ⟨s, by simp only [useRef, e]; rfl, hI⟩
  | some r =>
    obtain ⟨p, t⟩ := r
    obtain ⟨s', e', h'⟩ := h.use s w todo refs p t hI (List.mem_of_getElem? e)
    refine ⟨s', ?_, h'⟩
    cases w
    · simpa [useRef, e] using e'
    · simpa [useRef, e] using e'

theorem ringUses_ok {x d : Nat} {I : σ → List Nat → List (Nat × Nat) → Prop} (h : Keeps R x d I) (hW : 2 * N < E.W) {o : Nat} (ho : o < N)
    (uses : List Use) (a r : Nat) (ha : a + r ≤ N) (s : σ) (refs : List (Nat × Nat)) (hI : I s (slotsFrom N o a r) refs) :
    ∃ refs' s', ringUses R N E x d uses (idxOf N o a r) refs s = some (refs', s') ∧
      refs'.map (·.1) = refs.map (·.1) ++ handed uses (slotsFrom N o a r) ∧ ∃ rest, I s' rest refs' := by
  induction uses generalizing a r s refs with
  | nil => exact ⟨refs, s, rfl, by simp [handed, asks, Chunk.specIterate], _, hI⟩
  | cons u us ih =>
    cases u with
    | next =>
      cases r with
      | zero =>
        obtain ⟨refs', s', e, h1, h2⟩ := ih a 0 ha s refs hI
        have h0 : slotsFrom N o a 0 = [] := rfl
        refine ⟨refs', s', ?_, ?_, h2⟩
        · simpa [ringUses, ringUse, P.bind_run, lift, idxNext, idxOf, ringYield, P.pure_run] using e
        · rw [h1]; simp [handed, asks, Chunk.specIterate, h0]
      | succ r =>
        have hh := slots_head (N := N) o a r
        have ht := slots_tail (N := N) o a r
        have hn := slots_nodup (N := N) (o := o) (a := a) (r := r + 1) (by omega)
        have hc : slotsFrom N o a (r + 1) = Ring.ridx N o a :: slotsFrom N o (a + 1) r := by
          simp [slotsFrom, List.range'_succ]
        rw [hc] at hn
        obtain ⟨t, s1, e1, h1⟩ := h.yield s (Ring.ridx N o a) _ (slotsFrom N o (a + 1) r) refs hI (by rw [hc]; exact List.mem_cons_self)
          (fun q hq => ⟨by rw [hc]; exact List.mem_cons_of_mem _ hq, fun e => (List.nodup_cons.1 hn).1 (e ▸ hq)⟩)
        obtain ⟨refs', s', e, h2, h3⟩ := ih (a + 1) r (by omega) s1 _ h1
        refine ⟨refs', s', ?_, ?_, h3⟩
        · have e0 : idxNext E N (idxOf N o a (r + 1)) () = .ok (some (Ring.ridx N o a, idxOf N o (a + 1) r)) () := by
            rw [idxOf, idxNext_eq hW ho (by omega), idxOf, show a + (r + 1) = a + 1 + r by omega]
          simp only [ringUses, ringUse, P.bind_run, e0, lift, Option.bind_some, ringYield, e1, P.pure_run, e]
        · rw [h2, hc]; simp [handed, asks, Chunk.specIterate]
    | nextBack =>
      cases r with
      | zero =>
        obtain ⟨refs', s', e, h1, h2⟩ := ih a 0 ha s refs hI
        have h0 : slotsFrom N o a 0 = [] := rfl
        refine ⟨refs', s', ?_, ?_, h2⟩
        · simpa [ringUses, ringUse, P.bind_run, lift, idxNextBack, idxOf, ringYield, P.pure_run] using e
        · rw [h1]; simp [handed, asks, Chunk.specIterate, h0]
      | succ r =>
        have hc := slots_concat (N := N) o a r
        have hn := slots_nodup (N := N) (o := o) (a := a) (r := r + 1) (by omega)
        rw [hc] at hn
        have hd := slots_dropLast (N := N) o a r
        have hl := slots_last (N := N) o a r
        obtain ⟨t, s1, e1, h1⟩ := h.yield s (Ring.ridx N o (a + r)) _ (slotsFrom N o a r) refs hI (by rw [hc]; simp)
          (fun q hq => ⟨by rw [hc]; simp [hq], fun e => by
            have := List.nodup_append.1 hn
            exact this.2.2 q hq _ (by simp) e⟩)
        obtain ⟨refs', s', e, h2, h3⟩ := ih a r (by omega) s1 _ h1
        refine ⟨refs', s', ?_, ?_, h3⟩
        · have e0 : idxNextBack E N (idxOf N o a (r + 1)) () = .ok (some (Ring.ridx N o (a + r), idxOf N o a r)) () := by
            rw [idxOf, ← Nat.add_assoc, idxNextBack_eq ho (by omega), idxOf]
          simp only [ringUses, ringUse, P.bind_run, e0, lift, Option.bind_some, ringYield, e1, P.pure_run, e]
        · rw [h2]; simp [handed, asks, Chunk.specIterate, hd, hl]
    | read k =>
      obtain ⟨s1, e1, h1⟩ := keeps_useRef h hI false k
      obtain ⟨refs', s', e, h2, h3⟩ := ih a r ha s1 refs h1
      exact ⟨refs', s', by simp only [ringUses, ringUse, P.bind_run, e1, Option.bind_some, P.pure_run, e], by rw [h2]; rfl, h3⟩
    | write k =>
      obtain ⟨s1, e1, h1⟩ := keeps_useRef h hI true k
      obtain ⟨refs', s', e, h2, h3⟩ := ih a r ha s1 refs h1
      exact ⟨refs', s', by simp only [ringUses, ringUse, P.bind_run, e1, Option.bind_some, P.pure_run, e], by rw [h2]; rfl, h3⟩

/-! ### Stacked Borrows -/

open Stack (Wr canRead canWrite)
namespace SB
variable {s s' : SB} {b d x : Nat}

/-- What is left to hand out belongs to the iterator's pointer, what has been handed out to the references. -/
structure RingInv (N x b d : Nat) (s : SB) (todo : List Nat) (refs : List (Nat × Nat)) : Prop where
  own : Own s b (whole x N)
  lt : ∀ p ∈ todo, p < N
  left : ∀ p ∈ todo, RWIn s d b [.slot x p]
  done : ∀ p t, (p, t) ∈ refs → p ∉ todo ∧ MTop s t b [.slot x p]

theorem ring_keeps : Keeps rules x d (RingInv N x b d) where
  yield s p todo rest refs h hp hr := by
    obtain ⟨s', e, m, f, k⟩ := rw_reMut (x := x) (cells := [.slot x p]) (by simp [box]) (h.left p hp)
    refine ⟨_, s', e, k.own _ h.own, fun q hq => h.lt q (hr q hq).1, fun q hq => ?_, fun q t hq => ?_⟩
    · intro c hc
      simp only [List.mem_singleton] at hc
      subst hc
      rw [f _ (by simpa using (hr q hq).2)]
      exact h.left q (hr q hq).1 _ (by simp)
    · rcases List.mem_append.1 hq with hq | hq
      · obtain ⟨h1, h2⟩ := h.done q t hq
        refine ⟨fun hm => h1 (hr q hm).1, h2.frame fun c hc => ?_⟩
        simp only [List.mem_singleton] at hc
        subst hc
        exact f _ (by simp; rintro rfl; exact h1 hp)
      · simp only [List.mem_singleton, Prod.mk.injEq] at hq
        obtain ⟨rfl, rfl⟩ := hq
        exact ⟨fun hm => (hr q hm).2 rfl, m⟩
  use s w todo refs p t h hp := by
    obtain ⟨-, h2⟩ := h.done p t hp
    refine ⟨s, ?_, h⟩
    cases w
    · exact top_read h2.shr
    · exact top_write h2

theorem ringIterMut_ok (h : Own s b (whole x N)) : ∃ d s', ringIterMut rules N x b s = some (d, s') ∧ RWIn s' d b (slots x N) ∧ Kept s s' b x := by
  obtain ⟨s1, e1, t1, f1, k1, -⟩ := own_reMut (x := x) (fun c hc => box_whole hc) h
  have r1 : rules.read s.next [.head x] s1 = some ((), s1) := top_read (t1.shr.mono head_mem)
  have h1 : ∀ c ∈ whole x N, ∃ i r, s1.stacks c = i :: r ∧ canWrite s.next i = true ∧ Wr b r := t1
  have rd : ∀ c ∈ whole x N, Stack.read s.next (s1.stacks c) = some (s1.stacks c) := fun c hc => by
    obtain ⟨i, r, e, hi, -⟩ := h1 c hc
    rw [e, Stack.read, if_pos (Stack.canRead_of_write hi)]
  obtain ⟨s2, e2, t2, f2, k2, -⟩ := top_reShr (x := x) (fun c hc => box_whole hc) t1.shr
  have r2 : rules.read s1.next [.head x] s2 = some ((), s2) := top_read (t2.mono head_mem)
  have g2 : ∀ c ∈ whole x N, ∃ i r, s2.stacks c = ⟨.sharedRO, s1.next⟩ :: i :: r ∧ canWrite s.next i = true ∧ Wr b r := fun c hc => by
    obtain ⟨s2', e2', -, -, hs, -⟩ := reShr_eq (s := s1) (t := s.next) (cells := whole x N) (fun c hc => ⟨_, rd c hc⟩)
    rw [e2] at e2'
    cases e2'
    obtain ⟨r, hr, e⟩ := hs c hc
    rw [rd c hc] at hr
    cases hr
    obtain ⟨i, r, e3, hi, hb⟩ := h1 c hc
    exact ⟨i, r, by rw [e, e3], hi, hb⟩
  have w2 : ∀ c ∈ whole x N, ∃ i r, Stack.write s.next (s2.stacks c) = some (i :: r) ∧ Wr b (i :: r) := fun c hc => by
    obtain ⟨i, r, e, hi, hb⟩ := g2 c hc
    refine ⟨i, r, ?_, Stack.wr_cons _ hb⟩
    have := Stack.write_ro (t := s.next) (pre := [⟨.sharedRO, s1.next⟩]) (st := i :: r) (by simp)
    rw [e, show (⟨.sharedRO, s1.next⟩ :: i :: r : List Item) = [⟨.sharedRO, s1.next⟩] ++ i :: r from rfl, this, Stack.write, if_pos hi]
  obtain ⟨s3, e3, n3, f3, hs3, w3⟩ := reMut_eq (s := s2) (t := s.next) (cells := slots x N) (fun c hc => by
    obtain ⟨i, r, e, -⟩ := w2 c (slots_sub hc)
    exact ⟨_, e⟩)
  have g3 : ∀ c ∈ slots x N, ∃ r, s3.stacks c = ⟨.unique, s2.next⟩ :: r ∧ Wr b r := fun c hc => by
    obtain ⟨r, hr, e⟩ := hs3 c hc
    obtain ⟨i, r', e', hb⟩ := w2 c (slots_sub hc)
    rw [e'] at hr
    cases hr
    exact ⟨_, e, hb⟩
  have k3 : Kept s2 s3 b x := kept_of (box_sub fun c => slots_sub) (by omega) f3 (fun c hc => by
    obtain ⟨r, e, hb⟩ := g3 c hc
    rw [e]; exact Stack.wr_cons _ hb) w3
  obtain ⟨s4, e4, n4, f4, hs4, w4⟩ := raw_eq (s := s3) (t := s2.next) (cells := slots x N) (fun c hc => by
    obtain ⟨r, e, -⟩ := g3 c hc
    exact ⟨_, by rw [e, Stack.pushRaw, if_pos (by simp [canWrite])]⟩)
  have r4 : RWIn s4 s3.next b (slots x N) := fun c hc => by
    obtain ⟨r, e, hb⟩ := g3 c hc
    have := hs4 c hc
    rw [e, Stack.pushRaw, if_pos (by simp [canWrite])] at this
    exact ⟨[], _, (Option.some.inj this).symm, by simp, Stack.wr_cons _ hb⟩
  exact ⟨_, s4, by simp only [ringIterMut, lenOf, P.bind_run, e1, r1, e2, r2, e3, e4, Option.bind_some], r4,
    ((k1.trans k2).trans k3).trans (kept_of (box_sub fun c => slots_sub) (by omega) f4 r4.own w4)⟩

end SB

/-! ### Tree Borrows -/

namespace TB
variable {s s' : TB} {b d x t : Nat} {cells : List Cell}

/-- The reference may be written through at the cell. -/
structure Gd (s : TB) (t b : Nat) (cell : Cell) : Prop where
  lt : t < s.next
  sub : ∀ u ∈ s.up b, u ∈ s.up t
  good : ∀ u ∈ s.up t, Good (s.perm u cell)

theorem reMut_frame {n : Nat} (h : rules.reMut t cells s = some (n, s')) :
    s.next ≤ s'.next ∧ (∀ u, u < s.next → s'.up u = s.up u) ∧
      ∀ u, u < s.next → ∀ c, c ∉ cells → s'.perm u c = s.perm u c := by
  simp only [rules] at h
  split at h
  · rename_i ht
    cases hx : access false s.next cells (sprout t .reserved s) with
    | none => rw [hx] at h; simp at h
    | some z =>
      rw [hx] at h
      cases h
      obtain ⟨h1, h2⟩ := access_inv hx
      obtain ⟨z', e, g1, g2, g3, -⟩ := access_eq h1 h2
      rw [hx] at e
      cases e
      refine ⟨by rw [g2]; exact Nat.le_succ _, fun u hu => ?_, fun u hu c hc => ?_⟩
      · rw [g1]; simp [sprout, Nat.ne_of_lt hu]
      · rw [g3 u c hc]; simp [sprout, Nat.ne_of_lt hu]
  · simp at h

theorem Gd.frame {cell : Cell} (h : Gd s t b cell) (hw : WF s) (hb : b < s.next) (hn : s.next ≤ s'.next) (hu : ∀ u, u < s.next → s'.up u = s.up u)
    (hp : ∀ u, u < s.next → s'.perm u cell = s.perm u cell) : Gd s' t b cell :=
  ⟨Nat.lt_of_lt_of_le h.lt hn, by rw [hu b hb, hu t h.lt]; exact h.sub, fun u hm => by
    rw [hu t h.lt] at hm
    rw [hp u (hw t h.lt u hm)]
    exact h.good u hm⟩

theorem Res.gd' {p : Nat} {cs : List Cell} (h : Res s p b cs) {cell : Cell} (hc : cell ∈ cs) : Gd s p b cell :=
  ⟨h.lt, h.sub, h.gd cell hc⟩

/-- An access through such a reference. -/
theorem gd_access {cell : Cell} {w : Bool} (h : Gd s t b cell) : ∃ s', access w t [cell] s = some s' ∧ s'.up = s.up ∧ s'.next = s.next ∧
    (∀ u c, c ≠ cell → s'.perm u c = s.perm u c) ∧ Gd s' t b cell := by
  obtain ⟨s', e, h1, h2, h3, h4, -⟩ := access_eq (w := w) (cells := [cell]) h.lt (fun c hc u hu => by
    simp only [List.mem_singleton] at hc
    subst hc
    cases w
    · exact child_false.2 (h.good u hu).ne
    · exact child_true.2 (h.good u hu))
  refine ⟨s', e, h1, h2, fun u c hc => h3 u c (by simpa using hc), by rw [h2]; exact h.lt, by rw [h1]; exact h.sub, fun u hu => ?_⟩
  rw [h1] at hu
  exact child_good (h4 u cell (by simp) hu) (h.good u hu)

/-- What is left to hand out belongs to the iterator's pointer, what has been handed out to the references. -/
structure RingInv (N x b d : Nat) (s : TB) (todo : List Nat) (refs : List (Nat × Nat)) : Prop where
  own : Own s b (whole x N)
  lt : ∀ p ∈ todo, p < N
  left : Res s d b (todo.map (.slot x))
  done : ∀ p t, (p, t) ∈ refs → p ∉ todo ∧ Gd s t b (.slot x p)
  apart : (refs.map (·.1)).Nodup

theorem ring_keeps : Keeps rules x d (RingInv N x b d) where
  yield s p todo rest refs h hp hr := by
    obtain ⟨s', e, r, q⟩ := q_reMut (x := x) (cells := [.slot x p]) h.own.lt (by simp [SB.box]) (h.left.mono (by simpa using hp))
    obtain ⟨f1, f2, f3⟩ := reMut_frame e
    refine ⟨_, s', e, q.res _ _ h.own, fun q' hq => h.lt q' (hr q' hq).1, (q.res _ _ h.left).mono fun c hc => ?_, fun q' t hq => ?_, ?_⟩
    · obtain ⟨q', hq, rfl⟩ := List.mem_map.1 hc
      exact List.mem_map.2 ⟨q', (hr q' hq).1, rfl⟩
    · rcases List.mem_append.1 hq with hq | hq
      · obtain ⟨h1, h2⟩ := h.done q' t hq
        refine ⟨fun hm => h1 (hr q' hm).1, h2.frame h.own.wf h.own.lt f1 f2 fun u hu => f3 u hu _ ?_⟩
        simp; rintro rfl; exact h1 hp
      · simp only [List.mem_singleton, Prod.mk.injEq] at hq
        obtain ⟨rfl, rfl⟩ := hq
        exact ⟨fun hm => (hr q' hm).2 rfl, r.gd' (by simp)⟩
    · rw [List.map_append, List.nodup_append]
      refine ⟨h.apart, by simp, fun a ha b' hb' => ?_⟩
      simp only [List.map_cons, List.map_nil, List.mem_singleton] at hb'
      subst hb'
      obtain ⟨⟨q', t⟩, hm, rfl⟩ := List.mem_map.1 ha
      rintro rfl
      exact (h.done _ t hm).1 hp
  use s w todo refs p t h hp := by
    obtain ⟨hp1, hp2⟩ := h.done p t hp
    obtain ⟨s', e, h1, h2, h3, h4⟩ := gd_access (w := w) hp2
    have hw : WF s' := by have := h.own.wf; unfold WF at this ⊢; rwa [h1, h2]
    refine ⟨s', ?_, ⟨hw, by rw [h2]; exact h.own.lt, fun u hu => hu, fun c hc u hu => ?_, fun c hc u hu hn => absurd hu hn⟩, h.lt,
      ⟨hw, by rw [h2]; exact h.left.lt, by rw [h1]; exact h.left.sub, fun c hc u hu => ?_, fun c hc u hu hn => ?_⟩, fun p' t' hm => ?_, h.apart⟩
    · cases w <;> simp [rules, e]
    · rw [h1] at hu
      by_cases hc' : c = .slot x p
      · subst hc'; exact h4.good u (by rw [h1]; exact hp2.sub u hu)
      · rw [h3 u c hc']; exact h.own.good c hc u hu
    · have hc' : c ≠ .slot x p := by
        obtain ⟨q, hq, rfl⟩ := List.mem_map.1 hc
        simp; rintro rfl; exact hp1 hq
      rw [h3 u c hc']; rw [h1] at hu; exact h.left.good c hc u hu
    · have hc' : c ≠ .slot x p := by
        obtain ⟨q, hq, rfl⟩ := List.mem_map.1 hc
        simp; rintro rfl; exact hp1 hq
      rw [h3 u c hc']; rw [h1] at hu hn; exact h.left.res c hc u hu hn
    · obtain ⟨g1, g2⟩ := h.done p' t' hm
      refine ⟨g1, ?_⟩
      by_cases hpp : p' = p
      · subst hpp
        have : t' = t := by
          have hn := h.apart
          obtain ⟨i, hi⟩ := List.getElem?_of_mem hm
          obtain ⟨j, hj⟩ := List.getElem?_of_mem hp
          have hi' : (refs.map (·.1))[i]? = some p' := by simp [hi]
          have hj' : (refs.map (·.1))[j]? = some p' := by simp [hj]
          have : i = j := by
            obtain ⟨hi1, hi2⟩ := List.getElem?_eq_some_iff.1 hi'
            obtain ⟨hj1, hj2⟩ := List.getElem?_eq_some_iff.1 hj'
            exact (List.getElem_inj hn).1 (hi2.trans hj2.symm)
          subst this
          rw [hi] at hj
          cases hj
          rfl
        subst this
        exact h4
      · exact g2.frame h.own.wf h.own.lt (by omega) (fun u _ => by rw [h1]) fun u _ => h3 u _ (by simpa using hpp)

theorem ringIterMut_ok (h : Own s b (whole x N)) : ∃ d s', ringIterMut rules N x b s = some (d, s') ∧ Res s' d b (slots x N) ∧ Quiet s s' b x := by
  obtain ⟨s1, e1, r1, q1⟩ := q_reMut (x := x) h.lt (fun c hc => box_whole hc) h
  have l1 := Nat.lt_of_lt_of_le h.lt q1.next
  obtain ⟨s2, e2, q2⟩ := q_read (x := x) l1 (SB.box_sub (N := N) SB.head_mem) (r1.rd.mono SB.head_mem)
  have l2 := Nat.lt_of_lt_of_le l1 q2.next
  obtain ⟨s3, e3, q3⟩ := tb_lenOf l2 (q2.res _ _ r1).rd
  have l3 := Nat.lt_of_lt_of_le l2 q3.next
  obtain ⟨s4, e4, r4, q4⟩ := q_reMut (x := x) l3 (SB.box_sub slots_whole) ((q3.res _ _ (q2.res _ _ r1)).mono slots_whole)
  exact ⟨_, s4, by simp only [ringIterMut, P.bind_run, e1, e2, e3, e4, raw_run, Option.bind_some], r4, ((q1.trans q2).trans q3).trans q4⟩

end TB

/-- The owner of a container may use it at the start. -/
theorem SB.start_usable {k x : Nat} (h : x < k) : SB.rules.Usable (SB.start k) x (whole x N) :=
  SB.usable_iff.2 fun c hc => by simp only [SB.start, box_whole hc, if_pos h]; exact Stack.wr_top (by simp [canWrite])
theorem TB.start_usable {k x : Nat} (h : x < k) : TB.rules.Usable (TB.start k) x (whole x N) :=
  TB.usable_of h fun c hc u hu => by
    simp only [TB.start, List.mem_singleton] at hu
    subst hu
    exact .inr (by simp [TB.start, box_whole hc, h])

/-! ### C96 -/

/-- What C96 says about the run of a client of `iter_mut()` on a buffer with contents `l`, borrowed by `b`: every step is
accepted; the `k`-th reference is to the slot of the `k`-th item that `next`/`next_back` answered; at the end every one of the
references may still be written through, and so may `b`, everywhere in the buffer. -/
def RingSound (R : Rules σ) (i : σ) (N : Nat) (E : Env) (x b : Nat) (c : Ring A) (l : List A) (uses : List Use) (s : σ) : Prop :=
  ∃ refs s', ringClient R N E x b c uses s = some (refs, s') ∧ Reach R i s' ∧
    (∃ slots, slots.map c.mem = l.map some ∧ slots.Nodup ∧ (∀ p ∈ slots, p < N) ∧ refs.map (·.1) = handed uses slots) ∧
    (∀ p t, (p, t) ∈ refs → R.Usable s' t [.slot x p]) ∧ R.Usable s' b (whole x N)

/-- C96, Stacked Borrows. From every state a program can reach, if the borrow `b` of the whole buffer may be used, everything a
client can do with `iter_mut()` and the references it hands out is accepted, in any order. -/
theorem C96_iter_mut_stacked_borrows {k : Nat} {s : SB} (hs : Reach SB.rules (SB.start k) s) (hW : 2 * N < E.W) (h : View E N c l)
    {x b : Nat} (hb : SB.rules.Usable s b (whole x N)) (uses : List Use) : RingSound SB.rules (SB.start k) N E x b c l uses s := by
  have hr := h.rep hW
  have hle := hr.le
  obtain ⟨d, s1, e1, r1, k1⟩ := SB.ringIterMut_ok (SB.usable_iff.1 hb)
  obtain ⟨refs, s2, e2, h2, rest, h3⟩ := ringUses_ok (SB.ring_keeps (N := N) (x := x) (b := b) (d := d)) hW hr.org uses 0 l.length (by omega) s1 []
    ⟨k1.own _ (SB.usable_iff.1 hb), slots_lt hr.org (by omega), fun p hp => r1.mono (slot_mem (slots_lt hr.org (by omega) p hp)),
      by simp⟩
  have e : ringClient SB.rules N E x b c uses s = some (refs, s2) := by
    simp only [ringClient, P.bind_run, e1, Option.bind_some, iterMut_ok hW hr, lift, e2]
  refine ⟨refs, s2, e, stays_ringClient _ _ _ _ _ _ hs e, ⟨_, slots_map (a := 0) (by omega) (fun j hj => by rw [Nat.zero_add]; exact hr.cell j hj),
    slots_nodup (by omega), slots_lt hr.org (by omega), by simpa using h2⟩, fun p t hm => SB.usable_iff.2 ?_, SB.usable_iff.2 h3.own⟩
  intro cell hc
  obtain ⟨i, r, e, hi, -⟩ := (h3.done p t hm).2 cell hc
  rw [e]; exact Stack.wr_top hi

/-- C96, Tree Borrows. -/
theorem C96_iter_mut_tree_borrows {k : Nat} {s : TB} (hs : Reach TB.rules (TB.start k) s) (hW : 2 * N < E.W) (h : View E N c l)
    {x b : Nat} (hb : TB.rules.Usable s b (whole x N)) (uses : List Use) : RingSound TB.rules (TB.start k) N E x b c l uses s := by
  have hr := h.rep hW
  have hle := hr.le
  have ho := TB.usable_own (TB.Reach.wf hs) (by simp [whole]) hb
  obtain ⟨d, s1, e1, r1, q1⟩ := TB.ringIterMut_ok ho
  obtain ⟨refs, s2, e2, h2, rest, h3⟩ := ringUses_ok (TB.ring_keeps (N := N) (x := x) (b := b) (d := d)) hW hr.org uses 0 l.length (by omega) s1 []
    ⟨q1.res _ _ ho, slots_lt hr.org (by omega), r1.mono (fun c hc => by
        obtain ⟨p, hp, rfl⟩ := List.mem_map.1 hc
        exact slot_mem (slots_lt hr.org (by omega) p hp) _ (by simp)),
      by simp, by simp⟩
  have e : ringClient TB.rules N E x b c uses s = some (refs, s2) := by
    simp only [ringClient, P.bind_run, e1, Option.bind_some, iterMut_ok hW hr, lift, e2]
  refine ⟨refs, s2, e, stays_ringClient _ _ _ _ _ _ hs e, ⟨_, slots_map (a := 0) (by omega) (fun j hj => by rw [Nat.zero_add]; exact hr.cell j hj),
    slots_nodup (by omega), slots_lt hr.org (by omega), by simpa using h2⟩, fun p t hm => ?_, h3.own.usable⟩
  obtain ⟨-, g⟩ := h3.done p t hm
  exact TB.usable_of g.lt (by simpa using g.good)

/-- The buffer `[10, 20]` whose contents wrap around the end of the storage: the references are to slots 2 and 0, and they are used
in both orders after both have been handed out. -/
example : (ringClient SB.rules 3 Chunk.dbg64 0 0 Ring.seam [.next, .nextBack, .write 0, .write 1, .read 0, .next] (SB.start 2)).map
    (fun r => r.1.map (·.1)) = some [2, 0] := by decide +kernel
example : (ringClient TB.rules 3 Chunk.dbg64 0 0 Ring.seam [.next, .nextBack, .write 0, .write 1, .read 0, .next] (TB.start 2)).map
    (fun r => r.1.map (·.1)) = some [2, 0] := by decide +kernel
/-- The hypotheses hold for it at the start. -/
example : RingSound SB.rules (SB.start 2) 3 Chunk.dbg64 0 0 Ring.seam [10, 20] [.next, .nextBack, .write 0, .write 1] (SB.start 2) :=
  C96_iter_mut_stacked_borrows .init (by decide) ⟨rfl, by decide, by decide⟩ (SB.start_usable (by decide)) _
example : RingSound TB.rules (TB.start 2) 3 Chunk.dbg64 0 0 Ring.seam [10, 20] [.next, .nextBack, .write 0, .write 1] (TB.start 2) :=
  C96_iter_mut_tree_borrows .init (by decide) ⟨rfl, by decide, by decide⟩ (TB.start_usable (by decide)) _

/-- If each reference were made from the owner again instead of from one raw pointer, the first one would be gone once the
second had been made: what C96 rests on. -/
example : ((do
    let t ← SB.rules.reMut 0 [.slot 0 2]
    let d ← mutPtr SB.rules 3 0 0
    let _ ← SB.rules.reMut d [.slot 0 0]
    SB.rules.write t [.slot 0 2] : P SB Unit) (SB.start 2)).isSome = false := by decide +kernel

end Verif.Alias
