import Verif.AliasGuard
import Verif.Props.AliasMethods2
import Verif.Props.AliasInline
/-
C118: what a method is given as `self` (and as the other container) stays valid at every moment until the method returns.
-/
namespace Verif.Alias
open Verif
variable {σ α β A : Type} {N : Nat} {E : Env}

/-! ### A reference that can be used at the end could be used all along -/

section
variable (R : Rules σ) (Inv : σ → Prop) (gs : List Arg)

/-- All the arguments are valid. -/
def Alive (s : σ) : Prop := gs.all (fun g => g.alive R s) = true

/-- After the operation no argument is valid that was not before. -/
def Fading (m : P σ α) : Prop := ∀ s a s', Inv s → m s = some (a, s') → Inv s' ∧ (Alive R gs s' → Alive R gs s)

structure Lasting : Prop where
  reMut : ∀ t cells, Fading R Inv gs (R.reMut t cells)
  reShr : ∀ t cells, Fading R Inv gs (R.reShr t cells)
  raw : ∀ t cells, Fading R Inv gs (R.raw t cells)
  read : ∀ t cells, Fading R Inv gs (R.read t cells)
  write : ∀ t cells, Fading R Inv gs (R.write t cells)

/-- `m'` is `m` with the arguments guarded. -/
structure Watched (m m' : P σ α) : Prop where
  fades : Fading R Inv gs m
  fwd : ∀ s a s', Inv s → m s = some (a, s') → Alive R gs s' → m' s = some (a, s')
  back : ∀ s r, m' s = some r → m s = some r
end

variable {R : Rules σ} {Inv : σ → Prop} {gs : List Arg}

theorem Watched.of_guarding {m : P σ α} (h : Fading R Inv gs m) : Watched R Inv gs m (guarding R gs m) where
  fades := h
  fwd s a s' _ e ha := by
    simp only [guarding, e]
    exact if_pos ha
  back s r e := by
    simp only [guarding] at e
    cases hm : m s with
    | none => rw [hm] at e; simp at e
    | some p =>
      rw [hm] at e
      dsimp only at e
      split at e
      · exact e
      · simp at e

theorem Watched.pure (a : α) : Watched R Inv gs (Pure.pure a) (Pure.pure a) where
  fades s b s' hi e := by
    cases e
    exact ⟨hi, id⟩
  fwd _ _ _ _ e _ := e
  back _ _ e := e

theorem Watched.bind {m m' : P σ α} {f f' : α → P σ β} (h : Watched R Inv gs m m') (k : ∀ a, Watched R Inv gs (f a) (f' a)) :
    Watched R Inv gs (m >>= f) (m' >>= f') where
  fades s b s' hi e := by
    rw [P.bind_run] at e
    cases hm : m s with
    | none => rw [hm] at e; simp at e
    | some p =>
      rw [hm] at e
      obtain ⟨i1, g1⟩ := h.fades s p.1 p.2 hi hm
      obtain ⟨i2, g2⟩ := (k p.1).fades p.2 b s' i1 e
      exact ⟨i2, fun ha => g1 (g2 ha)⟩
  fwd s b s' hi e ha := by
    rw [P.bind_run] at e ⊢
    cases hm : m s with
    | none => rw [hm] at e; simp at e
    | some p =>
      rw [hm] at e
      obtain ⟨i1, g1⟩ := h.fades s p.1 p.2 hi hm
      rw [h.fwd s p.1 p.2 hi hm (((k p.1).fades p.2 b s' i1 e).2 ha)]
      exact (k p.1).fwd p.2 b s' i1 e ha
  back s r e := by
    rw [P.bind_run] at e ⊢
    cases hm : m' s with
    | none => rw [hm] at e; simp at e
    | some p =>
      rw [hm] at e
      rw [h.back s p hm]
      exact (k p.1).back p.2 r e

theorem Watched.ite {c : Prop} [Decidable c] {m m' n n' : P σ α} (h : Watched R Inv gs m m') (k : Watched R Inv gs n n') :
    Watched R Inv gs (if c then m else n) (if c then m' else n') := by split <;> assumption

namespace Lasting
variable (h : Lasting R Inv gs)
include h

theorem wReMut (t cells) : Watched R Inv gs (R.reMut t cells) ((R.guarded gs).reMut t cells) := .of_guarding (h.reMut t cells)
theorem wReShr (t cells) : Watched R Inv gs (R.reShr t cells) ((R.guarded gs).reShr t cells) := .of_guarding (h.reShr t cells)
theorem wRaw (t cells) : Watched R Inv gs (R.raw t cells) ((R.guarded gs).raw t cells) := .of_guarding (h.raw t cells)
theorem wRead (t cells) : Watched R Inv gs (R.read t cells) ((R.guarded gs).read t cells) := .of_guarding (h.read t cells)
theorem wWrite (t cells) : Watched R Inv gs (R.write t cells) ((R.guarded gs).write t cells) := .of_guarding (h.write t cells)

theorem call (b : Nat → Tag) (c : Call) : Watched R Inv gs (c.run R N b) (c.run (R.guarded gs) N b) := by
  cases c <;> simp only [Call.run, lenOf, ptr, mutPtr, dataMut, dataConst, readLen, setLen, bind_assoc] <;>
    repeat' first
      | apply Watched.ite
      | exact Watched.pure _
      | exact h.wReMut _ _
      | exact h.wReShr _ _
      | exact h.wRaw _ _
      | exact h.wRead _ _
      | exact h.wWrite _ _
      | refine Watched.bind ?_ fun _ => ?_

theorem calls (b : Nat → Tag) (cs : List Call) : Watched R Inv gs (runCalls R N b cs) (runCalls (R.guarded gs) N b cs) := by
  induction cs with
  | nil => exact .pure _
  | cons c cs ih => exact .bind (h.call b c) fun _ => ih

end Lasting

/-! ### Stacked Borrows -/

namespace Stack

theorem ex_cons {P : Item → Prop} {j : Item} {st : List Item} : (∃ i ∈ j :: st, P i) ↔ P j ∨ ∃ i ∈ st, P i := by simp

theorem write_some {t : Nat} {st : List Item} : (write t st).isSome = true ↔ ∃ i ∈ st, canWrite t i = true := by
  induction st with
  | nil => simp [write]
  | cons i st ih =>
    simp only [write]
    split
    · simp [*]
    · simp [*]

theorem read_some {t : Nat} {st : List Item} : (read t st).isSome = true ↔ ∃ i ∈ st, canRead t i = true := by
  induction st with
  | nil => simp [read]
  | cons i st ih =>
    simp only [read]
    split
    · simp [*]
    · simp [*]

theorem canWrite_demote {t : Nat} {i : Item} (h : canWrite t (demote i) = true) : canWrite t i = true := by
  unfold demote at h
  split at h
  · simp [canWrite] at h
  · exact h
theorem canRead_demote {t : Nat} {i : Item} (h : canRead t (demote i) = true) : canRead t i = true := by
  unfold demote at h
  split at h
  · simp [canRead] at h
  · exact h

/-- The operation gives nobody but `n` a permission. -/
def Fades (n : Nat) (f : List Item → Option (List Item)) : Prop := ∀ st st', f st = some st' → ∀ p, p ≠ n →
  ((∃ i ∈ st', canWrite p i = true) → ∃ i ∈ st, canWrite p i = true) ∧ ((∃ i ∈ st', canRead p i = true) → ∃ i ∈ st, canRead p i = true)

theorem fades_write (t n : Nat) : Fades n (write t) := fun _ _ e _ _ =>
  ⟨fun ⟨i, hi, h⟩ => ⟨i, mem_write e i hi, h⟩, fun ⟨i, hi, h⟩ => ⟨i, mem_write e i hi, h⟩⟩

theorem fades_read (t n : Nat) : Fades n (read t) := by
  intro st
  induction st with
  | nil => intro st' e; simp [read] at e
  | cons j st ih =>
    intro st' e p hp
    simp only [read] at e
    split at e
    · simp only [Option.some.injEq] at e
      subst e
      exact ⟨id, id⟩
    · cases hx : read t st with
      | none => rw [hx] at e; simp at e
      | some z =>
        rw [hx] at e
        simp only [Option.map_some, Option.some.injEq] at e
        subst e
        obtain ⟨h1, h2⟩ := ih z hx p hp
        simp only [ex_cons]
        exact ⟨fun h => h.imp canWrite_demote h1, fun h => h.imp canRead_demote h2⟩

theorem fades_pushRaw (t n : Nat) : Fades n (pushRaw t n) := by
  intro st
  induction st with
  | nil => intro st' e; simp [pushRaw] at e
  | cons j st ih =>
    intro st' e p hp
    have hw : canWrite p ⟨.sharedRW, n⟩ = false := by simp [canWrite, Ne.symm hp]
    have hr : canRead p ⟨.sharedRW, n⟩ = false := by simp [canRead, Ne.symm hp]
    simp only [pushRaw] at e
    split at e
    · simp only [Option.some.injEq] at e
      subst e
      simp only [ex_cons, hw, hr, Bool.false_eq_true, false_or]
      exact ⟨id, id⟩
    · cases hx : pushRaw t n st with
      | none => rw [hx] at e; simp at e
      | some z =>
        rw [hx] at e
        simp only [Option.map_some, Option.some.injEq] at e
        subst e
        obtain ⟨h1, h2⟩ := ih z hx p hp
        simp only [ex_cons]
        exact ⟨fun h => h.imp id h1, fun h => h.imp id h2⟩

theorem Fades.push {n : Nat} {f : List Item → Option (List Item)} (h : Fades n f) (q : Perm) : Fades n fun st => (f st).map (⟨q, n⟩ :: ·) := by
  intro st st' e p hp
  have hw : canWrite p ⟨q, n⟩ = false := by simp [canWrite, Ne.symm hp]
  have hr : canRead p ⟨q, n⟩ = false := by simp [canRead, Ne.symm hp]
  cases hx : f st with
  | none => simp [hx] at e
  | some z =>
    simp only [hx, Option.map_some, Option.some.injEq] at e
    subst e
    simp only [ex_cons, hw, hr, Bool.false_eq_true, false_or]
    exact h st z hx p hp

end Stack

namespace SB

/-- The arguments' tags have been issued. -/
def Issued (gs : List Arg) (s : SB) : Prop := ∀ g ∈ gs, g.tag < s.next

theorem alive_iff {g : Arg} {s : SB} : g.alive rules s = true ↔
    ∀ c ∈ g.cells, if g.w = true then ∃ i ∈ s.stacks c, Stack.canWrite g.tag i = true else ∃ i ∈ s.stacks c, Stack.canRead g.tag i = true := by
  unfold Arg.alive
  rw [List.all_eq_true]
  refine forall_congr' fun c => forall_congr' fun _ => ?_
  split
  · rw [← Stack.write_some, write_run, each]
    simp only [List.mem_singleton, forall_eq]
    split <;> simp_all
  · rw [← Stack.read_some, read_run, each]
    simp only [List.mem_singleton, forall_eq]
    split <;> simp_all

theorem each_fading {gs : List Arg} {f : List Item → Option (List Item)} {n : Nat} (h : Stack.Fades n f) {cells : List Cell} {s s' : SB}
    (hn : ∀ g ∈ gs, g.tag ≠ n) (e : each f cells s = some s') (k : Nat) : Alive rules gs { s' with next := k } → Alive rules gs s := by
  unfold Alive
  simp only [List.all_eq_true, alive_iff]
  intro ha g hg c hc
  have := ha g hg c hc
  obtain ⟨-, h2, h3⟩ := each_inv e
  by_cases hcc : c ∈ cells
  · obtain ⟨h4, h5⟩ := h _ _ (h3 c hcc) g.tag (hn g hg)
    split at this
    · rw [if_pos ‹_›]; exact h4 this
    · rw [if_neg ‹_›]; exact h5 this
  · rwa [show s'.stacks c = s.stacks c from h2 c hcc] at this

theorem lasting (gs : List Arg) : Lasting rules (Issued gs) gs := by
  have fresh : ∀ {f : Nat → List Item → Option (List Item)} (cells : List Cell) (_ : ∀ n, Stack.Fades n (f n)),
      Fading rules (Issued gs) gs (fun s => (each (f s.next) cells s).map fun s' => (s.next, { s' with next := s.next + 1 }) : P SB Tag) := by
    intro f cells h s a s' hi e
    cases hx : each (f s.next) cells s with
    | none => simp [hx] at e
    | some z =>
      simp only [hx, Option.map_some, Option.some.injEq, Prod.mk.injEq] at e
      obtain ⟨-, rfl⟩ := e
      exact ⟨fun g hg => Nat.lt_succ_of_lt (hi g hg), each_fading (h s.next) (fun g hg => Nat.ne_of_lt (hi g hg)) hx _⟩
  have plain : ∀ {f : List Item → Option (List Item)} (cells : List Cell) (_ : ∀ n, Stack.Fades n f),
      Fading rules (Issued gs) gs (fun s => (each f cells s).map fun s' => ((), s') : P SB Unit) := by
    intro f cells h s a s' hi e
    cases hx : each f cells s with
    | none => simp [hx] at e
    | some z =>
      simp only [hx, Option.map_some, Option.some.injEq, Prod.mk.injEq, true_and] at e
      subst e
      have hz : z.next = s.next := (each_inv hx).1
      exact ⟨fun g hg => by rw [hz]; exact hi g hg, each_fading (h s.next) (fun g hg => Nat.ne_of_lt (hi g hg)) hx z.next⟩
  exact ⟨fun t cells => fresh cells fun n => (Stack.fades_write t n).push _, fun t cells => fresh cells fun n => (Stack.fades_read t n).push _,
    fun t cells => fresh cells fun n => Stack.fades_pushRaw t n, fun t cells => plain cells fun n => Stack.fades_read t n,
    fun t cells => plain cells fun n => Stack.fades_write t n⟩

end SB

/-! ### Tree Borrows -/

namespace TB

/-- The arguments' tags, and those they are derived from, have been issued. -/
def Issued (gs : List Arg) (s : TB) : Prop := ∀ g ∈ gs, g.tag < s.next ∧ ∀ u ∈ s.up g.tag, u < s.next

theorem alive_iff {g : Arg} {s : TB} : g.alive rules s = true ↔
    ∀ c ∈ g.cells, g.tag < s.next ∧ ∀ u ∈ s.up g.tag, ((s.perm u c).child g.w).isSome = true := by
  unfold Arg.alive
  rw [List.all_eq_true]
  refine forall_congr' fun c => forall_congr' fun _ => ?_
  cases hw : g.w <;> simp only [rules, access, Bool.false_eq_true, if_false, if_true, List.mem_singleton, forall_eq] <;> split <;> simp_all

theorem child_back {p q : TPerm} {w v : Bool} (h : p.child w = some q) (hq : (q.child v).isSome = true) : (p.child v).isSome = true := by
  cases p <;> cases w <;> cases v <;> simp [TPerm.child] at h ⊢ <;> subst h <;> simp [TPerm.child] at hq
theorem foreign_back {p : TPerm} {w v : Bool} (hq : ((p.foreign w).child v).isSome = true) : (p.child v).isSome = true := by
  cases p <;> cases w <;> cases v <;> simp_all [TPerm.child, TPerm.foreign]

theorem access_fading {gs : List Arg} {w : Bool} {t : Nat} {cells : List Cell} {s s' : TB} (e : access w t cells s = some s') :
    (Issued gs s → Issued gs s') ∧ (Alive rules gs s' → Alive rules gs s) := by
  obtain ⟨h1, h2⟩ := access_inv e
  obtain ⟨s2, e2, hu, hn, p1, p2, p3⟩ := access_eq h1 h2
  rw [e] at e2
  cases e2
  refine ⟨fun hi g hg => by rw [hu, hn]; exact hi g hg, ?_⟩
  unfold Alive
  simp only [List.all_eq_true, alive_iff]
  intro ha g hg c hc
  obtain ⟨a1, a2⟩ := ha g hg c hc
  rw [hn] at a1
  rw [hu] at a2
  refine ⟨a1, fun u h => ?_⟩
  have := a2 u h
  by_cases hcc : c ∈ cells
  · by_cases ht : u ∈ s.up t
    · exact child_back (p2 u c hcc ht) this
    · rw [p3 u c hcc ht] at this
      exact foreign_back this
  · rwa [p1 u c hcc] at this

theorem sprout_fading {gs : List Arg} {t : Nat} {p : TPerm} {s : TB} (hi : Issued gs s) :
    Issued gs (sprout t p s) ∧ (Alive rules gs (sprout t p s) → Alive rules gs s) := by
  have hu : ∀ g ∈ gs, (sprout t p s).up g.tag = s.up g.tag := fun g hg => by simp [sprout, Nat.ne_of_lt (hi g hg).1]
  constructor
  · intro g hg
    rw [hu g hg]
    exact ⟨Nat.lt_succ_of_lt (hi g hg).1, fun u h => Nat.lt_succ_of_lt ((hi g hg).2 u h)⟩
  · unfold Alive
    simp only [List.all_eq_true, alive_iff]
    intro ha g hg c hc
    obtain ⟨-, a2⟩ := ha g hg c hc
    rw [hu g hg] at a2
    refine ⟨(hi g hg).1, fun u h => ?_⟩
    have := a2 u h
    rwa [show (sprout t p s).perm u c = s.perm u c by simp [sprout, Nat.ne_of_lt ((hi g hg).2 u h)]] at this

theorem lasting (gs : List Arg) : Lasting rules (Issued gs) gs := by
  have plain : ∀ w t cells, Fading rules (Issued gs) gs (fun s => (access w t cells s).map fun s' => ((), s') : P TB Unit) := by
    intro w t cells s a s' hi e
    cases hx : access w t cells s with
    | none => simp [hx] at e
    | some z =>
      simp only [hx, Option.map_some, Option.some.injEq, Prod.mk.injEq, true_and] at e
      subst e
      exact ⟨(access_fading hx).1 hi, (access_fading hx).2⟩
  have fresh : ∀ t p cells, Fading rules (Issued gs) gs
      (fun s => if t < s.next then (access false s.next cells (sprout t p s)).map fun s' => (s.next, s') else none : P TB Tag) := by
    intro t p cells s a s' hi e
    dsimp only at e
    split at e
    · cases hx : access false s.next cells (sprout t p s) with
      | none => simp [hx] at e
      | some z =>
        simp only [hx, Option.map_some, Option.some.injEq, Prod.mk.injEq] at e
        obtain ⟨-, rfl⟩ := e
        obtain ⟨i1, a1⟩ := sprout_fading (t := t) (p := p) hi
        exact ⟨(access_fading hx).1 i1, fun h => a1 ((access_fading hx).2 h)⟩
    · simp at e
  exact ⟨fun t cells => fresh t _ cells, fun t cells => fresh t _ cells, fun t _ s a s' hi e => by cases e; exact ⟨hi, id⟩,
    fun t cells => plain false t cells, fun t cells => plain true t cells⟩

end TB

/-! ### C118 -/

/-- From `s`, with `b 0` and `b 1` the arguments of the method that makes the calls: nothing changes if they are guarded, and the calls are accepted exactly
if `policy`. -/
def GuardedExactly (R : Rules σ) (N : Nat) (b : Nat → Nat) (calls : List Call) (policy : Prop) (s : σ) : Prop :=
  runCalls (R.guarded (selves N b [0, 1])) N b calls s = runCalls R N b calls s ∧
  ((runCalls (R.guarded (selves N b [0, 1])) N b calls s).isSome ↔ policy)

theorem alive_of_usable {R : Rules σ} {b : Nat → Nat} {s : σ} (hb : ∀ x, x < 2 → R.Usable s (b x) (whole x N)) : Alive R (selves N b [0, 1]) s := by
  have h : ∀ x, x < 2 → (Arg.mk (b x) true (whole x N)).alive R s = true := fun x hx => by
    simp only [Arg.alive, List.all_eq_true, if_true]
    intro c hc
    obtain ⟨s', e⟩ := hb x hx c hc
    rw [e]
    rfl
  simp [Alive, selves, h 0 (by decide), h 1 (by decide)]

theorem CallsExactly.guard {R : Rules σ} {Inv : σ → Prop} {i s : σ} {b : Nat → Nat} {calls : List Call} {policy : Prop}
    (h : CallsExactly R i N b calls policy s) (hl : Lasting R Inv (selves N b [0, 1])) (hi : Inv s)
    (hb : ∀ x, x < 2 → R.Usable s (b x) (whole x N)) : GuardedExactly R N b calls policy s := by
  have e : runCalls (R.guarded (selves N b [0, 1])) N b calls s = runCalls R N b calls s := by
    have w := hl.calls (N := N) b calls
    cases hr : runCalls R N b calls s with
    | none =>
      cases hg : runCalls (R.guarded (selves N b [0, 1])) N b calls s with
      | none => rfl
      | some r => rw [w.back s r hg] at hr; cases hr
    | some r => exact w.fwd s () r.2 hi hr (alive_of_usable fun x hx => (h.2 r.2 hr).2 x (hb x hx))
  exact ⟨e, by rw [e]; exact h.1⟩

theorem SB.issued_selves {b : Nat → Nat} {s : SB} (hs : SB.WF s) (hb : ∀ x, x < 2 → SB.rules.Usable s (b x) (whole x N)) :
    SB.Issued (selves N b [0, 1]) s := by
  have : ∀ x, x < 2 → b x < s.next := fun x hx => by
    obtain ⟨r, e⟩ := SB.usable_iff.1 (hb x hx) (.head x) (by simp)
    have : (Stack.write (b x) (s.stacks (.head x))).isSome = true := by rw [e]; rfl
    obtain ⟨i, hm, hc⟩ := Stack.write_some.1 this
    simp only [Stack.canWrite, Bool.and_eq_true, beq_iff_eq] at hc
    rw [← hc.1]
    exact hs _ i hm
  intro g hg
  simp only [selves, List.map_cons, List.map_nil, List.mem_cons, List.not_mem_nil, or_false] at hg
  rcases hg with rfl | rfl
  · exact this 0 (by decide)
  · exact this 1 (by decide)

theorem TB.issued_selves {b : Nat → Nat} {s : TB} (hs : TB.WF s) (hb : ∀ x, x < 2 → TB.rules.Usable s (b x) (whole x N)) :
    TB.Issued (selves N b [0, 1]) s := by
  have : ∀ x, x < 2 → b x < s.next := fun x hx => (TB.usable_own hs (by simp [whole]) (hb x hx)).lt
  intro g hg
  simp only [selves, List.map_cons, List.map_nil, List.mem_cons, List.not_mem_nil, or_false] at hg
  rcases hg with rfl | rfl
  · exact ⟨this 0 (by decide), hs _ (this 0 (by decide))⟩
  · exact ⟨this 1 (by decide), hs _ (this 1 (by decide))⟩

theorem CallsExactly.guard_stacked {k : Nat} {s : SB} (hs : Reach SB.rules (SB.start k) s) {b : Nat → Nat} {calls : List Call} {policy : Prop}
    (hb : ∀ x, x < 2 → SB.rules.Usable s (b x) (whole x N)) (h : CallsExactly SB.rules (SB.start k) N b calls policy s) :
    GuardedExactly SB.rules N b calls policy s :=
  h.guard (SB.lasting _) (SB.issued_selves (SB.Reach.wf hs) hb) hb
theorem CallsExactly.guard_tree {k : Nat} {s : TB} (hs : Reach TB.rules (TB.start k) s) {b : Nat → Nat} {calls : List Call} {policy : Prop}
    (hb : ∀ x, x < 2 → TB.rules.Usable s (b x) (whole x N)) (h : CallsExactly TB.rules (TB.start k) N b calls policy s) :
    GuardedExactly TB.rules N b calls policy s :=
  h.guard (TB.lasting _) (TB.issued_selves (TB.Reach.wf hs) hb) hb

/-- C118, `Chunk`: a method's arguments are valid until it returns. -/
theorem C118_chunk_tree_borrows {k : Nat} {s : TB} (hs : Reach TB.rules (TB.start k) s) {c d : Chunk A} {l l' : List A} (hN : 2 * N < E.W)
    (h : Chunk.View E N c l) (h' : Chunk.View E N d l') (b : Nat → Nat) (hb : ∀ x, x < 2 → TB.rules.Usable s (b x) (whole x N)) (m : ChunkMethod) :
    GuardedExactly TB.rules N b (m.calls N c.left c.right d.left d.right) True s :=
  (C100_chunk_tree_borrows hs hN h h' b hb m).guard_tree hs hb
/-- Under Stacked Borrows methods which move items within the chunk are rejected (C100); guarding the arguments makes no difference. -/
theorem C118_chunk_stacked_borrows {k : Nat} {s : SB} (hs : Reach SB.rules (SB.start k) s) {c d : Chunk A} {l l' : List A} (hN : 2 * N < E.W)
    (h : Chunk.View E N c l) (h' : Chunk.View E N d l') (b : Nat → Nat) (hb : ∀ x, x < 2 → SB.rules.Usable s (b x) (whole x N)) (m : ChunkMethod) :
    GuardedExactly SB.rules N b (m.calls N c.left c.right d.left d.right) (¬m.Shifts N c.left c.right d.left d.right) s :=
  (C100_chunk_stacked_borrows_partial hs hN h h' b hb m).guard_stacked hs hb

/-- C118, `InlineArray`. -/
theorem C118_inline_tree_borrows {k : Nat} {s : TB} (hs : Reach TB.rules (TB.start k) s) {n : Nat} (hn : n ≤ N) (b : Nat → Nat)
    (hb : ∀ x, x < 2 → TB.rules.Usable s (b x) (whole x N)) (m : InlineMethod) : GuardedExactly TB.rules N b (m.calls N n) True s :=
  (C100_inline_tree_borrows hs hn b hb m).guard_tree hs hb
theorem C118_inline_stacked_borrows {k : Nat} {s : SB} (hs : Reach SB.rules (SB.start k) s) {n : Nat} (hn : n ≤ N) (b : Nat → Nat)
    (hb : ∀ x, x < 2 → SB.rules.Usable s (b x) (whole x N)) (m : InlineMethod) : GuardedExactly SB.rules N b (m.calls N n) (¬m.Shifts n) s :=
  (C100_inline_stacked_borrows_partial hs hn b hb m).guard_stacked hs hb

/-- C118, `RingBuffer`. -/
theorem C118_ring_tree_borrows {k : Nat} {s : TB} (hs : Reach TB.rules (TB.start k) s) {c d : Ring A} {l l' : List A} (hW : 2 * N < E.W)
    (h : Ring.View E N c l) (h' : Ring.View E N d l') (b : Nat → Nat) (hb : ∀ x, x < 2 → TB.rules.Usable s (b x) (whole x N)) (m : RingMethod) :
    GuardedExactly TB.rules N b (m.calls N c.origin c.length d.origin d.length) True s :=
  (C102_ring_tree_borrows hs hW h h' b hb m).guard_tree hs hb
theorem C118_ring_stacked_borrows {k : Nat} {s : SB} (hs : Reach SB.rules (SB.start k) s) {c d : Ring A} {l l' : List A} (hW : 2 * N < E.W)
    (h : Ring.View E N c l) (h' : Ring.View E N d l') (b : Nat → Nat) (hb : ∀ x, x < 2 → SB.rules.Usable s (b x) (whole x N)) (m : RingMethod) :
    GuardedExactly SB.rules N b (m.calls N c.origin c.length d.origin d.length) True s :=
  (C102_ring_stacked_borrows hs hW h h' b hb m).guard_stacked hs hb

/-- C118, `SparseChunk`. -/
theorem C118_sparse_tree_borrows {k : Nat} {s : TB} (hs : Reach TB.rules (TB.start k) s) (c : Sparse A) (b : Nat → Nat)
    (hb : ∀ x, x < 2 → TB.rules.Usable s (b x) (whole x N)) (m : SparseMethod) : GuardedExactly TB.rules N b (m.calls N c.map) True s :=
  (C102_sparse_tree_borrows hs c b hb m).guard_tree hs hb
theorem C118_sparse_stacked_borrows {k : Nat} {s : SB} (hs : Reach SB.rules (SB.start k) s) (c : Sparse A) (b : Nat → Nat)
    (hb : ∀ x, x < 2 → SB.rules.Usable s (b x) (whole x N)) (m : SparseMethod) : GuardedExactly SB.rules N b (m.calls N c.map) True s :=
  (C102_sparse_stacked_borrows hs c b hb m).guard_stacked hs hb

/-! ### No access but through the arguments -/

namespace TB
section
variable (U : Tag → List Tag)

/-- `U` says what the issued tags are derived from. -/
def Agree (s : TB) : Prop := ∀ u, u < s.next → s.up u = U u

/-- What holds of `U` after the operation held before. -/
def Backward (m : P TB α) : Prop := ∀ s a s', m s = some (a, s') → Agree U s' → Agree U s

/-- When `U` is right in the end, `Q` holds of the result, and `m'` does the same as `m`. -/
def Follows (m m' : P TB α) (Q : α → Prop) : Prop := ∀ s a s', m s = some (a, s') → Agree U s' → Q a ∧ m' s = some (a, s')

/-- `m'` accepts no more than `m`. -/
def Stricter (m m' : P TB α) : Prop := ∀ s r, m' s = some r → m s = some r
end

variable {U : Tag → List Tag} {gs : List Arg}

theorem Backward.pure (a : α) : Backward U (Pure.pure a) := fun _ _ _ e h => by cases e; exact h
theorem Backward.bind {m : P TB α} {f : α → P TB β} (h : Backward U m) (k : ∀ a, Backward U (f a)) : Backward U (m >>= f) := by
  intro s b s' e ha
  rw [P.bind_run] at e
  cases hm : m s with
  | none => rw [hm] at e; simp at e
  | some p =>
    rw [hm] at e
    exact h s p.1 p.2 hm (k p.1 p.2 b s' e ha)
theorem Backward.ite {c : Prop} [Decidable c] {m n : P TB α} (h : Backward U m) (k : Backward U n) : Backward U (if c then m else n) := by split <;> assumption

theorem backward_access (w : Bool) (t cells) : Backward U (fun s => (access w t cells s).map fun s' => ((), s') : P TB Unit) := by
  intro s a s' e ha
  cases hx : access w t cells s with
  | none => simp [hx] at e
  | some z =>
    simp only [hx, Option.map_some, Option.some.injEq, Prod.mk.injEq, true_and] at e
    subst e
    obtain ⟨h1, h2⟩ := access_keeps hx
    intro u hu
    rw [← h1]
    exact ha u (h2 ▸ hu)

/-- Making a reference. -/
theorem make_inv {t : Tag} {p : TPerm} {cells : List Cell} {s : TB} {n : Tag} {s' : TB}
    (e : (if t < s.next then (access false s.next cells (sprout t p s)).map fun s' => (s.next, s') else none) = some (n, s')) :
    t < s.next ∧ n = s.next ∧ s'.next = s.next + 1 ∧ s'.up n = n :: s.up t ∧ ∀ u, u < s.next → s'.up u = s.up u := by
  split at e
  · cases hx : access false s.next cells (sprout t p s) with
    | none => simp [hx] at e
    | some z =>
      simp only [hx, Option.map_some, Option.some.injEq, Prod.mk.injEq] at e
      obtain ⟨rfl, rfl⟩ := e
      obtain ⟨h1, h2⟩ := access_keeps hx
      refine ⟨‹_›, rfl, h2, by rw [h1]; simp [sprout], fun u hu => by rw [h1]; simp [sprout, Nat.ne_of_lt hu]⟩
  · simp at e

theorem backward_make (t : Tag) (p : TPerm) (cells) :
    Backward U (fun s => if t < s.next then (access false s.next cells (sprout t p s)).map fun s' => (s.next, s') else none : P TB Tag) := by
  intro s a s' e ha u hu
  obtain ⟨-, -, h2, -, h4⟩ := make_inv e
  rw [← h4 u hu]
  exact ha u (by omega)

theorem back_reMut (t cells) : Backward U (rules.reMut t cells) := backward_make t _ cells
theorem back_reShr (t cells) : Backward U (rules.reShr t cells) := backward_make t _ cells
theorem back_raw (t cells) : Backward U (rules.raw t cells) := .pure t
theorem back_read (t cells) : Backward U (rules.read t cells) := backward_access false t cells
theorem back_write (t cells) : Backward U (rules.write t cells) := backward_access true t cells

theorem backward_call (b : Nat → Tag) (c : Call) : Backward U (c.run rules N b) := by
  cases c <;> simp only [Call.run, lenOf, ptr, mutPtr, dataMut, dataConst, readLen, setLen, bind_assoc] <;>
    repeat' with_reducible first
      | apply Backward.ite
      | exact Backward.pure _
      | exact back_reMut _ _
      | exact back_reShr _ _
      | exact back_raw _ _
      | exact back_read _ _
      | exact back_write _ _
      | refine Backward.bind ?_ fun _ => ?_

theorem Stricter.refl (m : P TB α) : Stricter m m := fun _ _ e => e
theorem Stricter.bind {m m' : P TB α} {f f' : α → P TB β} (h : Stricter m m') (k : ∀ a, Stricter (f a) (f' a)) : Stricter (m >>= f) (m' >>= f') := by
  intro s r e
  rw [P.bind_run] at e ⊢
  cases hm : m' s with
  | none => rw [hm] at e; simp at e
  | some p =>
    rw [hm] at e
    rw [h s p hm]
    exact k p.1 p.2 r e
theorem Stricter.ite {c : Prop} [Decidable c] {m m' n n' : P TB α} (h : Stricter m m') (k : Stricter n n') :
    Stricter (if c then m else n) (if c then m' else n') := by split <;> assumption
theorem Stricter.op (t cells) (m : P TB α) : Stricter m (exclusively gs t cells m) := by
  intro s r e
  simp only [exclusively] at e
  split at e
  · simp at e
  · exact e

theorem stricter_call (b : Nat → Tag) (c : Call) : Stricter (c.run rules N b) (c.run (exclusive gs) N b) := by
  cases c <;> simp only [Call.run, lenOf, ptr, mutPtr, dataMut, dataConst, readLen, setLen, bind_assoc] <;>
    repeat' first
      | apply Stricter.ite
      | exact Stricter.refl _
      | exact Stricter.op _ _ _
      | refine Stricter.bind ?_ fun _ => ?_

theorem Follows.pure (a : α) : Follows U (Pure.pure a) (Pure.pure a) (fun _ => True) := fun _ _ _ e _ => ⟨trivial, e⟩
theorem Follows.bind {m m' : P TB α} {f f' : α → P TB β} {Q : α → Prop} {Q' : β → Prop} (h : Follows U m m' Q)
    (k : ∀ a, Q a → Follows U (f a) (f' a) Q') (kb : ∀ a, Backward U (f a)) : Follows U (m >>= f) (m' >>= f') Q' := by
  intro s b s' e ha
  rw [P.bind_run] at e ⊢
  cases hm : m s with
  | none => rw [hm] at e; simp at e
  | some p =>
    rw [hm] at e
    obtain ⟨q1, e1⟩ := h s p.1 p.2 hm (kb p.1 p.2 b s' e ha)
    rw [e1]
    exact k p.1 q1 p.2 b s' e ha
theorem Follows.ite {c : Prop} [Decidable c] {m m' n n' : P TB α} {Q : α → Prop} (h : Follows U m m' Q) (k : Follows U n n' Q) :
    Follows U (if c then m else n) (if c then m' else n') Q := by split <;> assumption

section
variable {b : Nat → Tag} {t : Tag} {x : Nat} {cells : List Cell}

/-- Cells of container `x`, accessed through a reference derived from `b x`. -/
theorem not_foreign {s : TB} (hc : ∀ c ∈ cells, SB.box c = x) (hd : b x ∈ s.up t) : foreign (selves N b [0, 1]) t cells s = false := by
  have h : ∀ z, (cells.any fun c => decide (c ∈ whole z N) && !decide (b z ∈ s.up t)) = false := fun z => by
    rw [List.any_eq_false]
    intro c h
    by_cases hz : c ∈ whole z N
    · have : z = x := (box_whole hz).symm.trans (hc c h)
      subst this
      simp [hd]
    · simp [hz]
  simp [foreign, selves, h]

theorem follows_access (hc : ∀ c ∈ cells, SB.box c = x) (hd : b x ∈ U t) (w : Bool) :
    Follows U (fun s => (access w t cells s).map fun s' => ((), s') : P TB Unit)
      (exclusively (selves N b [0, 1]) t cells fun s => (access w t cells s).map fun s' => ((), s')) (fun _ => True) := by
  intro s a s' e ha
  have hb := backward_access (U := U) w t cells s a s' e ha
  have ht : t < s.next := by
    cases hx : access w t cells s with
    | none => simp [hx] at e
    | some z => exact (access_inv hx).1
  refine ⟨trivial, ?_⟩
  simp only [exclusively, not_foreign (N := N) hc ((hb t ht).symm ▸ hd : b x ∈ s.up t)]
  exact e

theorem follows_make (hc : ∀ c ∈ cells, SB.box c = x) (hd : b x ∈ U t) (p : TPerm) :
    Follows U (fun s => if t < s.next then (access false s.next cells (sprout t p s)).map fun s' => (s.next, s') else none : P TB Tag)
      (exclusively (selves N b [0, 1]) t cells fun s => if t < s.next then (access false s.next cells (sprout t p s)).map fun s' => (s.next, s') else none)
      (fun n => b x ∈ U n) := by
  intro s n s' e ha
  have hb := backward_make (U := U) t p cells s n s' e ha
  obtain ⟨ht, rfl, h2, h3, h4⟩ := make_inv e
  have h5 : b x ∈ s.up t := (hb t ht).symm ▸ hd
  refine ⟨?_, ?_⟩
  · show b x ∈ U s.next
    rw [← ha s.next (by omega), h3]
    exact List.mem_cons_of_mem _ h5
  · simp only [exclusively, not_foreign (N := N) hc h5]
    exact e

theorem follows_raw (hd : b x ∈ U t) : Follows U (rules.raw t cells) (rules.raw t cells) (fun n => b x ∈ U n) := by
  intro s n s' e _
  cases e
  exact ⟨hd, rfl⟩

end

theorem box_span {x lo n : Nat} : ∀ c ∈ span x lo n, SB.box c = x := by
  intro c hc
  cases c <;> simp at hc <;> simp [SB.box, hc]

/-- All the cells are of container `x`. -/
class Boxed (cells : List Cell) (x : outParam Nat) : Prop where
  box : ∀ c ∈ cells, SB.box c = x
instance {x lo n : Nat} : Boxed (span x lo n) x := ⟨box_span⟩
instance {x : Nat} : Boxed (slots x N) x := ⟨box_span⟩
instance {x : Nat} : Boxed (whole x N) x := ⟨fun _ => box_whole⟩
instance {x : Nat} : Boxed [Cell.head x] x := ⟨by simp [SB.box]⟩
instance {x i : Nat} : Boxed [Cell.slot x i] x := ⟨by simp [SB.box]⟩

section
variable {b : Nat → Tag} {t : Tag} {x : Nat} {cells : List Cell} {f f' : Tag → P TB β} {g g' : P TB β} {Q : β → Prop} [hc : Boxed cells x] (hd : b x ∈ U t)
include hd

theorem follows_read : Follows U (rules.read t cells) ((exclusive (selves N b [0, 1])).read t cells) (fun _ => True) := follows_access hc.box hd false
theorem follows_write : Follows U (rules.write t cells) ((exclusive (selves N b [0, 1])).write t cells) (fun _ => True) := follows_access hc.box hd true
theorem then_reMut (k : ∀ n, b x ∈ U n → Follows U (f n) (f' n) Q) (kb : ∀ n, Backward U (f n)) :
    Follows U (rules.reMut t cells >>= f) ((exclusive (selves N b [0, 1])).reMut t cells >>= f') Q := .bind (follows_make hc.box hd _) k kb
theorem then_reShr (k : ∀ n, b x ∈ U n → Follows U (f n) (f' n) Q) (kb : ∀ n, Backward U (f n)) :
    Follows U (rules.reShr t cells >>= f) ((exclusive (selves N b [0, 1])).reShr t cells >>= f') Q := .bind (follows_make hc.box hd _) k kb
omit hc in
theorem then_raw (k : ∀ n, b x ∈ U n → Follows U (f n) (f' n) Q) (kb : ∀ n, Backward U (f n)) :
    Follows U (rules.raw t cells >>= f) ((exclusive (selves N b [0, 1])).raw t cells >>= f') Q := .bind (follows_raw hd) k kb
theorem then_read {f f' : Unit → P TB β} (k : ∀ n, Follows U (f n) (f' n) Q) (kb : ∀ n, Backward U (f n)) :
    Follows U (rules.read t cells >>= f) ((exclusive (selves N b [0, 1])).read t cells >>= f') Q := .bind (follows_read hd) (fun n _ => k n) kb
theorem then_write {f f' : Unit → P TB β} (k : ∀ n, Follows U (f n) (f' n) Q) (kb : ∀ n, Backward U (f n)) :
    Follows U (rules.write t cells >>= f) ((exclusive (selves N b [0, 1])).write t cells >>= f') Q := .bind (follows_write hd) (fun n _ => k n) kb

end

theorem follows_call (b : Nat → Tag) (c : Call) (hb : ∀ x ∈ c.boxes, b x ∈ U (b x)) :
    Follows U (c.run rules N b) (c.run (exclusive (selves N b [0, 1])) N b) (fun _ => True) := by
  cases c <;> simp only [Call.boxes, List.mem_cons, List.not_mem_nil, or_false, forall_eq, forall_eq_or_imp] at hb <;>
    (try obtain ⟨hb, hb'⟩ := hb) <;>
    simp only [Call.run, lenOf, ptr, mutPtr, dataMut, dataConst, readLen, setLen, bind_assoc] <;>
    repeat' with_reducible first
      | apply Follows.ite
      | exact Follows.pure _
      | exact follows_read (by assumption)
      | exact follows_write (by assumption)
      | refine then_reMut (by assumption) (fun _ _ => ?_) (fun _ => ?_)
      | refine then_reShr (by assumption) (fun _ _ => ?_) (fun _ => ?_)
      | refine then_raw (by assumption) (fun _ _ => ?_) (fun _ => ?_)
      | refine then_read (by assumption) (fun _ => ?_) (fun _ => ?_)
      | refine then_write (by assumption) (fun _ => ?_) (fun _ => ?_)
      | apply Backward.ite
      | exact Backward.pure _
      | exact back_reMut _ _
      | exact back_reShr _ _
      | exact back_raw _ _
      | exact back_read _ _
      | exact back_write _ _
      | refine Backward.bind ?_ fun _ => ?_

/-- A tag is derived from itself. -/
def Own0 (s : TB) : Prop := ∀ t, t < s.next → t ∈ s.up t

theorem own0_op {s s' : TB} (h : Own0 s) (e : s'.up = s.up ∧ s'.next = s.next) : Own0 s' := fun t ht => by
  rw [e.1]
  exact h t (e.2 ▸ ht)

theorem own0_make {t : Tag} {p : TPerm} {cells : List Cell} {s s' : TB} {n : Tag} (h : Own0 s)
    (e : (if t < s.next then (access false s.next cells (sprout t p s)).map fun s' => (s.next, s') else none) = some (n, s')) : Own0 s' := by
  obtain ⟨-, rfl, h2, h3, h4⟩ := make_inv e
  intro u hu
  by_cases hn : u = s.next
  · subst hn
    rw [h3]
    exact List.mem_cons_self
  · have hu' : u < s.next := by omega
    rw [h4 u hu']
    exact h u hu'

theorem own0_access {w : Bool} {t : Tag} {cells : List Cell} {s s' : TB} {a : Unit} (h : Own0 s)
    (e : ((access w t cells s).map fun s' => ((), s')) = some (a, s')) : Own0 s' := by
  cases hx : access w t cells s with
  | none => simp [hx] at e
  | some z =>
    simp only [hx, Option.map_some, Option.some.injEq, Prod.mk.injEq, true_and] at e
    subst e
    exact own0_op h (access_keeps hx)

theorem reach_own0 {k : Nat} {s : TB} (h : Reach rules (start k) s) : Own0 s := by
  induction h with
  | init => intro t _; simp [start]
  | reMut _ h ih => exact own0_make ih h
  | reShr _ h ih => exact own0_make ih h
  | raw _ h ih => cases h; exact ih
  | read _ h ih => exact own0_access ih h
  | write _ h ih => exact own0_access ih h

theorem backward_calls (b : Nat → Tag) (cs : List Call) : Backward U (runCalls rules N b cs) := by
  induction cs with
  | nil => exact .pure _
  | cons c cs ih => exact .bind (backward_call b c) fun _ => ih

theorem stricter_calls (b : Nat → Tag) (cs : List Call) : Stricter (runCalls rules N b cs) (runCalls (exclusive gs) N b cs) := by
  induction cs with
  | nil => exact .refl _
  | cons c cs ih => exact .bind (stricter_call b c) fun _ => ih

theorem follows_calls (b : Nat → Tag) (cs : List Call) (hb : ∀ c ∈ cs, ∀ x ∈ c.boxes, b x ∈ U (b x)) :
    Follows U (runCalls rules N b cs) (runCalls (exclusive (selves N b [0, 1])) N b cs) (fun _ => True) := by
  induction cs with
  | nil => exact .pure _
  | cons c cs ih =>
    exact .bind (follows_call b c (hb c (by simp))) (fun _ _ => ih fun c' h => hb c' (List.mem_cons_of_mem _ h)) fun _ => backward_calls b cs

end TB

/-- C118, Tree Borrows, any sequence of calls on containers to which there are references: no cell of an argument is ever accessed otherwise than through it. -/
theorem C118_exclusive_tree_borrows {k : Nat} {s : TB} (hs : Reach TB.rules (TB.start k) s) (b : Nat → Nat) (calls : List Call)
    (hb : ∀ c ∈ calls, ∀ x ∈ c.boxes, b x < s.next) :
    runCalls (TB.exclusive (selves N b [0, 1])) N b calls s = runCalls TB.rules N b calls s := by
  cases hr : runCalls TB.rules N b calls s with
  | none =>
    cases hg : runCalls (TB.exclusive (selves N b [0, 1])) N b calls s with
    | none => rfl
    | some r => rw [TB.stricter_calls b calls s r hg] at hr; cases hr
  | some r =>
    have ha := TB.backward_calls (U := r.2.up) b calls s () r.2 hr fun _ _ => rfl
    refine (TB.follows_calls (U := r.2.up) b calls (fun c hc x hx => ?_) s () r.2 hr fun _ _ => rfl).2
    have h := hb c hc x hx
    rw [← ha _ h]
    exact TB.reach_own0 hs _ h

/-! ### The theorems are not vacuous -/

/-- Guarding makes a difference: a function with the argument `self`, in which the owner of the container writes to it, is accepted when `self` is not used
any more, but not with `self` guarded. -/
def rude {σ : Type} (R : Rules σ) (f : Tag → Rules σ) : P σ Unit := do
  let self ← R.reMut 0 (whole 0 3)
  (f self).write 0 [.slot 0 1]
example : (rude SB.rules (fun _ => SB.rules) (SB.start 1)).isSome = true ∧
    (rude SB.rules (fun t => SB.rules.guarded [⟨t, true, whole 0 3⟩]) (SB.start 1)).isSome = false ∧
    (rude TB.rules (fun _ => TB.rules) (TB.start 1)).isSome = true ∧
    (rude TB.rules (fun t => TB.rules.guarded [⟨t, true, whole 0 3⟩]) (TB.start 1)).isSome = false ∧
    (rude TB.rules (fun t => TB.exclusive [⟨t, true, whole 0 3⟩]) (TB.start 1)).isSome = false := by decide +kernel
/-- So does a read by the owner, when nothing but accesses through the arguments is allowed. -/
example : (do let self ← TB.rules.reMut 0 (whole 0 3); TB.rules.read 0 [.slot 0 1]; TB.rules.write self [.slot 0 1] : P TB Unit) (TB.start 1) ≠ none ∧
    (do let self ← TB.rules.reMut 0 (whole 0 3); (TB.exclusive [⟨self, true, whole 0 3⟩]).read 0 [.slot 0 1] : P TB Unit) (TB.start 1) = none :=
  ⟨Option.isSome_iff_ne_none.1 (by decide +kernel), Option.not_isSome_iff_eq_none.1 (by decide +kernel)⟩
/-- All the calls there are, run with the two containers' cells reserved to the arguments. -/
example : (runCalls (TB.exclusive (selves 3 id [0, 1])) 3 id (.copyWithin 0 0 1 2 :: .inlineRemove 1 0 3 :: everyCall) (TB.start 2)).isSome = true := by
  rw [C118_exclusive_tree_borrows .init id _ (by simp [everyCall, Call.boxes, TB.start])]
  decide +kernel

/-- The hypotheses hold of two containers at the start, for a buffer that wraps. -/
example : GuardedExactly SB.rules 3 id (RingMethod.calls 3 Ring.seam.origin Ring.seam.length Ring.seam.origin Ring.seam.length (.insert 1)) True (SB.start 2) :=
  C118_ring_stacked_borrows (E := Chunk.dbg64) (l := [10, 20]) (l' := [10, 20]) .init (by decide) ⟨rfl, by decide, by decide⟩ ⟨rfl, by decide, by decide⟩ id
    (fun _ hx => SB.start_usable hx) _
example : GuardedExactly TB.rules 3 id (InlineMethod.calls 3 2 (.remove 0)) True (TB.start 2) :=
  C118_inline_tree_borrows .init (by decide) id (fun _ hx => TB.start_usable hx) (.remove 0)

end Verif.Alias
