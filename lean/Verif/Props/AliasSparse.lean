import Verif.Props.AliasRing
/-
C97: the references `SparseChunk::iter_mut` and `option_iter_mut` hand out.
-/
namespace Verif.Alias
open Verif
open Verif.Sparse (bmFirst bmGet bmSet getMap slotIf filter_clear View)
variable {σ A : Type} {N : Nat} {E : Env} {R : Rules σ} {i : σ}

/-! ### Specification -/

/-- How many times a client asks for the next reference. -/
def nexts : List Use → Nat
  | [] => 0
  | .next :: us => nexts us + 1
  | _ :: us => nexts us

/-- The slots of the references handed out, where `answers` are the answers the iterator has in store. -/
def taken (answers : List (Option Nat)) (uses : List Use) : List Nat := (answers.take (nexts uses)).filterMap id

/-- Whether a policy - which follows what the client does with a state `Q`, by `given` when a reference is handed out and by
`used w k` when the `k`-th reference is read or written (`w`) through - allows everything the client does. -/
def allowed {Q : Type} (given : Q → Q) (used : Bool → Nat → Q → Option Q) : List (Option Nat) → List Use → Q → Option Q
  | _, [], q => some q
  | [], .next :: us, q => allowed given used [] us q
  | a :: as, .next :: us, q => allowed given used as us (if a.isSome then given q else q)
  | as, .nextBack :: us, q => allowed given used as us q
  | as, .read k :: us, q => (used false k q).bind (allowed given used as us)
  | as, .write k :: us, q => (used true k q).bind (allowed given used as us)

/-- The policy of Stacked Borrows: a reference may be used until the next one has been handed out. `n` references have been. -/
def lending (answers : List (Option Nat)) (uses : List Use) : Prop :=
  (allowed (Q := Nat) (fun n => n + 1) (fun _ k n => if k + 1 < n then none else some n) answers uses 0).isSome

/-- What has become of a reference. -/
inductive Status where
  | fresh | written | frozen
deriving DecidableEq, Repr

/-- Handing out another reference freezes those that have been written through. -/
def Status.pass : Status → Status
  | .written => .frozen
  | st => st
/-- A frozen reference may not be written through. -/
def Status.use (w : Bool) (k : Nat) (q : List Status) : Option (List Status) :=
  match q[k]? with
  | none => some q
  | some st => if w = true then (if st = .frozen then none else some (q.set k .written)) else some q

/-- The policy of Tree Borrows: a reference may be used as long as it is not written through, then another one is handed out, and
then it is written through again. -/
def noRewrite (answers : List (Option Nat)) (uses : List Use) : Prop :=
  (allowed (Q := List Status) (fun q => q.map Status.pass ++ [.fresh]) Status.use answers uses []).isSome

/-! ### Clients -/

/-- The answers an iterator has in store. -/
inductive Runs {β : Type} (next : β → Out (Sparse A) (Option (Option Nat × β))) : β → List (Option Nat) → Prop
  | nil {st c} : next st = .ok none c → Runs next st []
  | cons {st st' c a as} : next st = .ok (some (a, st')) c → Runs next st' as → Runs next st (a :: as)

/-- A discipline follows a policy. -/
structure Sim (R : Rules σ) (N x ch : Nat) {Q : Type} (given : Q → Q) (used : Bool → Nat → Q → Option Q)
    (I : σ → Q → List (Nat × Nat) → Prop) : Prop where
  give : ∀ s q refs p, I s q refs → p < N → p ∉ refs.map (·.1) →
    ∃ r s1 t s', valuesMutAt R N x ch p s = some (r, s1) ∧ R.reMut r [.slot x p] s1 = some (t, s') ∧ I s' (given q) (refs ++ [(p, t)])
  skip : ∀ s q refs w k, I s q refs → refs[k]? = none → used w k q = some q
  use : ∀ s q refs w k p t, I s q refs → refs[k]? = some (p, t) →
    match used w k q with
    | none => (if w = true then R.write t [.slot x p] s else R.read t [.slot x p] s) = none
    | some q' => ∃ s', (if w = true then R.write t [.slot x p] s else R.read t [.slot x p] s) = some ((), s') ∧ I s' q' refs

section
variable {β Q : Type} {x ch : Nat} {given : Q → Q} {used : Bool → Nat → Q → Option Q} {I : σ → Q → List (Nat × Nat) → Prop}
  {next : β → Out (Sparse A) (Option (Option Nat × β))}

theorem sim_useRef (h : Sim R N x ch given used I) {s : σ} {q : Q} {refs : List (Nat × Nat)} (hI : I s q refs) (w : Bool) (k : Nat) :
    match used w k q with
    | none => useRef R x w refs k s = none
    | some q' => ∃ s', useRef R x w refs k s = some ((), s') ∧ I s' q' refs := by
  cases e : refs[k]? with
  | none => rw [h.skip s q refs w k hI e]; exact ⟨s, by simp only [useRef, e]; rfl, hI⟩
  | some r =>
    obtain ⟨p, t⟩ := r
    have := h.use s q refs w k p t hI e
    have e' : useRef R x w refs k s = (if w = true then R.write t [.slot x p] s else R.read t [.slot x p] s) := by
      cases w <;> simp [useRef, e]
    rw [e']
    exact this

theorem sparseUses_sim (h : Sim R N x ch given used I) (uses : List Use) (answers : List (Option Nat)) (st : β) (hr : Runs next st answers)
    (s : σ) (q : Q) (refs : List (Nat × Nat)) (hI : I s q refs)
    (hn : (refs.map (·.1) ++ answers.filterMap id).Nodup) (hlt : ∀ p ∈ answers.filterMap id, p < N) :
    match allowed given used answers uses q with
    | none => sparseUses R N x ch next uses st refs s = none
    | some q' => ∃ refs' s', sparseUses R N x ch next uses st refs s = some (refs', s') ∧
        refs'.map (·.1) = refs.map (·.1) ++ taken answers uses ∧ I s' q' refs' := by
  induction uses generalizing answers st s q refs with
  | nil => cases answers <;> exact ⟨refs, s, rfl, by simp [taken, nexts], hI⟩
  | cons u us ih =>
    cases u with
    | next =>
      cases hr with
      | nil e =>
        have := ih [] st (.nil e) s q refs hI hn hlt
        have e1 : sparseUses R N x ch next (.next :: us) st refs s = sparseUses R N x ch next us st refs s := by
          simp only [sparseUses, sparseUse, P.bind_run, lift, e, Option.bind_some, sparseYield, P.pure_run]
        have e2 : taken [] (.next :: us) = taken [] us := by simp [taken]
        rw [e1, allowed, e2]
        exact this
      | @cons _ st' c a as e hr =>
        cases a with
        | none =>
          have := ih as st' hr s q refs hI (by simpa using hn) (by simpa using hlt)
          have e1 : sparseUses R N x ch next (.next :: us) st refs s = sparseUses R N x ch next us st' refs s := by
            simp only [sparseUses, sparseUse, P.bind_run, lift, e, Option.bind_some, sparseYield, P.pure_run]
          have e2 : taken (none :: as) (.next :: us) = taken as us := by simp [taken, nexts]
          rw [e1, allowed, e2]
          exact this
        | some p =>
          have hp : p < N := hlt p (by simp)
          have hnp : p ∉ refs.map (·.1) := fun hm => (List.nodup_append.1 hn).2.2 p hm p (by simp) rfl
          obtain ⟨r, s1, t, s2, f1, f2, hI2⟩ := h.give s q refs p hI hp hnp
          have := ih as st' hr s2 (given q) (refs ++ [(p, t)]) hI2 (by simpa using hn) (fun p' hp' => hlt p' (by simp [List.mem_filterMap] at hp' ⊢; exact .inr hp'))
          have e1 : sparseUses R N x ch next (.next :: us) st refs s = sparseUses R N x ch next us st' (refs ++ [(p, t)]) s2 := by
            simp only [sparseUses, sparseUse, P.bind_run, lift, e, Option.bind_some, sparseYield, f1, f2, P.pure_run]
          have e2 : refs.map (·.1) ++ taken (some p :: as) (.next :: us) = (refs ++ [(p, t)]).map (·.1) ++ taken as us := by
            simp [taken, nexts]
          rw [e1, allowed, e2]
          exact this
    | nextBack =>
      have := ih answers st hr s q refs hI hn hlt
      have e1 : sparseUses R N x ch next (.nextBack :: us) st refs s = sparseUses R N x ch next us st refs s := by
        simp only [sparseUses, sparseUse, P.bind_run, P.pure_run, Option.bind_some]
      have e2 : taken answers (.nextBack :: us) = taken answers us := rfl
      have e3 : allowed given used answers (.nextBack :: us) q = allowed given used answers us q := by cases answers <;> rfl
      rw [e1, e2, e3]
      exact this
    | read k =>
      have hu := sim_useRef h hI false k
      have e2 : taken answers (.read k :: us) = taken answers us := rfl
      have e3 : allowed given used answers (.read k :: us) q = (used false k q).bind (allowed given used answers us) := by cases answers <;> rfl
      rw [e2, e3]
      cases hx : used false k q with
      | none =>
        rw [hx] at hu
        simp only at hu
        simp only [Option.bind_none, sparseUses, sparseUse, P.bind_run, hu]
      | some q' =>
        rw [hx] at hu
        obtain ⟨s1, f1, hI1⟩ := hu
        have := ih answers st hr s1 q' refs hI1 hn hlt
        have e1 : sparseUses R N x ch next (.read k :: us) st refs s = sparseUses R N x ch next us st refs s1 := by
          simp only [sparseUses, sparseUse, P.bind_run, f1, P.pure_run, Option.bind_some]
        rw [Option.bind_some, e1]
        exact this
    | write k =>
      have hu := sim_useRef h hI true k
      have e2 : taken answers (.write k :: us) = taken answers us := rfl
      have e3 : allowed given used answers (.write k :: us) q = (used true k q).bind (allowed given used answers us) := by cases answers <;> rfl
      rw [e2, e3]
      cases hx : used true k q with
      | none =>
        rw [hx] at hu
        simp only at hu
        simp only [Option.bind_none, sparseUses, sparseUse, P.bind_run, hu]
      | some q' =>
        rw [hx] at hu
        obtain ⟨s1, f1, hI1⟩ := hu
        have := ih answers st hr s1 q' refs hI1 hn hlt
        have e1 : sparseUses R N x ch next (.write k :: us) st refs s = sparseUses R N x ch next us st refs s1 := by
          simp only [sparseUses, sparseUse, P.bind_run, f1, P.pure_run, Option.bind_some]
        rw [Option.bind_some, e1]
        exact this

theorem stays_valuesMutAt (x b p) : Stays R i (valuesMutAt R N x b p) := by unfold valuesMutAt; stays
theorem stays_sparseUses (uses : List Use) (st refs) : Stays R i (sparseUses R N x ch next uses st refs) := by
  induction uses generalizing st refs with
  | nil => exact .pure _
  | cons u us ih =>
    refine .bind ?_ fun r => ih r.1 r.2
    have hy : ∀ o, Stays R i (sparseYield R N x ch refs st o) := fun o => by
      match o with
      | none => exact .pure _
      | some (none, st') => exact .pure _
      | some (some p, st') => exact .bind (stays_valuesMutAt _ _ _) fun _ => .bind (stays_reMut _ _) fun _ => .pure _
    cases u with
    | next => exact .bind (.lift _) hy
    | nextBack => exact .pure _
    | read k => exact .bind (stays_useRef _ _ _ _) fun _ => .pure _
    | write k => exact .bind (stays_useRef _ _ _ _) fun _ => .pure _
end

/-! ### Answers -/

theorem runs_iterMut (c : Sparse A) (bits : Bitmap) (ks : List Nat) (h : (List.range N).filter bits = ks) :
    Runs (iterMutStep N c) bits (ks.map some) := by
  induction ks generalizing bits with
  | nil =>
    have hb : bmFirst N bits = none := by unfold bmFirst; rw [← List.head?_filter, h]; rfl
    exact .nil (c := c) (by simp [iterMutStep, Sparse.iterMutNext, hb])
  | cons p ks ih =>
    have hb : bmFirst N bits = some p := by unfold bmFirst; rw [← List.head?_filter, h]; rfl
    have hp : p < N := by
      have : p ∈ (List.range N).filter bits := by rw [h]; simp
      simp at this; exact this.1
    have hn : ¬N ≤ p := by omega
    have hc := filter_clear bits h
    refine .cons (c := c) (st' := fun j => if j = p then false else bits j) ?_ (ih _ hc)
    simp [iterMutStep, Sparse.iterMutNext, hb, bmSet, hp, hn]

theorem runs_option {c : Sparse A} {m : SMap A} (h : Sparse.Rep N c m) (hW : N < E.W) (n j : Nat) (hj : j + n = N) :
    Runs (fun i => Sparse.optionIterMutNext N E i c) j ((List.range' j n).map (fun i => (m i).map (fun _ => i))) := by
  induction n generalizing j with
  | zero =>
    have : ¬j < N := by omega
    exact .nil (c := c) (by simp [Sparse.optionIterMutNext, this])
  | succ n ih =>
    have h1 : j < N := by omega
    have h2 : j + 1 < E.W := by omega
    have h3 : ¬N ≤ j := by omega
    have hm := h.map j h1
    rw [List.range'_succ, List.map_cons]
    refine .cons (c := c) (st' := j + 1) ?_ (ih (j + 1) (by omega))
    cases hx : m j <;> rw [hx] at hm <;> simp [Sparse.optionIterMutNext, h1, getMap, bmGet, hm, slotIf, h3, uadd, h2]

/-! ### Stacked Borrows -/

open Stack (Wr canRead canWrite)
namespace Stack
variable {pre r st' : List Item} {u ch : Nat}

theorem write_based (hp : ∀ i ∈ pre, ch < i.tag) (hr : ∀ i ∈ r, i.tag < ch) (hu : ch ≤ u)
    (h : write u (pre ++ ⟨.unique, ch⟩ :: r) = some st') : ∃ pre', st' = pre' ++ ⟨.unique, ch⟩ :: r ∧ ∀ i ∈ pre', ch < i.tag := by
  induction pre generalizing st' with
  | nil =>
    simp only [List.nil_append, write] at h
    split at h
    · exact ⟨[], (Option.some.inj h).symm, by simp⟩
    · cases hx : write u r with
      | none => rw [hx] at h; simp at h
      | some z =>
        obtain ⟨j, hj, e⟩ := SB.write_tag hx
        have := hr j hj
        omega
  | cons j pre ih =>
    simp only [List.cons_append, write] at h
    split at h
    · exact ⟨j :: pre, (Option.some.inj h).symm, hp⟩
    · cases hx : write u (pre ++ ⟨.unique, ch⟩ :: r) with
      | none => rw [hx] at h; simp at h
      | some z =>
        rw [hx] at h
        obtain ⟨pre', e, hp'⟩ := ih (fun i hi => hp i (List.mem_cons_of_mem _ hi)) hx
        simp only [Option.map_some, Option.some.injEq] at h
        split at h
        · refine ⟨j :: pre', by rw [← h, e]; rfl, fun i hi => ?_⟩
          rcases List.mem_cons.1 hi with rfl | hi
          · exact hp _ List.mem_cons_self
          · exact hp' i hi
        · exact ⟨pre', h ▸ e, hp'⟩

theorem read_based (hp : ∀ i ∈ pre, ch < i.tag) (hr : ∀ i ∈ r, i.tag < ch) (hu : ch ≤ u)
    (h : read u (pre ++ ⟨.unique, ch⟩ :: r) = some st') : ∃ pre', st' = pre' ++ ⟨.unique, ch⟩ :: r ∧ ∀ i ∈ pre', ch < i.tag := by
  induction pre generalizing st' with
  | nil =>
    simp only [List.nil_append, read] at h
    split at h
    · exact ⟨[], (Option.some.inj h).symm, by simp⟩
    · cases hx : read u r with
      | none => rw [hx] at h; simp at h
      | some z =>
        obtain ⟨j, hj, e⟩ := SB.read_tag hx
        have := hr j hj
        omega
  | cons j pre ih =>
    simp only [List.cons_append, read] at h
    split at h
    · exact ⟨j :: pre, (Option.some.inj h).symm, hp⟩
    · cases hx : read u (pre ++ ⟨.unique, ch⟩ :: r) with
      | none => rw [hx] at h; simp at h
      | some z =>
        rw [hx] at h
        obtain ⟨pre', e, hp'⟩ := ih (fun i hi => hp i (List.mem_cons_of_mem _ hi)) hx
        simp only [Option.map_some, Option.some.injEq] at h
        refine ⟨demote j :: pre', by rw [← h, e]; rfl, fun i hi => ?_⟩
        rcases List.mem_cons.1 hi with rfl | hi
        · rw [demote_tag]; exact hp _ List.mem_cons_self
        · exact hp' i hi

theorem pushRaw_based {n : Nat} (hp : ∀ i ∈ pre, ch < i.tag) (hr : ∀ i ∈ r, i.tag < ch) (hu : ch ≤ u) (hn : ch < n)
    (h : pushRaw u n (pre ++ ⟨.unique, ch⟩ :: r) = some st') : ∃ pre', st' = pre' ++ ⟨.unique, ch⟩ :: r ∧ ∀ i ∈ pre', ch < i.tag := by
  induction pre generalizing st' with
  | nil =>
    simp only [List.nil_append, pushRaw] at h
    split at h
    · exact ⟨[⟨.sharedRW, n⟩], (Option.some.inj h).symm, by simpa using hn⟩
    · exfalso
      cases hx : pushRaw u n r with
      | none => rw [hx] at h; simp at h
      | some z =>
        have : ∀ (st z : List Item), pushRaw u n st = some z → ∃ j ∈ st, j.tag = u := by
          intro st
          induction st with
          | nil => intro z hz; simp [pushRaw] at hz
          | cons j st ih =>
            intro z hz
            by_cases hw : canWrite u j = true
            · simp only [canWrite, Bool.and_eq_true, beq_iff_eq] at hw
              exact ⟨j, List.mem_cons_self, hw.1⟩
            · cases hy : pushRaw u n st with
              | none => simp [pushRaw, hw, hy] at hz
              | some y =>
                obtain ⟨k, hk, e⟩ := ih y hy
                exact ⟨k, List.mem_cons_of_mem _ hk, e⟩
        obtain ⟨j, hj, e⟩ := this r z hx
        have := hr j hj
        omega
  | cons j pre ih =>
    simp only [List.cons_append, pushRaw] at h
    split at h
    · refine ⟨⟨.sharedRW, n⟩ :: j :: pre, (Option.some.inj h).symm, fun i hi => ?_⟩
      rcases List.mem_cons.1 hi with rfl | hi
      · exact hn
      · exact hp i hi
    · cases hx : pushRaw u n (pre ++ ⟨.unique, ch⟩ :: r) with
      | none => rw [hx] at h; simp at h
      | some z =>
        rw [hx] at h
        obtain ⟨pre', e, hp'⟩ := ih (fun i hi => hp i (List.mem_cons_of_mem _ hi)) hx
        simp only [Option.map_some, Option.some.injEq] at h
        refine ⟨j :: pre', by rw [← h, e]; rfl, fun i hi => ?_⟩
        rcases List.mem_cons.1 hi with rfl | hi
        · exact hp _ List.mem_cons_self
        · exact hp' i hi

/-- A write through `ch` pops everything above it. -/
theorem write_self (hp : ∀ i ∈ pre, ch < i.tag) : write ch (pre ++ ⟨.unique, ch⟩ :: r) = some (⟨.unique, ch⟩ :: r) := by
  induction pre with
  | nil => simp [write, canWrite]
  | cons j pre ih =>
    have hj : ch ≠ j.tag := Nat.ne_of_lt (hp j List.mem_cons_self)
    have hw : canWrite ch j = false := by simp [canWrite, Ne.symm hj]
    have hs : stays j (pre ++ ⟨.unique, ch⟩ :: r) (⟨.unique, ch⟩ :: r) = false := by
      cases pre with
      | nil => simp [stays]
      | cons k pre => simp [stays]; omega
    simp [write, hw, ih (fun i hi => hp i (List.mem_cons_of_mem _ hi)), hs]

end Stack

namespace SB
variable {s s' : SB} {t b ch x : Nat} {cells cs : List Cell}

/-- Above the item of `ch`, which came last of those there, there are only later ones; and `b` may write below. -/
structure Based (s : SB) (ch b : Nat) (cs : List Cell) : Prop where
  lt : ch < s.next
  at_ : ∀ c ∈ cs, ∃ pre r, s.stacks c = pre ++ ⟨.unique, ch⟩ :: r ∧ (∀ i ∈ pre, ch < i.tag) ∧ (∀ i ∈ r, i.tag < ch) ∧ Wr b r

theorem Based.own (h : Based s ch b cs) : Own s b cs := fun c hc => by
  obtain ⟨pre, r, e, -, -, hb⟩ := h.at_ c hc
  rw [e]; exact Stack.wr_append _ (Stack.wr_cons _ hb)
theorem Based.self (h : Based s ch b cs) : Own s ch cs := fun c hc => by
  obtain ⟨pre, r, e, -, -, hb⟩ := h.at_ c hc
  rw [e]; exact Stack.wr_append _ (Stack.wr_top (by simp [canWrite]))

theorem based_reMut {n : Nat} (ht : ch ≤ t) (e : rules.reMut t cells s = some (n, s')) (h : Based s ch b cs) : Based s' ch b cs ∧ ch < n := by
  obtain ⟨rfl, h1, h2, h3⟩ := reMut_inv e
  have hlt := h.lt
  refine ⟨⟨by omega, fun c hc => ?_⟩, hlt⟩
  obtain ⟨pre, r, e0, hp, hr, hb⟩ := h.at_ c hc
  by_cases hm : c ∈ cells
  · have := h3 c hm
    rw [e0] at this
    cases hx : Stack.write t (pre ++ ⟨.unique, ch⟩ :: r) with
    | none => rw [hx] at this; simp at this
    | some z =>
      rw [hx] at this
      obtain ⟨pre', e1, hp'⟩ := Stack.write_based hp hr ht hx
      refine ⟨⟨.unique, s.next⟩ :: pre', r, by rw [← Option.some.inj this, e1]; rfl, fun i hi => ?_, hr, hb⟩
      rcases List.mem_cons.1 hi with rfl | hi
      · exact hlt
      · exact hp' i hi
  · exact ⟨pre, r, by rw [h2 c hm, e0], hp, hr, hb⟩
theorem based_raw {n : Nat} (ht : ch ≤ t) (e : rules.raw t cells s = some (n, s')) (h : Based s ch b cs) : Based s' ch b cs ∧ ch < n := by
  obtain ⟨rfl, h1, h2, h3⟩ := raw_inv e
  have hlt := h.lt
  refine ⟨⟨by omega, fun c hc => ?_⟩, hlt⟩
  obtain ⟨pre, r, e0, hp, hr, hb⟩ := h.at_ c hc
  by_cases hm : c ∈ cells
  · have := h3 c hm
    rw [e0] at this
    obtain ⟨pre', e1, hp'⟩ := Stack.pushRaw_based hp hr ht hlt this
    exact ⟨pre', r, e1, hp', hr, hb⟩
  · exact ⟨pre, r, by rw [h2 c hm, e0], hp, hr, hb⟩
theorem based_read (ht : ch ≤ t) (e : rules.read t cells s = some ((), s')) (h : Based s ch b cs) : Based s' ch b cs := by
  obtain ⟨h1, h2, h3⟩ := read_inv e
  refine ⟨by rw [h1]; exact h.lt, fun c hc => ?_⟩
  obtain ⟨pre, r, e0, hp, hr, hb⟩ := h.at_ c hc
  by_cases hm : c ∈ cells
  · have := h3 c hm
    rw [e0] at this
    obtain ⟨pre', e1, hp'⟩ := Stack.read_based hp hr ht this
    exact ⟨pre', r, e1, hp', hr, hb⟩
  · exact ⟨pre, r, by rw [h2 c hm, e0], hp, hr, hb⟩

theorem gone_write {p : Nat} {c : Cell} (hg : Gone s p c) (hc : c ∈ cells) : rules.write p cells s = none := by
  cases h : rules.write p cells s with
  | none => rfl
  | some r =>
    obtain ⟨i, hi, e⟩ := write_tag ((write_inv h).2.2 c hc)
    exact absurd e (hg.2 i hi)

/-- The latest reference may be used, the others not any more. -/
structure SparseInv (N x b ch : Nat) (s : SB) (n : Nat) (refs : List (Nat × Nat)) : Prop where
  len : refs.length = n
  based : Based s ch b (whole x N)
  last : ∀ p t, refs.getLast? = some (p, t) → MTop s t ch [.slot x p]
  stale : ∀ k p t, k + 1 < n → refs[k]? = some (p, t) → Gone s t (.slot x p)
  tags : ∀ p t, (p, t) ∈ refs → p < N ∧ ch < t ∧ t < s.next

theorem sparse_sim : Sim rules N x ch (fun n => n + 1) (fun _ k n => if k + 1 < n then none else some n) (SparseInv N x b ch) where
  give s q refs p h hp _ := by
    have mp : ∀ c ∈ [Cell.slot x p], c ∈ slots x N := slot_mem hp
    obtain ⟨s1, e1, t1, f1, k1, n1⟩ := own_reMut (x := x) (fun c hc => box_whole hc) h.based.self
    obtain ⟨s2, e2, t2, f2, k2, n2⟩ := top_reMut (x := x) (cells := slots x N) (box_sub fun c => slots_sub) (t1.mono fun c => slots_sub)
    obtain ⟨s3, e3, t3, f3, k3, n3⟩ := top_raw (x := x) (box_sub fun c => slots_sub) t2
    obtain ⟨s4, e4, t4, f4, k4, n4⟩ := top_reMut (x := x) (box_sub fun c => slots_sub) t3
    obtain ⟨s5, e5, t5, f5, k5, n5⟩ := top_reMut (x := x) (cells := [.slot x p]) (by simp [box]) (t4.mono mp)
    obtain ⟨s6, e6, t6, f6, k6, n6⟩ := top_raw (x := x) (by simp [box]) t5
    obtain ⟨s7, e7, t7, f7, k7, n7⟩ := top_reMut (x := x) (by simp [box]) t6
    have b1 := (based_reMut (Nat.le_refl _) e1 h.based)
    have b2 := (based_reMut (Nat.le_of_lt b1.2) e2 b1.1)
    have b3 := (based_raw (Nat.le_of_lt b2.2) e3 b2.1)
    have b4 := (based_reMut (Nat.le_of_lt b3.2) e4 b3.1)
    have b5 := (based_reMut (Nat.le_of_lt b4.2) e5 b4.1)
    have b6 := (based_raw (Nat.le_of_lt b5.2) e6 b5.1)
    have b7 := (based_reMut (Nat.le_of_lt b6.2) e7 b6.1)
    have hg : ∀ p t, (p, t) ∈ refs → Gone s7 t (.slot x p) := fun p t hm => by
      obtain ⟨hpN, h1, h2⟩ := h.tags p t hm
      have hc : Cell.slot x p ∈ whole x N := slots_sub (slot_mem hpN _ (by simp))
      have g1 : Gone s1 t (.slot x p) := by
        obtain ⟨-, -, -, h3⟩ := reMut_inv e1
        obtain ⟨pre, r, e0, hp, hr, hb⟩ := h.based.at_ _ hc
        have := h3 _ hc
        rw [e0, Stack.write_self hp] at this
        refine ⟨by omega, fun i hi => ?_⟩
        rw [← Option.some.inj this] at hi
        rcases List.mem_cons.1 hi with rfl | hi
        · exact Nat.ne_of_gt h2
        · rcases List.mem_cons.1 hi with rfl | hi
          · exact Nat.ne_of_lt h1
          · exact Nat.ne_of_lt (Nat.lt_trans (hr i hi) h1)
      exact reMut_gone e7 (raw_gone e6 (reMut_gone e5 (reMut_gone e4 (raw_gone e3 (reMut_gone e2 g1)))))
    refine ⟨_, s6, _, s7, by simp only [valuesMutAt, P.bind_run, e1, e2, e3, e4, e5, e6, Option.bind_some], e7, by simp [h.len], b7.1, fun p' t' hl => ?_,
      fun k p' t' hk hm => ?_, fun p' t' hm => ?_⟩
    · simp only [List.getLast?_append, List.getLast?_singleton, Option.some_or, Option.some.injEq, Prod.mk.injEq] at hl
      obtain ⟨rfl, rfl⟩ := hl
      exact t7
    · have hk' : k < refs.length := by rw [h.len]; omega
      rw [List.getElem?_append_left hk'] at hm
      exact hg p' t' (List.mem_of_getElem? hm)
    · rcases List.mem_append.1 hm with hm | hm
      · obtain ⟨g1, g2, g3⟩ := h.tags p' t' hm
        exact ⟨g1, g2, by omega⟩
      · simp only [List.mem_singleton, Prod.mk.injEq] at hm
        obtain ⟨rfl, rfl⟩ := hm
        exact ⟨hp, b7.2, by omega⟩
  skip s q refs w k h hk := by
    have : refs.length ≤ k := by simpa using hk
    rw [if_neg (by rw [← h.len]; omega)]
  use s q refs w k p t h hk := by
    by_cases hs : k + 1 < q
    · simp only [if_pos hs]
      have hg := h.stale k p t hs hk
      cases w
      · exact gone_read hg (by simp)
      · exact gone_write hg (by simp)
    · simp only [if_neg hs]
      have hlt : k < refs.length := (List.getElem?_eq_some_iff.1 hk).1
      have hl : refs.getLast? = some (p, t) := by
        rw [List.getLast?_eq_getElem?, ← hk]
        congr 1
        have := h.len
        omega
      have ht := h.last p t hl
      refine ⟨s, ?_, h⟩
      cases w
      · exact top_read ht.shr
      · exact top_write ht

/-- The iterator's own borrow, just made. -/
theorem based_start (hw : WF s) (h : Own s b (whole x N)) : ∃ s', rules.reMut b (whole x N) s = some (s.next, s') ∧ Based s' s.next b (whole x N) := by
  obtain ⟨s1, e1, t1, f1, k1, n1⟩ := own_reMut (x := x) (fun c hc => box_whole hc) h
  obtain ⟨-, -, -, h3⟩ := reMut_inv e1
  refine ⟨s1, e1, by omega, fun c hc => ?_⟩
  have := h3 c hc
  cases hx : Stack.write b (s.stacks c) with
  | none => rw [hx] at this; simp at this
  | some z =>
    rw [hx] at this
    exact ⟨[], z, (Option.some.inj this).symm, by simp, fun i hi => hw c i (Stack.mem_write hx i hi), Stack.wr_of_write hx⟩

end SB

/-! ### Tree Borrows -/

namespace TB
variable {s s' : TB} {t b ch x : Nat} {cells cs : List Cell} {cell : Cell} {w : Bool}

/-- The reference may never be written through again at the cell. -/
structure Dead (s : TB) (t : Nat) (cell : Cell) : Prop where
  lt : t < s.next
  self : t ∈ s.up t
  bad : ¬Good (s.perm t cell)

theorem bad_child {p p' : TPerm} (h : p.child w = some p') (hb : ¬Good p) : ¬Good p' := by
  cases p <;> cases w <;> simp [TPerm.child, Good] at h hb ⊢ <;> simp [← h]
theorem bad_foreign {p : TPerm} (hb : ¬Good p) : ¬Good (p.foreign w) := by
  cases p <;> cases w <;> simp [TPerm.foreign, Good] at hb ⊢

theorem dead_access {u : Nat} (h : access w u cells s = some s') (hd : Dead s t cell) : Dead s' t cell := by
  obtain ⟨h1, h2⟩ := access_inv h
  obtain ⟨z, e, g1, g2, g3, g4, g5⟩ := access_eq h1 h2
  rw [h] at e
  cases e
  refine ⟨by rw [g2]; exact hd.lt, by rw [g1]; exact hd.self, ?_⟩
  by_cases hc : cell ∈ cells
  · by_cases hu : t ∈ s.up u
    · exact bad_child (g4 t cell hc hu) hd.bad
    · rw [g5 t cell hc hu]; exact bad_foreign hd.bad
  · rw [g3 t cell hc]; exact hd.bad
theorem dead_reMut {u n : Nat} (h : rules.reMut u cells s = some (n, s')) (hd : Dead s t cell) : Dead s' t cell := by
  simp only [rules] at h
  split at h
  · cases hx : access false s.next cells (sprout u .reserved s) with
    | none => rw [hx] at h; simp at h
    | some z =>
      rw [hx] at h
      cases h
      exact dead_access hx ⟨Nat.lt_succ_of_lt hd.lt, by simpa [sprout, Nat.ne_of_lt hd.lt] using hd.self,
        by simpa [sprout, Nat.ne_of_lt hd.lt] using hd.bad⟩
  · simp at h
theorem dead_write (hd : Dead s t cell) : rules.write t [cell] s = none := by
  simp only [rules]
  cases hx : access true t [cell] s with
  | none => rfl
  | some z =>
    obtain ⟨h1, h2⟩ := access_inv hx
    exact absurd (child_true.1 (h2 cell (by simp) t hd.self)) hd.bad

/-- Another reference is made over a cell where this one is active. -/
theorem reMut_freezes {u n : Nat} (h : rules.reMut u cells s = some (n, s')) (hc : cell ∈ cells) (ht : t < s.next) (hself : t ∈ s.up t)
    (hu : t ∉ s.up u) (ha : s.perm t cell = .active) : Dead s' t cell := by
  simp only [rules] at h
  split at h
  · cases hx : access false s.next cells (sprout u .reserved s) with
    | none => rw [hx] at h; simp at h
    | some z =>
      rw [hx] at h
      cases h
      obtain ⟨h1, h2⟩ := access_inv hx
      obtain ⟨z', e, g1, g2, g3, g4, g5⟩ := access_eq h1 h2
      rw [hx] at e
      cases e
      have hne := Nat.ne_of_lt ht
      refine ⟨by rw [g2]; exact Nat.lt_succ_of_lt ht, by rw [g1]; simpa [sprout, hne] using hself, ?_⟩
      rw [g5 t cell hc (by simp [sprout, hne, hu])]
      simp [sprout, hne, ha, TPerm.foreign, Good]
  · simp at h

/-- What is known about a reference of a given status. -/
def Has (s : TB) (ch t : Nat) (cell : Cell) : Status → Prop
  | .fresh => Res s t ch [cell]
  | .written => Gd s t ch cell ∧ s.perm t cell = .active
  | .frozen => Dead s t cell

structure SparseInv (N x b ch : Nat) (s : TB) (q : List Status) (refs : List (Nat × Nat)) : Prop where
  own : Own s ch (whole x N)
  base : b < s.next ∧ ∀ u ∈ s.up b, u ∈ s.up ch
  len : refs.length = q.length
  apart : (refs.map (·.1)).Nodup
  rd : ∀ p t, (p, t) ∈ refs → p < N ∧ Rd s t ch [.slot x p] ∧ t ∈ s.up t ∧ t ∉ s.up ch
  has : ∀ (k p t : Nat) (st : Status), refs[k]? = some (p, t) → q[k]? = some st → Has s ch t (.slot x p) st

theorem apart_idx {refs : List (Nat × Nat)} (hn : (refs.map (·.1)).Nodup) {i j p t t' : Nat} (hi : refs[i]? = some (p, t))
    (hj : refs[j]? = some (p, t')) : i = j := by
  have hi' : (refs.map (·.1))[i]? = some p := by simp [hi]
  have hj' : (refs.map (·.1))[j]? = some p := by simp [hj]
  obtain ⟨hi1, hi2⟩ := List.getElem?_eq_some_iff.1 hi'
  obtain ⟨hj1, hj2⟩ := List.getElem?_eq_some_iff.1 hj'
  exact (List.getElem_inj hn).1 (hi2.trans hj2.symm)

theorem Has.frame {st : Status} (h : Has s ch t cell st) (hw : WF s) (hw' : WF s') (hc : ch < s.next) (hl : t < s.next) (hn : s'.next = s.next)
    (hu : s'.up = s.up) (hp : ∀ u, s'.perm u cell = s.perm u cell) : Has s' ch t cell st := by
  cases st with
  | fresh =>
    have h : Res s t ch [cell] := h
    refine ⟨hw', by rw [hn]; exact hl, by rw [hu]; exact h.sub, fun c hc u hm => ?_, fun c hc u hm hx => ?_⟩
    · simp only [List.mem_singleton] at hc; subst hc
      rw [hp]; rw [hu] at hm; exact h.good _ (by simp) u hm
    · simp only [List.mem_singleton] at hc; subst hc
      rw [hp]; rw [hu] at hm hx; exact h.res _ (by simp) u hm hx
  | written =>
    obtain ⟨h1, h2⟩ : Gd s t ch cell ∧ _ := h
    exact ⟨h1.frame hw hc (by omega) (fun u _ => by rw [hu]) fun u _ => hp u, by rw [hp]; exact h2⟩
  | frozen =>
    have h : Dead s t cell := h
    exact ⟨by rw [hn]; exact h.lt, by rw [hu]; exact h.self, by rw [hp]; exact h.bad⟩

theorem sparse_sim : Sim rules N x ch (fun q => q.map Status.pass ++ [.fresh]) Status.use (SparseInv N x b ch) where
  give s q0 refs p h hp hnp := by
    have mp : ∀ c ∈ [Cell.slot x p], c ∈ slots x N := slot_mem hp
    obtain ⟨s1, e1, r1, q1⟩ := q_reMut (x := x) h.own.lt (fun c hc => box_whole hc) h.own
    have l1 := Nat.lt_of_lt_of_le h.own.lt q1.next
    obtain ⟨s2, e2, r2, q2⟩ := q_reMut (x := x) l1 (SB.box_sub slots_whole) (r1.mono slots_whole)
    have l2 := Nat.lt_of_lt_of_le l1 q2.next
    obtain ⟨s3, e3, r3, q3⟩ := q_reMut (x := x) l2 (SB.box_sub slots_whole) r2
    have l3 := Nat.lt_of_lt_of_le l2 q3.next
    obtain ⟨s4, e4, r4, q4⟩ := q_reMut (x := x) (cells := [.slot x p]) l3 (by simp [SB.box]) (r3.mono mp)
    have l4 := Nat.lt_of_lt_of_le l3 q4.next
    obtain ⟨s5, e5, r5, q5⟩ := q_reMut (x := x) (cells := [.slot x p]) l4 (by simp [SB.box]) r4
    have q := (((q1.trans q2).trans q3).trans q4).trans q5
    have q' := ((q1.trans q2).trans q3).trans q4
    have dead : ∀ t cell, Dead s1 t cell → Dead s5 t cell := fun t cell d => dead_reMut e5 (dead_reMut e4 (dead_reMut e3 (dead_reMut e2 d)))
    have hb := h.base
    have hnew : s4.next ∈ s5.up s4.next ∧ s4.next ∉ s5.up ch := by
      refine ⟨?_, fun hm => ?_⟩
      · simp only [rules] at e5
        split at e5
        · cases hx : access false s4.next [.slot x p] (sprout s3.next .reserved s4) with
          | none => rw [hx] at e5; simp at e5
          | some z =>
            rw [hx] at e5
            obtain ⟨-, rfl⟩ := Prod.mk.inj (Option.some.inj e5)
            obtain ⟨g1, -⟩ := access_keeps hx
            rw [g1]; simp [sprout]
        · simp at e5
      · rw [q5.up ch l4] at hm
        exact Nat.lt_irrefl _ (q'.wf ch l4 _ hm)
    refine ⟨_, s4, _, s5, by simp only [valuesMutAt, P.bind_run, e1, e2, raw_run, e3, e4, Option.bind_some], e5, q.res _ _ h.own,
      ⟨Nat.lt_of_lt_of_le hb.1 q.next, by rw [q.up b hb.1, q.up ch h.own.lt]; exact hb.2⟩, by simp [h.len], ?_, fun p' t' hm => ?_, fun k p' t' st hk hst => ?_⟩
    · rw [List.map_append, List.nodup_append]
      refine ⟨h.apart, by simp, fun a ha b' hb' => ?_⟩
      simp only [List.map_cons, List.map_nil, List.mem_singleton] at hb'
      subst hb'
      rintro rfl
      exact hnp ha
    · rcases List.mem_append.1 hm with hm | hm
      · obtain ⟨g1, g2, g3, g4⟩ := h.rd p' t' hm
        exact ⟨g1, q.rd _ _ g2, by rw [q.up t' g2.lt]; exact g3, by rw [q.up ch h.own.lt]; exact g4⟩
      · simp only [List.mem_singleton, Prod.mk.injEq] at hm
        obtain ⟨rfl, rfl⟩ := hm
        exact ⟨hp, r5.rd, hnew⟩
    · by_cases hkl : k < refs.length
      · rw [List.getElem?_append_left hkl] at hk
        rw [List.getElem?_append_left (by rw [List.length_map, ← h.len]; exact hkl), List.getElem?_map] at hst
        obtain ⟨g1, g2, g3, g4⟩ := h.rd p' t' (List.mem_of_getElem? hk)
        cases hq : q0[k]? with
        | none => rw [hq] at hst; simp at hst
        | some st0 =>
          rw [hq] at hst
          simp only [Option.map_some, Option.some.injEq] at hst
          have hh := h.has k p' t' st0 hk hq
          cases st0 with
          | fresh =>
            cases hst
            exact q.res _ _ hh
          | written =>
            cases hst
            exact dead _ _ (reMut_freezes e1 (slots_sub (slot_mem g1 _ (by simp))) g2.lt g3 g4 hh.2)
          | frozen =>
            cases hst
            exact dead _ _ (dead_reMut e1 hh)
      · have hk' := (List.getElem?_eq_some_iff.1 hk).1
        simp only [List.length_append, List.length_singleton] at hk'
        have hke : k = refs.length := by omega
        subst hke
        rw [List.getElem?_append_right (Nat.le_refl _), Nat.sub_self] at hk
        simp only [List.getElem?_cons_zero, Option.some.injEq, Prod.mk.injEq] at hk
        obtain ⟨rfl, rfl⟩ := hk
        rw [List.getElem?_append_right (by rw [List.length_map, h.len]; exact Nat.le_refl _), List.length_map, h.len, Nat.sub_self] at hst
        simp only [List.getElem?_cons_zero, Option.some.injEq] at hst
        subst hst
        exact r5
  skip s q refs w k h hk := by
    have h1 : refs.length ≤ k := by simpa using hk
    have h2 : q[k]? = none := by simp; rw [← h.len]; exact h1
    simp [Status.use, h2]
  use s q refs w k p t h hk := by
    obtain ⟨g1, g2, g3, g4⟩ := h.rd p t (List.mem_of_getElem? hk)
    have hkl : k < q.length := by rw [← h.len]; exact (List.getElem?_eq_some_iff.1 hk).1
    obtain ⟨st, hst⟩ : ∃ st, q[k]? = some st := ⟨_, List.getElem?_eq_getElem hkl⟩
    have hh := h.has k p t st hk hst
    have hb := h.base
    cases w with
    | false =>
      simp only [Status.use, hst, Bool.false_eq_true, if_false]
      obtain ⟨s', e, a1, a2, a3, a4, a5⟩ := access_eq (w := false) (cells := [.slot x p]) g2.lt (fun c hc u hu => child_false.2 (g2.ok c hc u hu))
      obtain ⟨s2, e', qq, -⟩ := access_quiet (x := x) h.own.lt (by simp [SB.box]) g2
      rw [e] at e'
      cases e'
      have same : ∀ u ∈ s.up t, s'.perm u (.slot x p) = s.perm u (.slot x p) := fun u hu => child_read (a4 u _ (by simp) hu)
      refine ⟨s', by simp only [rules, e]; rfl, qq.res _ _ h.own, ⟨by rw [a2]; exact hb.1, by rw [a1]; exact hb.2⟩, h.len, h.apart,
        fun p' t' hm => ?_, fun k' p' t' st' hk' hst' => ?_⟩
      · obtain ⟨g1, g2, g3, g4⟩ := h.rd p' t' hm
        exact ⟨g1, qq.rd _ _ g2, by rw [a1]; exact g3, by rw [a1]; exact g4⟩
      · by_cases hpp : p' = p
        · subst hpp
          have hkk := apart_idx h.apart hk hk'
          subst hkk
          rw [hk] at hk'
          cases hk'
          rw [hst] at hst'
          cases hst'
          cases st with
          | fresh => exact qq.res _ _ hh
          | written =>
            obtain ⟨h1, h2⟩ : Gd s t ch (.slot x p') ∧ _ := hh
            exact ⟨⟨by rw [a2]; exact h1.lt, by rw [a1]; exact h1.sub, fun u hu => by
              rw [a1] at hu; rw [same u hu]; exact h1.good u hu⟩, by rw [same t g3]; exact h2⟩
          | frozen => exact dead_access e hh
        · exact (h.has k' p' t' st' hk' hst').frame h.own.wf qq.wf h.own.lt (h.rd p' t' (List.mem_of_getElem? hk')).2.1.lt a2 a1
            (fun u => a3 u _ (by simpa using hpp))
    | true =>
      by_cases hf : st = .frozen
      · subst hf
        simp only [Status.use, hst, if_true]
        exact dead_write hh
      · simp only [Status.use, hst, if_true, if_neg hf]
        have hgd : Gd s t ch (.slot x p) := by
          cases st with
          | fresh => exact Res.gd' hh (by simp)
          | written => exact hh.1
          | frozen => exact absurd rfl hf
        obtain ⟨s', e, a1, a2, a3, a4, a5⟩ := access_eq (w := true) (cells := [.slot x p]) hgd.lt (fun c hc u hu => by
          simp only [List.mem_singleton] at hc; subst hc; exact child_true.2 (hgd.good u hu))
        have hw : WF s' := by have := h.own.wf; unfold WF at this ⊢; rwa [a1, a2]
        have gd' : Gd s' t ch (.slot x p) := ⟨by rw [a2]; exact hgd.lt, by rw [a1]; exact hgd.sub, fun u hu => by
          rw [a1] at hu
          exact child_good (a4 u _ (by simp) hu) (hgd.good u hu)⟩
        have act : s'.perm t (.slot x p) = .active := by
          have := a4 t (.slot x p) (by simp) g3
          rcases hgd.good t g3 with hp | hp <;> rw [hp] at this <;> simp [TPerm.child] at this <;> exact this.symm
        refine ⟨s', by simp only [rules, e]; rfl, ⟨hw, by rw [a2]; exact h.own.lt, fun u hu => hu, fun c hc u hu => ?_, fun c hc u hu hx => absurd hu hx⟩,
          ⟨by rw [a2]; exact hb.1, by rw [a1]; exact hb.2⟩, by simp [h.len], h.apart, fun p' t' hm => ?_, fun k' p' t' st' hk' hst' => ?_⟩
        · rw [a1] at hu
          by_cases hcp : c = .slot x p
          · subst hcp
            exact gd'.good u (by rw [a1]; exact hgd.sub u hu)
          · rw [a3 u c (by simpa using hcp)]; exact h.own.good c hc u hu
        · obtain ⟨j1, j2, j3, j4⟩ := h.rd p' t' hm
          refine ⟨j1, ⟨hw, by rw [a2]; exact j2.lt, by rw [a1]; exact j2.sub, fun c hc u hu => ?_⟩, by rw [a1]; exact j3, by rw [a1]; exact j4⟩
          simp only [List.mem_singleton] at hc
          subst hc
          by_cases hpp : p' = p
          · subst hpp
            obtain ⟨k', hk'⟩ := List.getElem?_of_mem hm
            have hkk := apart_idx h.apart hk hk'
            subst hkk
            rw [hk] at hk'
            cases hk'
            exact (gd'.good u hu).ne
          · rw [a3 u _ (by simpa using hpp)]
            rw [a1] at hu
            exact j2.ok _ (by simp) u hu
        · by_cases hpp : p' = p
          · subst hpp
            have hkk := apart_idx h.apart hk hk'
            subst hkk
            rw [hk] at hk'
            cases hk'
            rw [List.getElem?_set_self hkl] at hst'
            cases hst'
            exact ⟨gd', act⟩
          · have hkk : k' ≠ k := by
              rintro rfl
              rw [hk] at hk'
              cases hk'
              exact hpp rfl
            rw [List.getElem?_set_ne (Ne.symm hkk)] at hst'
            exact (h.has k' p' t' st' hk' hst').frame h.own.wf hw h.own.lt (h.rd p' t' (List.mem_of_getElem? hk')).2.1.lt a2 a1
              (fun u => a3 u _ (by simpa using hpp))

end TB

/-! ### C97 -/

/-- What the iterator over the used slots answers. -/
def usedSlots (N : Nat) (m : SMap A) : List (Option Nat) := ((List.range N).filter fun i => (m i).isSome).map some
/-- What the iterator over all slots answers. -/
def allSlots (N : Nat) (m : SMap A) : List (Option Nat) := (List.range N).map fun i => (m i).map fun _ => i

/-- What the rules say about a client `run` of an iterator with the given `answers` over the chunk borrowed by `b`: it is accepted
exactly when the policy allows it, and then it got references to the right slots, and `b` may be used again. -/
def Exactly (R : Rules σ) (i : σ) (N x b : Nat) (run : P σ (List (Nat × Nat))) (answers : List (Option Nat)) (policy : Prop) (uses : List Use)
    (s : σ) : Prop :=
  ((run s).isSome ↔ policy) ∧ ∀ refs s', run s = some (refs, s') →
    Reach R i s' ∧ refs.map (·.1) = taken answers uses ∧ R.Usable s' b (whole x N)

theorem exactly_of {Q : Type} {given : Q → Q} {used : Bool → Nat → Q → Option Q} {i s s1 : σ} {x b : Nat} {run : P σ (List (Nat × Nat))}
    {answers : List (Option Nat)} {uses : List Use} {q : Q} {I : σ → Q → List (Nat × Nat) → Prop} {p : P σ (List (Nat × Nat))}
    (hs : Reach R i s) (hst : Stays R i run) (e : run s = p s1)
    (h : match allowed given used answers uses q with
      | none => p s1 = none
      | some q' => ∃ refs' s', p s1 = some (refs', s') ∧ refs'.map (·.1) = [].map (fun r : Nat × Nat => r.1) ++ taken answers uses ∧ I s' q' refs')
    (hI : ∀ s' q' refs', I s' q' refs' → R.Usable s' b (whole x N)) :
    Exactly R i N x b run answers (allowed given used answers uses q).isSome uses s := by
  unfold Exactly
  rw [e]
  cases hx : allowed given used answers uses q with
  | none =>
    rw [hx] at h
    simp only at h
    rw [h]
    simp
  | some q' =>
    rw [hx] at h
    obtain ⟨refs', s', e2, h2, h3⟩ := h
    rw [e2]
    refine ⟨by simp, fun refs s'' e3 => ?_⟩
    cases e3
    exact ⟨hst _ _ _ hs (e.trans e2), by simpa using h2, hI _ _ _ h3⟩

theorem used_nodup (m : SMap A) : ((usedSlots N m).filterMap id).Nodup ∧ ∀ p ∈ (usedSlots N m).filterMap id, p < N := by
  unfold usedSlots
  simp only [List.filterMap_map, Function.comp_def, id_eq, List.filterMap_some]
  exact ⟨List.nodup_range.sublist List.filter_sublist, fun p hp => by simp at hp; exact hp.1⟩
theorem all_nodup (m : SMap A) : ((allSlots N m).filterMap id).Nodup ∧ ∀ p ∈ (allSlots N m).filterMap id, p < N := by
  unfold allSlots
  rw [Sparse.slots_keys]
  exact ⟨List.nodup_range.sublist List.filter_sublist, fun p hp => by simp [SMap.keys] at hp; exact hp.1⟩

theorem stays_sparseClient (x b) (c : Sparse A) (uses : List Use) : Stays R i (sparseClient R N x b c uses) :=
  .bind (stays_reMut _ _) fun _ => .bind (stays_read _ _) fun _ => stays_sparseUses _ _ _
theorem stays_sparseOptionClient (x b) (c : Sparse A) (uses : List Use) : Stays R i (sparseOptionClient R N E x b c uses) :=
  .bind (stays_reMut _ _) fun _ => stays_sparseUses _ _ _

theorem usedSlots_eq {c : Sparse A} {m : SMap A} (h : Sparse.Rep N c m) : (List.range N).filter c.map = (List.range N).filter fun i => (m i).isSome :=
  List.filter_congr fun i hi => h.map i (List.mem_range.1 hi)

/-- C97, `iter_mut()` under Stacked Borrows. The full claim would be that every client is accepted. What holds is that a client
is accepted exactly if it uses each reference only until it asks for the next. -/
theorem C97_iter_mut_stacked_borrows_partial {k : Nat} {s : SB} (hs : Reach SB.rules (SB.start k) s) {c : Sparse A} {m : SMap A} (h : View N c m)
    {x b : Nat} (hb : SB.rules.Usable s b (whole x N)) (uses : List Use) :
    Exactly SB.rules (SB.start k) N x b (sparseClient SB.rules N x b c uses) (usedSlots N m) (lending (usedSlots N m) uses) uses s := by
  obtain ⟨s1, e1, h1⟩ := SB.based_start (SB.Reach.wf hs) (SB.usable_iff.1 hb)
  have t1 : SB.rules.read s.next [.head x] s1 = some ((), s1) := by
    rw [SB.read_run, SB.each_self fun c hc => by
      obtain ⟨s2, e2, t2, -⟩ := SB.own_reMut (x := x) (fun c hc => box_whole hc) (SB.usable_iff.1 hb)
      rw [e1] at e2
      cases e2
      obtain ⟨i, r, e, hi, -⟩ := t2 c (SB.head_mem c hc)
      rw [e, Stack.read, if_pos (Stack.canRead_of_write hi)]]
    rfl
  have hu := used_nodup (N := N) m
  exact exactly_of hs (stays_sparseClient _ _ _ _) (p := sparseUses SB.rules N x s.next (iterMutStep N c) uses c.map [])
    (by simp only [sparseClient, P.bind_run, e1, t1, Option.bind_some])
    (sparseUses_sim (SB.sparse_sim (b := b)) uses (usedSlots N m) c.map (runs_iterMut c c.map _ (usedSlots_eq h.rep)) s1 0 []
      ⟨rfl, h1, by simp, by simp, by simp⟩ (by rw [List.map_nil, List.nil_append]; exact hu.1) hu.2)
    fun s' q' refs' h => SB.usable_iff.2 h.based.own

/-- C97, `option_iter_mut()` under Stacked Borrows. -/
theorem C97_option_iter_mut_stacked_borrows_partial {k : Nat} {s : SB} (hs : Reach SB.rules (SB.start k) s) {c : Sparse A} {m : SMap A}
    (hW : N < E.W) (h : View N c m) {x b : Nat} (hb : SB.rules.Usable s b (whole x N)) (uses : List Use) :
    Exactly SB.rules (SB.start k) N x b (sparseOptionClient SB.rules N E x b c uses) (allSlots N m) (lending (allSlots N m) uses) uses s := by
  obtain ⟨s1, e1, h1⟩ := SB.based_start (SB.Reach.wf hs) (SB.usable_iff.1 hb)
  have hu := all_nodup (N := N) m
  exact exactly_of hs (stays_sparseOptionClient _ _ _ _)
    (p := sparseUses SB.rules N x s.next (fun i => Sparse.optionIterMutNext N E i c) uses 0 [])
    (by simp only [sparseOptionClient, P.bind_run, e1, Option.bind_some])
    (sparseUses_sim (SB.sparse_sim (b := b)) uses (allSlots N m) 0 (by unfold allSlots; rw [List.range_eq_range']; exact runs_option h.rep hW N 0 (by omega)) s1 0 []
      ⟨rfl, h1, by simp, by simp, by simp⟩ (by rw [List.map_nil, List.nil_append]; exact hu.1) hu.2)
    fun s' q' refs' h => SB.usable_iff.2 h.based.own

namespace TB
theorem sparse_start {s : TB} {x b : Nat} (h : Own s b (whole x N)) : ∃ s1, rules.reMut b (whole x N) s = some (s.next, s1) ∧
    Res s1 s.next b (whole x N) ∧ Own s1 s.next (whole x N) ∧ b < s1.next := by
  obtain ⟨s1, e1, r1, q1⟩ := q_reMut (x := x) h.lt (fun c hc => box_whole hc) h
  exact ⟨s1, e1, r1, ⟨r1.wf, r1.lt, fun u hu => hu, r1.gd, fun c hc u hu hx => absurd hu hx⟩, Nat.lt_of_lt_of_le h.lt q1.next⟩
theorem sparse_end {s : TB} {x b ch : Nat} {q refs} (h : SparseInv N x b ch s q refs) : rules.Usable s b (whole x N) :=
  usable_of h.base.1 fun c hc u hu => h.own.good c hc u (h.base.2 u hu)
end TB

/-- C97, `iter_mut()` under Tree Borrows. What holds is that a client is accepted exactly if it does not write through a reference,
ask for another and then write through the first one again. -/
theorem C97_iter_mut_tree_borrows_partial {k : Nat} {s : TB} (hs : Reach TB.rules (TB.start k) s) {c : Sparse A} {m : SMap A} (h : View N c m)
    {x b : Nat} (hb : TB.rules.Usable s b (whole x N)) (uses : List Use) :
    Exactly TB.rules (TB.start k) N x b (sparseClient TB.rules N x b c uses) (usedSlots N m) (noRewrite (usedSlots N m) uses) uses s := by
  have ho := TB.usable_own (TB.Reach.wf hs) (by simp [whole]) hb
  obtain ⟨s1, e1, r1, o1, l1⟩ := TB.sparse_start ho
  obtain ⟨s2, e2, q2⟩ := TB.q_read (x := x) o1.lt (SB.box_sub (N := N) SB.head_mem) (o1.rd.mono SB.head_mem)
  have hu := used_nodup (N := N) m
  exact exactly_of hs (stays_sparseClient _ _ _ _) (p := sparseUses TB.rules N x s.next (iterMutStep N c) uses c.map [])
    (by simp only [sparseClient, P.bind_run, e1, e2, Option.bind_some])
    (sparseUses_sim (TB.sparse_sim (b := b)) uses (usedSlots N m) c.map (runs_iterMut c c.map _ (usedSlots_eq h.rep)) s2 [] []
      ⟨q2.res _ _ o1, ⟨Nat.lt_of_lt_of_le l1 q2.next, by rw [q2.up b l1, q2.up _ o1.lt]; exact r1.sub⟩, rfl, by simp, by simp, by simp⟩
      (by rw [List.map_nil, List.nil_append]; exact hu.1) hu.2)
    fun s' q' refs' h => TB.sparse_end h

/-- C97, `option_iter_mut()` under Tree Borrows. -/
theorem C97_option_iter_mut_tree_borrows_partial {k : Nat} {s : TB} (hs : Reach TB.rules (TB.start k) s) {c : Sparse A} {m : SMap A}
    (hW : N < E.W) (h : View N c m) {x b : Nat} (hb : TB.rules.Usable s b (whole x N)) (uses : List Use) :
    Exactly TB.rules (TB.start k) N x b (sparseOptionClient TB.rules N E x b c uses) (allSlots N m) (noRewrite (allSlots N m) uses) uses s := by
  have ho := TB.usable_own (TB.Reach.wf hs) (by simp [whole]) hb
  obtain ⟨s1, e1, r1, o1, l1⟩ := TB.sparse_start ho
  have hu := all_nodup (N := N) m
  exact exactly_of hs (stays_sparseOptionClient _ _ _ _)
    (p := sparseUses TB.rules N x s.next (fun i => Sparse.optionIterMutNext N E i c) uses 0 [])
    (by simp only [sparseOptionClient, P.bind_run, e1, Option.bind_some])
    (sparseUses_sim (TB.sparse_sim (b := b)) uses (allSlots N m) 0 (by unfold allSlots; rw [List.range_eq_range']; exact runs_option h.rep hW N 0 (by omega)) s1 [] []
      ⟨o1, ⟨l1, r1.sub⟩, rfl, by simp, by simp, by simp⟩ (by rw [List.map_nil, List.nil_append]; exact hu.1) hu.2)
    fun s' q' refs' h => TB.sparse_end h

/-- C97 is false of the code: `let a = it.next(); let b = it.next(); *a = …`, which safe code may write, is undefined behaviour under
Stacked Borrows for both iterators; and `let a = it.next(); *a = …; let b = it.next(); *a = …` is under Tree Borrows. The chunk
is `{1: 20, 3: 10}`. -/
theorem C97_iter_mut_counterexample :
    sparseClient SB.rules 4 0 0 Sparse.sample [.next, .next, .write 0] (SB.start 2) = none ∧
    sparseOptionClient SB.rules 4 Chunk.dbg64 0 0 Sparse.sample [.next, .next, .next, .next, .write 0] (SB.start 2) = none ∧
    sparseClient TB.rules 4 0 0 Sparse.sample [.next, .write 0, .next, .write 0] (TB.start 2) = none ∧
    sparseOptionClient TB.rules 4 Chunk.dbg64 0 0 Sparse.sample [.next, .next, .write 0, .next, .next, .write 0] (TB.start 2) = none := by
  refine ⟨Option.not_isSome_iff_eq_none.1 ?_, Option.not_isSome_iff_eq_none.1 ?_, Option.not_isSome_iff_eq_none.1 ?_, Option.not_isSome_iff_eq_none.1 ?_⟩ <;>
    decide +kernel

/-- The policies are neither always met nor never. -/
example : lending [some 1, some 3] [.next, .write 0, .read 0, .next, .write 1] ∧ ¬lending [some 1, some 3] [.next, .next, .write 0] ∧
    noRewrite [some 1, some 3] [.next, .next, .write 0, .write 1, .write 0] ∧ noRewrite [some 1, some 3] [.next, .write 0, .next, .read 0] ∧
    ¬noRewrite [some 1, some 3] [.next, .write 0, .next, .write 0] := by
  unfold lending noRewrite
  decide +kernel
/-- The hypotheses hold at the start. -/
example : Exactly SB.rules (SB.start 2) 4 0 0 (sparseClient SB.rules 4 0 0 Sparse.sample [.next, .write 0, .next]) (usedSlots 4 Sparse.sampleMap)
    (lending (usedSlots 4 Sparse.sampleMap) [.next, .write 0, .next]) [.next, .write 0, .next] (SB.start 2) :=
  C97_iter_mut_stacked_borrows_partial .init Sparse.sample_view (SB.start_usable (by decide)) _
example : Exactly TB.rules (TB.start 2) 4 0 0 (sparseClient TB.rules 4 0 0 Sparse.sample [.next, .next, .write 0]) (usedSlots 4 Sparse.sampleMap)
    (noRewrite (usedSlots 4 Sparse.sampleMap) [.next, .next, .write 0]) [.next, .next, .write 0] (TB.start 2) :=
  C97_iter_mut_tree_borrows_partial .init Sparse.sample_view (TB.start_usable (by decide)) _

end Verif.Alias
