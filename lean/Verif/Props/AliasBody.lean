import Verif.AliasBody
import Verif.Props.AliasGuard
/-
C118 for the small functions the methods are made of.
-/
namespace Verif.Alias
open Verif
variable {σ α β A : Type} {N : Nat}

/-! ### These are the functions of the pointer model -/

section
variable (R : Rules σ) (x b : Nat)

theorem lenOf_body : lenOf R N x b = (Body.call (fun _ => R) false b (whole x N) (.len x) >>= fun _ => pure ()) := by
  simp [lenOf, Body.call, Body.run, Body.len]
theorem ptr_body : ptr R N x b = (Body.call (fun _ => R) false b (whole x N) (.ptr N x) >>= fun qs => pure (qs.headD 0)) := by
  simp [ptr, Body.call, Body.run, Body.ptr]
theorem mutPtr_body : mutPtr R N x b = (Body.call (fun _ => R) true b (whole x N) (.mutPtr N x) >>= fun qs => pure (qs.headD 0)) := by
  simp [mutPtr, Body.call, Body.run, Body.mutPtr]
theorem dataConst_body : dataConst R N x b = (Body.call (fun _ => R) false b (whole x N) (.dataConst N x) >>= fun qs => pure (qs.headD 0)) := by
  simp [dataConst, Body.call, Body.run, Body.dataConst]
theorem dataMut_body : dataMut R N x b = (Body.call (fun _ => R) true b (whole x N) (.dataMut N x) >>= fun qs => pure (qs.headD 0)) := by
  simp [dataMut, Body.call, Body.run, Body.dataMut]
theorem readLen_body : readLen R N x b = (Body.call (fun _ => R) false b (whole x N) (.inlineLen N x) >>= fun _ => pure ()) := by
  simp [readLen, dataConst, Body.call, Body.run, Body.inlineLen]

variable (b : Nat → Nat)
theorem slice_body (lo n i : Nat) : (Call.slice x lo n i).run R N b =
    (Body.call (fun _ => R) false (b x) (whole x N) (.asSlice N x lo n) >>= fun qs => R.read (qs.headD 0) [.slot x i]) := by
  simp [Call.run, lenOf, Body.call, Body.run, Body.asSlice, Body.len]
theorem sliceMut_body (lo n i : Nat) : (Call.sliceMut x lo n i).run R N b =
    (Body.call (fun _ => R) true (b x) (whole x N) (.asMutSlice N x lo n) >>= fun qs => do
      R.read (qs.headD 0) [.slot x i]; R.write (qs.headD 0) [.slot x i]) := by
  simp [Call.run, lenOf, Body.call, Body.run, Body.asMutSlice, Body.len]
theorem values_body (i : Nat) : (Call.values x i).run R N b =
    (Body.call (fun _ => R) false (b x) (whole x N) (.values N x) >>= fun qs => do
      let r ← R.reShr (qs.headD 0) [.slot x i]; R.read r [.slot x i]) := by
  simp [Call.run, Body.call, Body.run, Body.values]
theorem valuesMut_body (i : Nat) : (Call.valuesMut x i).run R N b =
    (Body.call (fun _ => R) true (b x) (whole x N) (.valuesMut N x) >>= fun qs => do
      let r ← R.reMut (qs.headD 0) [.slot x i]; R.read r [.slot x i]; R.write r [.slot x i]) := by
  simp [Call.run, Body.call, Body.run, Body.valuesMut]
theorem deref_body (n i : Nat) : (Call.inlineDeref x n i).run R N b =
    (Body.call (fun _ => R) false (b x) (whole x N) (.deref N x n) >>= fun qs => R.read (qs.headD 0) [.slot x i]) := by
  simp [Call.run, readLen, dataConst, Body.call, Body.run, Body.deref, Body.inlineLen]
theorem derefMut_body (n i : Nat) : (Call.inlineDerefMut x n i).run R N b =
    (Body.call (fun _ => R) true (b x) (whole x N) (.derefMut N x n) >>= fun qs => do
      R.read (qs.headD 0) [.slot x i]; R.write (qs.headD 0) [.slot x i]) := by
  simp [Call.run, readLen, dataConst, Body.call, Body.run, Body.derefMut, Body.inlineLen]
end

/-! ### Work done through an argument leaves it valid -/

/-- `G` adds protectors to `R`; `Inv gs` says that the arguments `gs` are valid, `Der` which pointers are derived from them. -/
structure Shields (R : Rules σ) (G : List Arg → Rules σ) (Inv : List Arg → σ → Prop) (Der : σ → Arg → Tag → Prop) (Grow : σ → σ → Prop) : Prop where
  refl : ∀ s, Grow s s
  trans : ∀ {s s' s''}, Grow s s' → Grow s' s'' → Grow s s''
  der : ∀ {s s' g t}, Grow s s' → Der s g t → Der s' g t
  tail : ∀ {g gs s}, Inv (g :: gs) s → Inv gs s
  read : ∀ {gs s t} cells, Inv gs s → (∀ g ∈ gs, Der s g t) → (G gs).read t cells s = R.read t cells s ∧
    ∀ a s', R.read t cells s = some (a, s') → Inv gs s' ∧ Grow s s'
  write : ∀ {gs s t} cells, Inv gs s → (∀ g ∈ gs, Der s g t) → (G gs).write t cells s = R.write t cells s ∧
    ∀ a s', R.write t cells s = some (a, s') → Inv gs s' ∧ Grow s s'
  reMut : ∀ {gs s t} cells, Inv gs s → (∀ g ∈ gs, Der s g t) → (G gs).reMut t cells s = R.reMut t cells s ∧
    ∀ a s', R.reMut t cells s = some (a, s') → Inv gs s' ∧ Grow s s' ∧ ∀ g ∈ gs, Der s' g a
  raw : ∀ {gs s t} cells, Inv gs s → (∀ g ∈ gs, Der s g t) → (G gs).raw t cells s = R.raw t cells s ∧
    ∀ a s', R.raw t cells s = some (a, s') → Inv gs s' ∧ Grow s s' ∧ ∀ g ∈ gs, Der s' g a
  reShr : ∀ {gs s t} cells, Inv gs s → (∀ g ∈ gs, Der s g t) → (G gs).reShr t cells s = R.reShr t cells s ∧
    ∀ a s', R.reShr t cells s = some (a, s') → Inv (⟨a, false, cells⟩ :: gs) s' ∧ Grow s s' ∧ ∀ g ∈ (⟨a, false, cells⟩ : Arg) :: gs, Der s' g a

theorem Shields.run {R : Rules σ} {G : List Arg → Rules σ} {Inv : List Arg → σ → Prop} {Der : σ → Arg → Tag → Prop} {Grow : σ → σ → Prop}
    (h : Shields R G Inv Der Grow) (body : Body) : ∀ gs ps s, Inv gs s → (∀ p ∈ ps, ∀ g ∈ gs, Der s g p) →
      body.run G gs ps s = body.run (fun _ => R) gs ps s ∧
      ∀ qs s', body.run (fun _ => R) gs ps s = some (qs, s') → Inv gs s' ∧ Grow s s' ∧ ∀ q ∈ qs, ∀ g ∈ gs, Der s' g q := by
  have unit : ∀ {m m' : P σ Unit} {f f' : P σ (List Tag)} {gs : List Arg} {ps : List Tag} {s : σ}, (∀ p ∈ ps, ∀ g ∈ gs, Der s g p) →
      (m' s = m s ∧ ∀ a s', m s = some (a, s') → Inv gs s' ∧ Grow s s') →
      (∀ s', Inv gs s' → (∀ p ∈ ps, ∀ g ∈ gs, Der s' g p) → f' s' = f s' ∧
        ∀ qs s'', f s' = some (qs, s'') → Inv gs s'' ∧ Grow s' s'' ∧ ∀ q ∈ qs, ∀ g ∈ gs, Der s'' g q) →
      (m' >>= fun _ => f') s = (m >>= fun _ => f) s ∧
        ∀ qs s', (m >>= fun _ => f) s = some (qs, s') → Inv gs s' ∧ Grow s s' ∧ ∀ q ∈ qs, ∀ g ∈ gs, Der s' g q := by
    intro m m' f f' gs ps s hd hm hf
    rw [P.bind_run, P.bind_run, hm.1]
    cases e : m s with
    | none => exact ⟨rfl, fun _ _ e => by simp at e⟩
    | some r =>
      obtain ⟨i, g⟩ := hm.2 r.1 r.2 e
      obtain ⟨e1, h1⟩ := hf r.2 i fun p hp k hk => h.der g (hd p hp k hk)
      exact ⟨e1, fun qs s' e => let ⟨a, b, c⟩ := h1 qs s' e; ⟨a, h.trans g b, c⟩⟩
  have tag : ∀ {m m' : P σ Tag} {f f' : Tag → P σ (List Tag)} {gs : List Arg} {ps : List Tag} {s : σ}, (∀ p ∈ ps, ∀ g ∈ gs, Der s g p) →
      (m' s = m s ∧ ∀ a s', m s = some (a, s') → Inv gs s' ∧ Grow s s' ∧ ∀ g ∈ gs, Der s' g a) →
      (∀ a s', Inv gs s' → (∀ p ∈ a :: ps, ∀ g ∈ gs, Der s' g p) → f' a s' = f a s' ∧
        ∀ qs s'', f a s' = some (qs, s'') → Inv gs s'' ∧ Grow s' s'' ∧ ∀ q ∈ qs, ∀ g ∈ gs, Der s'' g q) →
      (m' >>= f') s = (m >>= f) s ∧
        ∀ qs s', (m >>= f) s = some (qs, s') → Inv gs s' ∧ Grow s s' ∧ ∀ q ∈ qs, ∀ g ∈ gs, Der s' g q := by
    intro m m' f f' gs ps s hd hm hf
    rw [P.bind_run, P.bind_run, hm.1]
    cases e : m s with
    | none => exact ⟨rfl, fun _ _ e => by simp at e⟩
    | some r =>
      obtain ⟨i, g, d⟩ := hm.2 r.1 r.2 e
      obtain ⟨e1, h1⟩ := hf r.1 r.2 i fun p hp k hk => by
        rcases List.mem_cons.1 hp with rfl | hp
        · exact d k hk
        · exact h.der g (hd p hp k hk)
      exact ⟨e1, fun qs s' e => let ⟨a, b, c⟩ := h1 qs s' e; ⟨a, h.trans g b, c⟩⟩
  have none : ∀ {gs : List Arg} {s : σ}, ∀ qs s', (Option.none : Option (List Tag × σ)) = some (qs, s') →
      Inv gs s' ∧ Grow s s' ∧ ∀ q ∈ qs, ∀ g ∈ gs, Der s' g q := fun _ _ e => by cases e
  induction body with
  | ret => exact fun gs ps s hi hd => ⟨rfl, fun qs s' e => by cases e; exact ⟨hi, h.refl _, hd⟩⟩
  | read i cells k ih =>
    intro gs ps s hi hd
    simp only [Body.run]
    cases e : ps[i]? with
    | none => exact ⟨rfl, none⟩
    | some p => exact unit hd (h.read cells hi (hd p (List.mem_of_getElem? e))) fun s' => ih gs ps s'
  | write i cells k ih =>
    intro gs ps s hi hd
    simp only [Body.run]
    cases e : ps[i]? with
    | none => exact ⟨rfl, none⟩
    | some p => exact unit hd (h.write cells hi (hd p (List.mem_of_getElem? e))) fun s' => ih gs ps s'
  | reMut i cells k ih =>
    intro gs ps s hi hd
    simp only [Body.run]
    cases e : ps[i]? with
    | none => exact ⟨rfl, none⟩
    | some p => exact tag hd (h.reMut cells hi (hd p (List.mem_of_getElem? e))) fun a s' => ih gs (a :: ps) s'
  | raw i cells k ih =>
    intro gs ps s hi hd
    simp only [Body.run]
    cases e : ps[i]? with
    | none => exact ⟨rfl, none⟩
    | some p => exact tag hd (h.raw cells hi (hd p (List.mem_of_getElem? e))) fun a s' => ih gs (a :: ps) s'
  | reShr i cells k ih =>
    intro gs ps s hi hd
    simp only [Body.run]
    cases e : ps[i]? with
    | none => exact ⟨rfl, none⟩
    | some p =>
      refine tag hd ?_ fun a s' => ih gs (a :: ps) s'
      obtain ⟨h1, h2⟩ := h.reShr cells hi (hd p (List.mem_of_getElem? e))
      exact ⟨h1, fun a s' e => let ⟨x, y, z⟩ := h2 a s' e; ⟨h.tail x, y, fun g hg => z g (List.mem_cons_of_mem _ hg)⟩⟩
  | look i cells body k ihb ih =>
    intro gs ps s hi hd
    simp only [Body.run]
    cases e : ps[i]? with
    | none => exact ⟨rfl, none⟩
    | some p =>
      obtain ⟨h1, h2⟩ := h.reShr cells hi (hd p (List.mem_of_getElem? e))
      dsimp only
      rw [P.bind_run, P.bind_run, h1]
      cases e1 : R.reShr p cells s with
      | none => exact ⟨rfl, none⟩
      | some r =>
        obtain ⟨i1, g1, d1⟩ := h2 r.1 r.2 e1
        obtain ⟨h3, h4⟩ := ihb _ [r.1] r.2 i1 (by simpa using d1)
        dsimp only [Option.bind_some]
        rw [P.bind_run, P.bind_run, h3]
        cases e2 : body.run (fun _ => R) (⟨r.1, false, cells⟩ :: gs) [r.1] r.2 with
        | none => exact ⟨rfl, none⟩
        | some q =>
          obtain ⟨i2, g2, d2⟩ := h4 q.1 q.2 e2
          obtain ⟨h5, h6⟩ := ih gs (q.1 ++ ps) q.2 (h.tail i2) fun p hp g hg => by
            rcases List.mem_append.1 hp with hp | hp
            · exact d2 p hp g (List.mem_cons_of_mem _ hg)
            · exact h.der (h.trans g1 g2) (hd p hp g hg)
          exact ⟨h5, fun qs s' e => let ⟨a, b, c⟩ := h6 qs s' e; ⟨a, h.trans (h.trans g1 g2) b, c⟩⟩

/-! ### Stacked Borrows -/

namespace Stack

/-- The item an argument is given when it is made. -/
def made (g : Arg) : Item := ⟨if g.w = true then .unique else .sharedRO, g.tag⟩

/-- The stack still has the item an argument was given when it was made, above items older than it. -/
def At (g : Arg) (st : List Item) : Prop :=
  ∃ pre rest, st = pre ++ made g :: rest ∧ ∀ j ∈ rest, j.tag < g.tag

theorem at_write {g : Arg} {t : Nat} {st st' : List Item} (h : At g st) (ht : g.tag ≤ t) (e : write t st = some st') : At g st' := by
  obtain ⟨pre, rest, rfl, hr⟩ := h
  induction pre generalizing st' with
  | nil =>
    simp only [List.nil_append, write] at e
    split at e
    · cases e; exact ⟨[], rest, rfl, hr⟩
    · cases hx : write t rest with
      | none => rw [hx] at e; simp at e
      | some z =>
        obtain ⟨i, hi, hti⟩ := SB.write_tag hx
        exact absurd (hti ▸ hr i hi) (Nat.not_lt.2 ht)
  | cons j pre ih =>
    simp only [List.cons_append, write] at e
    split at e
    · cases e; exact ⟨j :: pre, rest, rfl, hr⟩
    · cases hx : write t (pre ++ made g :: rest) with
      | none => rw [hx] at e; simp at e
      | some z =>
        rw [hx] at e
        simp only [Option.map_some, Option.some.injEq] at e
        obtain ⟨p, r, rfl, h2⟩ := ih hx
        split at e
        · subst e; exact ⟨j :: p, r, rfl, h2⟩
        · subst e; exact ⟨p, r, rfl, h2⟩

theorem at_read {g : Arg} {t : Nat} {st st' : List Item} (h : At g st) (ht : g.tag ≤ t) (e : read t st = some st') : At g st' := by
  obtain ⟨pre, rest, rfl, hr⟩ := h
  induction pre generalizing st' with
  | nil =>
    simp only [List.nil_append, read] at e
    split at e
    · cases e; exact ⟨[], rest, rfl, hr⟩
    · cases hx : read t rest with
      | none => rw [hx] at e; simp at e
      | some z =>
        obtain ⟨i, hi, hti⟩ := SB.read_tag hx
        exact absurd (hti ▸ hr i hi) (Nat.not_lt.2 ht)
  | cons j pre ih =>
    simp only [List.cons_append, read] at e
    split at e
    · cases e; exact ⟨j :: pre, rest, rfl, hr⟩
    · cases hx : read t (pre ++ made g :: rest) with
      | none => rw [hx] at e; simp at e
      | some z =>
        rw [hx] at e
        simp only [Option.map_some, Option.some.injEq] at e
        obtain ⟨p, r, rfl, h2⟩ := ih hx
        subst e
        exact ⟨demote j :: p, r, rfl, h2⟩

theorem pushRaw_tag {t n : Nat} {st st' : List Item} (h : pushRaw t n st = some st') : ∃ i ∈ st, i.tag = t := by
  induction st generalizing st' with
  | nil => simp [pushRaw] at h
  | cons j st ih =>
    simp only [pushRaw] at h
    split at h
    · rename_i hc
      simp only [canWrite, Bool.and_eq_true, beq_iff_eq] at hc
      exact ⟨j, by simp, hc.1⟩
    · cases hx : pushRaw t n st with
      | none => rw [hx] at h; simp at h
      | some z =>
        obtain ⟨i, hi, e⟩ := ih hx
        exact ⟨i, List.mem_cons_of_mem _ hi, e⟩

theorem at_push {g : Arg} {st : List Item} (h : At g st) (i : Item) : At g (i :: st) := by
  obtain ⟨pre, rest, rfl, hr⟩ := h
  exact ⟨i :: pre, rest, rfl, hr⟩

theorem at_raw {g : Arg} {t n : Nat} {st st' : List Item} (h : At g st) (ht : g.tag ≤ t) (e : pushRaw t n st = some st') : At g st' := by
  obtain ⟨pre, rest, rfl, hr⟩ := h
  induction pre generalizing st' with
  | nil =>
    simp only [List.nil_append, pushRaw] at e
    split at e
    · cases e; exact ⟨[_], rest, rfl, hr⟩
    · cases hx : pushRaw t n rest with
      | none => rw [hx] at e; simp at e
      | some z =>
        obtain ⟨i, hi, hti⟩ := pushRaw_tag hx
        exact absurd (hti ▸ hr i hi) (Nat.not_lt.2 ht)
  | cons j pre ih =>
    simp only [List.cons_append, pushRaw] at e
    split at e
    · cases e; exact ⟨_ :: j :: pre, rest, rfl, hr⟩
    · cases hx : pushRaw t n (pre ++ made g :: rest) with
      | none => rw [hx] at e; simp at e
      | some z =>
        rw [hx] at e
        simp only [Option.map_some, Option.some.injEq] at e
        subst e
        exact at_push (ih hx) j

end Stack

namespace SB

/-- The arguments are valid. -/
def Held (gs : List Arg) (s : SB) : Prop := WF s ∧ ∀ g ∈ gs, g.tag < s.next ∧ ∀ c ∈ g.cells, Stack.At g (s.stacks c)

theorem held_alive {gs : List Arg} {s : SB} (h : Held gs s) : gs.all (fun g => g.alive rules s) = true := by
  simp only [List.all_eq_true, alive_iff]
  intro g hg c hc
  obtain ⟨pre, rest, e, -⟩ := (h.2 g hg).2 c hc
  split
  · exact ⟨Stack.made g, by rw [e]; simp, by simp [Stack.canWrite, Stack.made, *]⟩
  · exact ⟨Stack.made g, by rw [e]; simp, by simp [Stack.canRead, Stack.made, *]⟩

theorem wf_op {s s' : SB} {cells : List Cell} (h : WF s) (hn : s.next ≤ s'.next) (hf : ∀ c, c ∉ cells → s'.stacks c = s.stacks c)
    (hs : ∀ c ∈ cells, ∀ i ∈ s'.stacks c, (∃ j ∈ s.stacks c, j.tag = i.tag) ∨ i.tag < s'.next) : WF s' := by
  intro c i hi
  by_cases hc : c ∈ cells
  · rcases hs c hc i hi with ⟨j, hj, e⟩ | h'
    · exact e ▸ Nat.lt_of_lt_of_le (h c j hj) hn
    · exact h'
  · rw [hf c hc] at hi
    exact Nat.lt_of_lt_of_le (h c i hi) hn

theorem held_op {gs : List Arg} {s s' : SB} {cells : List Cell} (h : Held gs s) (hn : s.next ≤ s'.next)
    (hf : ∀ c, c ∉ cells → s'.stacks c = s.stacks c)
    (hs : ∀ c ∈ cells, ∀ i ∈ s'.stacks c, (∃ j ∈ s.stacks c, j.tag = i.tag) ∨ i.tag < s'.next)
    (ha : ∀ c ∈ cells, ∀ g ∈ gs, Stack.At g (s.stacks c) → Stack.At g (s'.stacks c)) : Held gs s' := by
  refine ⟨wf_op h.1 hn hf hs, fun g hg => ⟨Nat.lt_of_lt_of_le (h.2 g hg).1 hn, fun c hc => ?_⟩⟩
  by_cases hcc : c ∈ cells
  · exact ha c hcc g hg ((h.2 g hg).2 c hc)
  · rw [hf c hcc]; exact (h.2 g hg).2 c hc

theorem guarding_eq {gs : List Arg} {m : P SB α} {s : SB} (h : ∀ a s', m s = some (a, s') → Held gs s') : guarding rules gs m s = m s := by
  unfold guarding
  cases e : m s with
  | none => rfl
  | some r => exact if_pos (held_alive (h r.1 r.2 e))

theorem enter_mut {gs : List Arg} {s s' : SB} {t a : Nat} {cells : List Cell} (h : Held gs s) (hd : ∀ g ∈ gs, g.tag ≤ t)
    (e : rules.reMut t cells s = some (a, s')) : Held (⟨a, true, cells⟩ :: gs) s' ∧ s.next ≤ s'.next ∧ a = s.next := by
  obtain ⟨rfl, h1, h2, h3⟩ := reMut_inv e
  have h4 : ∀ c ∈ cells, ∃ st, Stack.write t (s.stacks c) = some st ∧ s'.stacks c = ⟨.unique, s.next⟩ :: st := fun c hc => by
    have := h3 c hc
    cases hx : Stack.write t (s.stacks c) with
    | none => rw [hx] at this; cases this
    | some st => rw [hx] at this; exact ⟨st, rfl, (Option.some.inj this).symm⟩
  have hh : Held gs s' := held_op h (by omega) h2
    (fun c hc i hi => by
      obtain ⟨st, e1, e2⟩ := h4 c hc
      rw [e2] at hi
      rcases List.mem_cons.1 hi with rfl | hi
      · exact .inr (by show s.next < s'.next; omega)
      · exact .inl ⟨i, Stack.mem_write e1 i hi, rfl⟩)
    (fun c hc g hg ha => by
      obtain ⟨st, e1, e2⟩ := h4 c hc
      rw [e2]; exact Stack.at_push (Stack.at_write ha (hd g hg) e1) _)
  refine ⟨⟨hh.1, fun g hg => ?_⟩, by omega, rfl⟩
  rcases List.mem_cons.1 hg with rfl | hg
  · refine ⟨by show s.next < s'.next; omega, fun c hc => ?_⟩
    obtain ⟨st, e1, e2⟩ := h4 c hc
    exact ⟨[], st, e2, fun j hj => h.1 c j (Stack.mem_write e1 j hj)⟩
  · exact hh.2 g hg

theorem enter_shr {gs : List Arg} {s s' : SB} {t a : Nat} {cells : List Cell} (h : Held gs s) (hd : ∀ g ∈ gs, g.tag ≤ t)
    (e : rules.reShr t cells s = some (a, s')) : Held (⟨a, false, cells⟩ :: gs) s' ∧ s.next ≤ s'.next ∧ a = s.next := by
  obtain ⟨rfl, h1, h2, h3⟩ := reShr_inv e
  have h4 : ∀ c ∈ cells, ∃ st, Stack.read t (s.stacks c) = some st ∧ s'.stacks c = ⟨.sharedRO, s.next⟩ :: st := fun c hc => by
    have := h3 c hc
    cases hx : Stack.read t (s.stacks c) with
    | none => rw [hx] at this; cases this
    | some st => rw [hx] at this; exact ⟨st, rfl, (Option.some.inj this).symm⟩
  have hh : Held gs s' := held_op h (by omega) h2
    (fun c hc i hi => by
      obtain ⟨st, e1, e2⟩ := h4 c hc
      rw [e2] at hi
      rcases List.mem_cons.1 hi with rfl | hi
      · exact .inr (by show s.next < s'.next; omega)
      · exact .inl (Stack.mem_read e1 i hi))
    (fun c hc g hg ha => by
      obtain ⟨st, e1, e2⟩ := h4 c hc
      rw [e2]; exact Stack.at_push (Stack.at_read ha (hd g hg) e1) _)
  refine ⟨⟨hh.1, fun g hg => ?_⟩, by omega, rfl⟩
  rcases List.mem_cons.1 hg with rfl | hg
  · refine ⟨by show s.next < s'.next; omega, fun c hc => ?_⟩
    obtain ⟨st, e1, e2⟩ := h4 c hc
    refine ⟨[], st, e2, fun j hj => ?_⟩
    obtain ⟨i, hi, e3⟩ := Stack.mem_read e1 j hj
    show j.tag < s.next
    rw [← e3]
    exact h.1 c i hi
  · exact hh.2 g hg

theorem shields : Shields rules rules.guarded Held (fun _ g t => g.tag ≤ t) (fun s s' => s.next ≤ s'.next) where
  refl _ := Nat.le_refl _
  trans := Nat.le_trans
  der _ h := h
  tail h := ⟨h.1, fun g hg => h.2 g (List.mem_cons_of_mem _ hg)⟩
  read cells hi hd := by
    have k : ∀ a s', rules.read _ cells _ = some (a, s') → Held _ s' ∧ _ := fun a s' e => by
      obtain ⟨h1, h2, h3⟩ := read_inv e
      exact ⟨held_op hi (by omega) h2 (fun c hc i h => .inl (Stack.mem_read (h3 c hc) i h)) fun c hc g hg ha => Stack.at_read ha (hd g hg) (h3 c hc),
        Nat.le_of_eq h1.symm⟩
    exact ⟨guarding_eq fun a s' e => (k a s' e).1, k⟩
  write cells hi hd := by
    have k : ∀ a s', rules.write _ cells _ = some (a, s') → Held _ s' ∧ _ := fun a s' e => by
      obtain ⟨h1, h2, h3⟩ := write_inv e
      exact ⟨held_op hi (by omega) h2 (fun c hc i h => .inl ⟨i, Stack.mem_write (h3 c hc) i h, rfl⟩) fun c hc g hg ha => Stack.at_write ha (hd g hg) (h3 c hc),
        Nat.le_of_eq h1.symm⟩
    exact ⟨guarding_eq fun a s' e => (k a s' e).1, k⟩
  reMut cells hi hd := by
    have k := fun a s' e => enter_mut (s' := s') (a := a) (cells := cells) hi hd e
    exact ⟨guarding_eq fun a s' e => ⟨(k a s' e).1.1, fun g hg => (k a s' e).1.2 g (List.mem_cons_of_mem _ hg)⟩, fun a s' e =>
      ⟨⟨(k a s' e).1.1, fun g hg => (k a s' e).1.2 g (List.mem_cons_of_mem _ hg)⟩, (k a s' e).2.1, fun g hg => by
        rw [(k a s' e).2.2]; exact Nat.le_of_lt (hi.2 g hg).1⟩⟩
  raw {gs s t} cells hi hd := by
    have k : ∀ a s', rules.raw t cells s = some (a, s') → Held gs s' ∧ s.next ≤ s'.next ∧ ∀ g ∈ gs, g.tag ≤ a := fun a s' e => by
      obtain ⟨rfl, h1, h2, h3⟩ := raw_inv e
      exact ⟨held_op hi (by omega) h2 (fun c hc i h => (Stack.mem_pushRaw (h3 c hc) i h).imp (fun h => ⟨i, h, rfl⟩) (fun h => by omega))
        fun c hc g hg ha => Stack.at_raw ha (hd g hg) (h3 c hc), by omega, fun g hg => Nat.le_of_lt (hi.2 g hg).1⟩
    exact ⟨guarding_eq fun a s' e => (k a s' e).1, k⟩
  reShr cells hi hd := by
    have k := fun a s' e => enter_shr (s' := s') (a := a) (cells := cells) hi hd e
    exact ⟨guarding_eq fun a s' e => ⟨(k a s' e).1.1, fun g hg => (k a s' e).1.2 g (List.mem_cons_of_mem _ hg)⟩, fun a s' e =>
      ⟨(k a s' e).1, (k a s' e).2.1, fun g hg => by
        rcases List.mem_cons.1 hg with rfl | hg
        · exact Nat.le_refl _
        · rw [(k a s' e).2.2]; exact Nat.le_of_lt (hi.2 g hg).1⟩⟩

end SB

/-- C118, Stacked Borrows: a function which works only through its argument and pointers derived from it - whatever it does with them, and whatever functions it
passes them to - never makes its argument invalid; in particular the containers' helpers do not. -/
theorem C118_helper_stacked_borrows {k : Nat} {s : SB} (hs : Reach SB.rules (SB.start k) s) (w : Bool) (t : Tag) (cells : List Cell) (body : Body) :
    body.call SB.rules.guarded w t cells s = body.call (fun _ => SB.rules) w t cells s := by
  have h0 : SB.Held [] s := ⟨SB.Reach.wf hs, by simp⟩
  unfold Body.call
  cases w
  · simp only [Bool.false_eq_true, if_false]
    rw [P.bind_run, P.bind_run, (SB.shields.reShr cells h0 (by simp)).1]
    cases e : SB.rules.reShr t cells s with
    | none => rfl
    | some r =>
      obtain ⟨h1, -, h2⟩ := SB.enter_shr (a := r.1) (s' := r.2) h0 (by simp) e
      exact (SB.shields.run body _ [r.1] r.2 h1 (by simp)).1
  · simp only [if_true]
    rw [P.bind_run, P.bind_run, (SB.shields.reMut cells h0 (by simp)).1]
    cases e : SB.rules.reMut t cells s with
    | none => rfl
    | some r =>
      obtain ⟨h1, -, h2⟩ := SB.enter_mut (a := r.1) (s' := r.2) h0 (by simp) e
      exact (SB.shields.run body _ [r.1] r.2 h1 (by simp)).1

/-! ### Tree Borrows -/

namespace TB

/-- The arguments are valid. -/
def Held (gs : List Arg) (s : TB) : Prop := (WF s ∧ Own0 s) ∧
  ∀ g ∈ gs, g.tag < s.next ∧ ∀ c ∈ g.cells, ∀ u ∈ s.up g.tag, ((s.perm u c).child g.w).isSome = true
/-- `t` is derived from the argument. -/
def From (s : TB) (g : Arg) (t : Tag) : Prop := t < s.next ∧ g.tag < s.next ∧ g.tag ∈ s.up t ∧ ∀ u ∈ s.up g.tag, u ∈ s.up t
/-- References do not change their ancestors. -/
def Grow (s s' : TB) : Prop := s.next ≤ s'.next ∧ ∀ t, t < s.next → s'.up t = s.up t

theorem held_alive {gs : List Arg} {s : TB} (h : Held gs s) : gs.all (fun g => g.alive rules s) = true := by
  simp only [List.all_eq_true, alive_iff]
  exact fun g hg c hc => ⟨(h.2 g hg).1, (h.2 g hg).2 c hc⟩

theorem child_fwd {p q : TPerm} {w v : Bool} (h : p.child w = some q) (hq : (p.child v).isSome = true) : (q.child v).isSome = true := by
  cases p <;> cases w <;> cases v <;> simp [TPerm.child] at h hq ⊢ <;> subst h <;> simp

theorem held_access {gs : List Arg} {w : Bool} {t : Nat} {cells : List Cell} {s s' : TB} (h : Held gs s) (hd : ∀ g ∈ gs, ∀ u ∈ s.up g.tag, u ∈ s.up t)
    (e : access w t cells s = some s') : Held gs s' ∧ Grow s s' := by
  obtain ⟨h1, h2⟩ := access_inv e
  obtain ⟨s2, e2, hu, hn, p1, p2, p3⟩ := access_eq h1 h2
  rw [e] at e2
  cases e2
  refine ⟨⟨⟨fun u => by rw [hu, hn]; exact h.1.1 u, fun u => by rw [hu, hn]; exact h.1.2 u⟩, fun g hg => ⟨hn ▸ (h.2 g hg).1, fun c hc u hgu => ?_⟩⟩,
    Nat.le_of_eq hn.symm, fun u _ => by rw [hu]⟩
  rw [hu] at hgu
  have := (h.2 g hg).2 c hc u hgu
  by_cases hcc : c ∈ cells
  · exact child_fwd (p2 u c hcc (hd g hg u hgu)) this
  · rwa [p1 u c hcc]

theorem held_sprout {gs : List Arg} {t : Nat} {p : TPerm} {s : TB} (ht : t < s.next) (h : Held gs s) : Held gs (sprout t p s) ∧ Grow s (sprout t p s) ∧
    (sprout t p s).up s.next = s.next :: s.up t := by
  have hu : ∀ u, u < s.next → (sprout t p s).up u = s.up u := fun u hu => by simp [sprout, Nat.ne_of_lt hu]
  have ho : Own0 (sprout t p s) := fun u h' => by
    by_cases e : u = s.next
    · subst e; simp [sprout]
    · have : u < s.next := by
        have : u < s.next + 1 := h'
        omega
      rw [hu u this]; exact h.1.2 u this
  refine ⟨⟨⟨sprout_wf h.1.1 ht p, ho⟩, fun g hg => ⟨Nat.lt_succ_of_lt (h.2 g hg).1, fun c hc u hgu => ?_⟩⟩, ⟨Nat.le_succ _, hu⟩, by simp [sprout]⟩
  rw [hu _ (h.2 g hg).1] at hgu
  have : u < s.next := h.1.1 _ (h.2 g hg).1 u hgu
  rw [show (sprout t p s).perm u c = s.perm u c by simp [sprout, Nat.ne_of_lt this]]
  exact (h.2 g hg).2 c hc u hgu

theorem grow_trans {s s' s'' : TB} (h : Grow s s') (k : Grow s' s'') : Grow s s'' :=
  ⟨Nat.le_trans h.1 k.1, fun t ht => (k.2 t (Nat.lt_of_lt_of_le ht h.1)).trans (h.2 t ht)⟩
theorem grow_from {s s' : TB} {g : Arg} {t : Tag} (h : Grow s s') (k : From s g t) : From s' g t :=
  ⟨Nat.lt_of_lt_of_le k.1 h.1, Nat.lt_of_lt_of_le k.2.1 h.1, by rw [h.2 t k.1]; exact k.2.2.1, by rw [h.2 t k.1, h.2 _ k.2.1]; exact k.2.2.2⟩

/-- Making a reference from a pointer derived from the arguments. -/
theorem held_make {gs : List Arg} {t a : Nat} {p : TPerm} {cells : List Cell} {s s' : TB} (h : Held gs s) (hd : ∀ g ∈ gs, From s g t)
    (e : (if t < s.next then (access false s.next cells (sprout t p s)).map fun s' => (s.next, s') else none) = some (a, s')) :
    Held gs s' ∧ Grow s s' ∧ (∀ g ∈ gs, From s' g a) ∧ a < s'.next ∧ s'.up a = a :: s.up t ∧
      (∀ c ∈ cells, ((s'.perm a c).child false).isSome = true ∧ (p = .reserved → ((s'.perm a c).child true).isSome = true)) ∧
      ∀ c ∈ cells, ∀ u ∈ s.up t, ((s'.perm u c).child false).isSome = true ∧
        (((s.perm u c).child true).isSome = true → ((s'.perm u c).child true).isSome = true) := by
  split at e
  · rename_i ht
    cases hx : access false s.next cells (sprout t p s) with
    | none => simp [hx] at e
    | some z =>
      simp only [hx, Option.map_some, Option.some.injEq, Prod.mk.injEq] at e
      obtain ⟨rfl, rfl⟩ := e
      obtain ⟨h1, g1, u1⟩ := held_sprout (p := p) ht h
      obtain ⟨h2, g2⟩ := held_access h1 (fun g hg u hu => by
        rw [u1]
        rw [g1.2 _ (hd g hg).2.1] at hu
        exact List.mem_cons_of_mem _ ((hd g hg).2.2.2 u hu)) hx
      have hlt : s.next < (sprout t p s).next := Nat.lt_succ_self _
      have up2 : z.up s.next = s.next :: s.up t := by rw [g2.2 _ hlt, u1]
      obtain ⟨b1, b2⟩ := access_inv hx
      obtain ⟨s2, e2, hu, hn, p1, p2, p3⟩ := access_eq b1 b2
      rw [hx] at e2
      cases e2
      refine ⟨h2, grow_trans g1 g2, fun g hg => ?_, Nat.lt_of_lt_of_le hlt g2.1, up2, fun c hc => ?_, fun c hc u hut => ?_⟩
      · have f := grow_from (grow_trans g1 g2) (hd g hg)
        have e3 : z.up t = s.up t := (grow_trans g1 g2).2 t ht
        refine ⟨Nat.lt_of_lt_of_le hlt g2.1, f.2.1, ?_, fun u hu => ?_⟩
        · rw [up2, ← e3]; exact List.mem_cons_of_mem _ f.2.2.1
        · rw [up2, ← e3]; exact List.mem_cons_of_mem _ (f.2.2.2 u hu)
      · have hm : s.next ∈ (sprout t p s).up s.next := by rw [u1]; simp
        have h3 := p2 s.next c hc hm
        refine ⟨child_fwd h3 (by rw [h3]; rfl), fun hp => child_fwd h3 ?_⟩
        subst hp
        simp [sprout, TPerm.child]
      · have hm : u ∈ (sprout t p s).up s.next := by rw [u1]; exact List.mem_cons_of_mem _ hut
        have h3 := p2 u c hc hm
        have h4 : (sprout t p s).perm u c = s.perm u c := by simp [sprout, Nat.ne_of_lt (h.1.1 t ht u hut)]
        exact ⟨child_fwd h3 (by rw [h3]; rfl), fun hp => child_fwd h3 (by rw [h4]; exact hp)⟩
  · simp at e

theorem enter_shr {gs : List Arg} {t a : Nat} {cells : List Cell} {s s' : TB} (h : Held gs s) (hd : ∀ g ∈ gs, From s g t)
    (e : rules.reShr t cells s = some (a, s')) :
    Held (⟨a, false, cells⟩ :: gs) s' ∧ Grow s s' ∧ ∀ g ∈ (⟨a, false, cells⟩ : Arg) :: gs, From s' g a := by
  obtain ⟨h1, h2, h3, h4, h5, h6, h7⟩ := held_make h hd e
  refine ⟨⟨h1.1, fun g hg => ?_⟩, h2, fun g hg => ?_⟩
  · rcases List.mem_cons.1 hg with rfl | hg
    · refine ⟨h4, fun c hc u hu => ?_⟩
      simp only [h5] at hu
      rcases List.mem_cons.1 hu with rfl | hu
      · exact (h6 c hc).1
      · exact (h7 c hc u hu).1
    · exact h1.2 g hg
  · rcases List.mem_cons.1 hg with rfl | hg
    · exact ⟨h4, h4, h1.1.2 _ h4, fun _ h => h⟩
    · exact h3 g hg

theorem enter_mut {t a : Nat} {cells : List Cell} {s s' : TB} (h : Held [] s) (hw : rules.Usable s t cells)
    (e : rules.reMut t cells s = some (a, s')) : Held [⟨a, true, cells⟩] s' ∧ From s' ⟨a, true, cells⟩ a := by
  obtain ⟨h1, h2, h3, h4, h5, h6, h7⟩ := held_make (p := .reserved) h (by simp) e
  refine ⟨⟨h1.1, fun g hg => ?_⟩, h4, h4, h1.1.2 _ h4, fun _ h => h⟩
  simp only [List.mem_singleton] at hg
  subst hg
  refine ⟨h4, fun c hc u hu => ?_⟩
  simp only [h5] at hu
  rcases List.mem_cons.1 hu with rfl | hu
  · exact (h6 c hc).2 rfl
  · refine (h7 c hc u hu).2 ?_
    obtain ⟨z, e2⟩ := hw c hc
    simp only [rules] at e2
    cases hx : access true t [c] s with
    | none => simp [hx] at e2
    | some y => exact (access_inv hx).2 c (by simp) u hu

theorem not_foreign' {gs : List Arg} {s : TB} {t : Tag} {cells : List Cell} (h : ∀ g ∈ gs, From s g t) : foreign gs t cells s = false := by
  unfold foreign
  rw [List.any_eq_false]
  intro g hg
  simp [(h g hg).2.2.1]

theorem protect_eq {gs : List Arg} {m : P TB α} {s : TB} {t : Tag} {cells : List Cell} (hd : ∀ g ∈ gs, From s g t)
    (h : ∀ a s', m s = some (a, s') → Held gs s') : guarding rules gs (exclusively gs t cells m) s = m s := by
  unfold guarding exclusively
  rw [not_foreign' hd]
  simp only [Bool.false_eq_true, if_false]
  cases e : m s with
  | none => rfl
  | some r => exact if_pos (held_alive (h r.1 r.2 e))

theorem shields : Shields rules protecting Held From Grow where
  refl _ := ⟨Nat.le_refl _, fun _ _ => rfl⟩
  trans := grow_trans
  der := grow_from
  tail h := ⟨h.1, fun g hg => h.2 g (List.mem_cons_of_mem _ hg)⟩
  read {gs s t} cells hi hd := by
    have k : ∀ a s', rules.read t cells s = some (a, s') → Held gs s' ∧ Grow s s' := fun a s' e => by
      simp only [rules] at e
      cases hx : access false t cells s with
      | none => simp [hx] at e
      | some y => simp only [hx, Option.map_some, Option.some.injEq, Prod.mk.injEq, true_and] at e; subst e; exact held_access hi (fun g hg => (hd g hg).2.2.2) hx
    exact ⟨protect_eq hd fun a s' e => (k a s' e).1, k⟩
  write {gs s t} cells hi hd := by
    have k : ∀ a s', rules.write t cells s = some (a, s') → Held gs s' ∧ Grow s s' := fun a s' e => by
      simp only [rules] at e
      cases hx : access true t cells s with
      | none => simp [hx] at e
      | some y => simp only [hx, Option.map_some, Option.some.injEq, Prod.mk.injEq, true_and] at e; subst e; exact held_access hi (fun g hg => (hd g hg).2.2.2) hx
    exact ⟨protect_eq hd fun a s' e => (k a s' e).1, k⟩
  reMut cells hi hd := by
    have k := fun a s' e => held_make (s' := s') (a := a) (p := .reserved) (cells := cells) hi hd e
    exact ⟨protect_eq hd fun a s' e => (k a s' e).1, fun a s' e => ⟨(k a s' e).1, (k a s' e).2.1, (k a s' e).2.2.1⟩⟩
  raw {gs s t} cells hi hd := by
    refine ⟨?_, fun a s' e => by cases e; exact ⟨hi, ⟨Nat.le_refl _, fun _ _ => rfl⟩, hd⟩⟩
    exact if_pos (held_alive hi)
  reShr cells hi hd := by
    have k := fun a s' e => enter_shr (s' := s') (a := a) (cells := cells) hi hd e
    exact ⟨protect_eq hd fun a s' e => ⟨(k a s' e).1.1, fun g hg => (k a s' e).1.2 g (List.mem_cons_of_mem _ hg)⟩, k⟩

end TB

/-- C118, Tree Borrows: while such a function runs, its argument stays valid and what it covers is accessed only through it.  (Tree Borrows lets a `&mut` be made of a
reference that may not write, so that `t` may is asked for.) -/
theorem C118_helper_tree_borrows {k : Nat} {s : TB} (hs : Reach TB.rules (TB.start k) s) (w : Bool) (t : Tag) (cells : List Cell)
    (hw : w = true → TB.rules.Usable s t cells) (body : Body) :
    body.call TB.protecting w t cells s = body.call (fun _ => TB.rules) w t cells s := by
  have h0 : TB.Held [] s := ⟨⟨TB.Reach.wf hs, TB.reach_own0 hs⟩, by simp⟩
  unfold Body.call
  cases w
  · simp only [Bool.false_eq_true, if_false]
    rw [P.bind_run, P.bind_run, (TB.shields.reShr cells h0 (by simp)).1]
    cases e : TB.rules.reShr t cells s with
    | none => rfl
    | some r =>
      obtain ⟨h1, -, h2⟩ := TB.enter_shr (a := r.1) (s' := r.2) h0 (by simp) e
      exact (TB.shields.run body _ [r.1] r.2 h1 (by simpa using h2)).1
  · simp only [if_true]
    rw [P.bind_run, P.bind_run, (TB.shields.reMut cells h0 (by simp)).1]
    cases e : TB.rules.reMut t cells s with
    | none => rfl
    | some r =>
      obtain ⟨h1, h2⟩ := TB.enter_mut (a := r.1) (s' := r.2) h0 (hw rfl) e
      exact (TB.shields.run body _ [r.1] r.2 h1 (by simpa using h2)).1

/-! ### The theorems are not vacuous -/

/-- All the helpers, on a container of capacity 3. -/
def helpers : List (Bool × Body) :=
  [(false, .len 0), (false, .ptr 3 0), (true, .mutPtr 3 0), (false, .dataConst 3 0), (true, .dataMut 3 0), (false, .inlineLen 3 0), (false, .asSlice 3 0 1 2),
    (true, .asMutSlice 3 0 1 2), (false, .values 3 0), (true, .valuesMut 3 0), (false, .deref 3 0 2), (true, .derefMut 3 0 2)]
/-- They are accepted with their arguments protected. -/
example : helpers.all (fun h => (h.2.call SB.rules.guarded h.1 0 (whole 0 3) (SB.start 1)).isSome) = true := by decide +kernel
example : helpers.all (fun h => (h.2.call TB.protecting h.1 0 (whole 0 3) (TB.start 1)).isSome) = true := by decide +kernel
/-- A function that also has the owner of its argument would be rejected: it writes through it and returns. -/
example : (do let a ← SB.rules.reMut 0 (whole 0 3); Body.run SB.rules.guarded [⟨a, true, whole 0 3⟩] [a, 0] (.write 1 [.head 0] .ret) : P SB _) (SB.start 1) = none ∧
    (do let a ← SB.rules.reMut 0 (whole 0 3); Body.run (fun _ => SB.rules) [⟨a, true, whole 0 3⟩] [a, 0] (.write 1 [.head 0] .ret) : P SB _) (SB.start 1) ≠ none ∧
    (do let a ← TB.rules.reMut 0 (whole 0 3); Body.run TB.protecting [⟨a, true, whole 0 3⟩] [a, 0] (.read 1 [.head 0] .ret) : P TB _) (TB.start 1) = none ∧
    (do let a ← TB.rules.reMut 0 (whole 0 3); Body.run (fun _ => TB.rules) [⟨a, true, whole 0 3⟩] [a, 0] (.read 1 [.head 0] .ret) : P TB _) (TB.start 1) ≠ none :=
  ⟨Option.not_isSome_iff_eq_none.1 (by decide +kernel), Option.isSome_iff_ne_none.1 (by decide +kernel),
    Option.not_isSome_iff_eq_none.1 (by decide +kernel), Option.isSome_iff_ne_none.1 (by decide +kernel)⟩

end Verif.Alias
