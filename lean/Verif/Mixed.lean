import Verif.Ledger
/-
Programs that use containers of several types at once: machines are put side by side (`Machine.mix`), and calls that involve two types are added
(`Machine.plus`).  Refinement and accounting of the parts carry over to the whole.
-/
namespace Verif

theorem Sat.mapState {σ τ α : Type} {o : Out σ α} {f : σ → τ} {Q : α → τ → Prop} {P : τ → Prop} {B : Prop}
    (h : Sat o (fun a s => Q a (f s)) (fun s => P (f s)) B) : Sat (o.mapState f) Q P B := by
  cases o <;> exact h

section
variable {ι A : Type} [DecidableEq ι] {C D K0 K1 K2 K3 : ι → Type}

/-- A call on a container of type `i`; with a container of another type there is no such call (`skip`). -/
def onKind {α : Type} (i : ι) (f : M (C i × List A) α) (skip : α) : M ((Σ i, C i) × List A) α
  | (⟨j, c⟩, log) => if h : j = i then (f (h ▸ c, log)).mapState (fun t => (⟨i, t.1⟩, t.2)) else .ok skip (⟨j, c⟩, log)

/-- A call on two containers, of types `i` and `j`. -/
def onKinds {α : Type} (i j : ι) (f : M ((C i × C j) × List A) α) (skip : α) : M (((Σ i, C i) × (Σ i, C i)) × List A) α
  | ((⟨i', c⟩, ⟨j', c'⟩), log) =>
    if h : i' = i ∧ j' = j then (f ((h.1 ▸ c, h.2 ▸ c'), log)).mapState (fun t => ((⟨i, t.1.1⟩, ⟨j, t.1.2⟩), t.2))
    else .ok skip ((⟨i', c⟩, ⟨j', c'⟩), log)

/-- Containers of all the types `i`, side by side. -/
def Machine.mix (m : ∀ i, Machine A (C i) (K0 i) (K1 i) (K2 i) (K3 i)) :
    Machine A (Σ i, C i) (Σ i, K0 i) (Σ i, K1 i) (Σ i, K2 i) (Σ i, K3 i) where
  ctor k := fun log => (do return ⟨k.1, ← (m k.1).ctor k.2⟩ : M (List A) (Σ i, C i)) log
  un k := onKind k.1 ((m k.1).un k.2) .skipped
  fork k := onKind k.1 (do return (← (m k.1).fork k.2).map (fun d => ⟨k.1, d⟩)) none
  bin k := onKinds k.1 k.1 ((m k.1).bin k.2) .skipped
  dtor := fun s => ((m s.1.1).dtor (s.1.2, s.2)).mapState (fun t => (⟨s.1.1, t.1⟩, t.2))
  born k c := if h : c.1 = k.1 then (m k.1).born k.2 (h ▸ c.2) else []

/-- The two containers have the same type and are related there. -/
inductive SameKind (R : ∀ i, C i → D i → Prop) : (Σ i, C i) → (Σ i, D i) → Prop where
  | mk (i : ι) (c : C i) (d : D i) (h : R i c d) : SameKind R ⟨i, c⟩ ⟨i, d⟩

variable {R : ∀ i, C i → D i → Prop}

theorem onKind_ref {α : Type} {i : ι} {f : M (C i × List A) α} {g : M (D i × List A) α} {skip : α}
    (h : ∀ c d log, R i c d → Ref (RelLog (R i)) (f (c, log)) (g (d, log))) {c : Σ i, C i} {d : Σ i, D i} (hr : SameKind R c d) (log : List A) :
    Ref (RelLog (SameKind R)) (onKind i f skip (c, log)) (onKind i g skip (d, log)) := by
  obtain ⟨j, c, d, hr⟩ := hr
  unfold onKind
  by_cases hj : j = i
  · subst hj
    have := h c d log hr
    simp only [dif_pos]
    cases hf : f (c, log) <;> rw [hf] at this <;> simp only [Ref, Sat] at this <;> simp only [Out.mapState, Ref, Sat]
    · obtain ⟨t, e, h1, h2⟩ := this
      rw [e]; exact ⟨_, rfl, ⟨_, _, _, h1⟩, h2⟩
    · obtain ⟨t, e, h1, h2⟩ := this
      rw [e]; exact ⟨_, rfl, ⟨_, _, _, h1⟩, h2⟩
    · rw [this]
  · simp only [dif_neg hj]
    exact ⟨_, rfl, ⟨_, _, _, hr⟩, rfl⟩

theorem onKind_refV {α β : Type} {S : α → β → Prop} {i : ι} {f : M (C i × List A) α} {g : M (D i × List A) β} {skip : α} {skip' : β} (hs : S skip skip')
    (h : ∀ c d log, R i c d → RefV S (RelLog (R i)) (f (c, log)) (g (d, log))) {c : Σ i, C i} {d : Σ i, D i} (hr : SameKind R c d) (log : List A) :
    RefV S (RelLog (SameKind R)) (onKind i f skip (c, log)) (onKind i g skip' (d, log)) := by
  obtain ⟨j, c, d, hr⟩ := hr
  unfold onKind
  by_cases hj : j = i
  · subst hj
    have := h c d log hr
    simp only [dif_pos]
    cases hf : f (c, log) <;> rw [hf] at this <;> simp only [RefV, Sat] at this <;> simp only [Out.mapState, RefV, Sat]
    · obtain ⟨b, t, e, h0, h1, h2⟩ := this
      rw [e]; exact ⟨_, _, rfl, h0, ⟨_, _, _, h1⟩, h2⟩
    · obtain ⟨t, e, h1, h2⟩ := this
      rw [e]; exact ⟨_, rfl, ⟨_, _, _, h1⟩, h2⟩
    · rw [this]
  · simp only [dif_neg hj]
    exact ⟨_, _, rfl, hs, ⟨_, _, _, hr⟩, rfl⟩

theorem onKinds_ref {α : Type} {i j : ι} {f : M ((C i × C j) × List A) α} {g : M ((D i × D j) × List A) α} {skip : α}
    (h : ∀ c d c' d' log, R i c d → R j c' d' →
      Ref (fun s t => R i s.1.1 t.1.1 ∧ R j s.1.2 t.1.2 ∧ s.2 = t.2) (f ((c, c'), log)) (g ((d, d'), log)))
    {c c' : Σ i, C i} {d d' : Σ i, D i} (hr : SameKind R c d) (hr' : SameKind R c' d') (log : List A) :
    Ref (RelLog2 (SameKind R)) (onKinds i j f skip ((c, c'), log)) (onKinds i j g skip ((d, d'), log)) := by
  obtain ⟨i', c, d, hr⟩ := hr
  obtain ⟨j', c', d', hr'⟩ := hr'
  unfold onKinds
  by_cases hj : i' = i ∧ j' = j
  · obtain ⟨rfl, rfl⟩ := hj
    have := h c d c' d' log hr hr'
    simp only [and_self, dif_pos]
    cases hf : f ((c, c'), log) <;> rw [hf] at this <;> simp only [Ref, Sat] at this <;> simp only [Out.mapState, Ref, Sat]
    · obtain ⟨t, e, h1, h2, h3⟩ := this
      rw [e]; exact ⟨_, rfl, ⟨_, _, _, h1⟩, ⟨_, _, _, h2⟩, h3⟩
    · obtain ⟨t, e, h1, h2, h3⟩ := this
      rw [e]; exact ⟨_, rfl, ⟨_, _, _, h1⟩, ⟨_, _, _, h2⟩, h3⟩
    · rw [this]
  · simp only [dif_neg hj]
    exact ⟨_, rfl, ⟨_, _, _, hr⟩, ⟨_, _, _, hr'⟩, rfl⟩

theorem MachineRel.mix {m : ∀ i, Machine A (C i) (K0 i) (K1 i) (K2 i) (K3 i)} {m' : ∀ i, Machine A (D i) (K0 i) (K1 i) (K2 i) (K3 i)}
    (h : ∀ i, MachineRel (R i) (m i) (m' i)) : MachineRel (SameKind R) (Machine.mix m) (Machine.mix m') where
  ctor k log := by
    have := (h k.1).ctor k.2 log
    simp only [Machine.mix, M.bind_run]
    cases hx : (m k.1).ctor k.2 log <;> rw [hx] at this <;> simp only [RefV, Sat] at this <;> simp only [Out.andThen, RefV, Sat]
    · obtain ⟨b, t, e, h1, h2⟩ := this
      rw [e]; exact ⟨_, _, rfl, ⟨_, _, _, h1⟩, h2⟩
    · obtain ⟨t, e, h1⟩ := this
      rw [e]; exact ⟨_, rfl, h1⟩
    · rw [this]
  un k c d log hr := onKind_ref (fun c d log hr => (h k.1).un k.2 c d log hr) hr log
  fork k c d log hr := by
    refine onKind_refV (S := RelOpt (SameKind R)) (skip := none) (skip' := none) trivial (fun c d log hr => ?_) hr log
    have := (h k.1).fork k.2 c d log hr
    simp only [M.bind_run]
    cases hx : (m k.1).fork k.2 (c, log) <;> rw [hx] at this <;> simp only [RefV, Sat] at this <;> simp only [Out.andThen, RefV, Sat]
    · obtain ⟨b, t, e, h1, h2⟩ := this
      rw [e]
      rename_i a s
      cases a <;> cases b <;> simp only [RelOpt] at h1
      · exact ⟨_, _, rfl, trivial, h2⟩
      · exact ⟨_, _, rfl, ⟨_, _, _, h1⟩, h2⟩
    · obtain ⟨t, e, h1⟩ := this
      rw [e]; exact ⟨_, rfl, h1⟩
    · rw [this]
  bin k c d c' d' log hr hr' := onKinds_ref (fun c d c' d' log h1 h2 => (h k.1).bin k.2 c d c' d' log h1 h2) hr hr' log
  dtor c d log hr := by
    obtain ⟨i, c, d, hr⟩ := hr
    have := (h i).dtor c d log hr
    simp only [Machine.mix]
    cases hx : (m i).dtor (c, log) <;> rw [hx] at this <;> simp only [Ref, Sat] at this <;> simp only [Out.mapState, Ref, Sat]
    · obtain ⟨t, e, h1, h2⟩ := this
      rw [e]; exact ⟨_, rfl, ⟨_, _, _, h1⟩, h2⟩
    · obtain ⟨t, e, h1, h2⟩ := this
      rw [e]; exact ⟨_, rfl, ⟨_, _, _, h1⟩, h2⟩
    · rw [this]
  born k c d hr := by
    obtain ⟨i, c, d, hr⟩ := hr
    simp only [Machine.mix]
    split
    · rename_i h'
      obtain ⟨k1, k2⟩ := k
      simp only at h'
      subst h'
      exact (h i).born k2 c d hr
    · rfl

/-- The inputs of the calls of all types. -/
def Inputs.mix (I : ∀ i, Inputs A (K0 i) (K1 i) (K2 i) (K3 i)) : Inputs A (Σ i, K0 i) (Σ i, K1 i) (Σ i, K2 i) (Σ i, K3 i) where
  ctor k := (I k.1).ctor k.2
  un k := (I k.1).un k.2
/-- The terms of the calls of all types (for destructors: the terms of all of them together). -/
def Terms.mix (T : ∀ i, Terms (K1 i) (K2 i)) : Terms (Σ i, K1 i) (Σ i, K2 i) where
  accounted k := (T k.1).accounted k.2
  unKeeps k := (T k.1).unKeeps k.2
  forkKeeps k := (T k.1).forkKeeps k.2
  dropKeeps b := ∀ i, (T i).dropKeeps b

theorem Balanced.mix [DecidableEq A] {items : ∀ i, C i → List A} {m : ∀ i, Machine A (C i) (K0 i) (K1 i) (K2 i) (K3 i)}
    {I : ∀ i, Inputs A (K0 i) (K1 i) (K2 i) (K3 i)} {T : ∀ i, Terms (K1 i) (K2 i)} (h : ∀ i, Balanced (items i) (m i) (I i) (T i)) :
    Balanced (fun c : Σ i, C i => items c.1 c.2) (Machine.mix m) (Inputs.mix I) (Terms.mix T) where
  ctor k log := by
    have := (h k.1).ctor k.2 log
    simp only [Machine.mix, M.bind_run]
    cases hx : (m k.1).ctor k.2 log <;> rw [hx] at this <;> exact this
  un k c log := by
    obtain ⟨j, c⟩ := c
    obtain ⟨i, k⟩ := k
    simp only [Machine.mix, onKind]
    by_cases hj : j = i
    · subst hj
      rw [dif_pos rfl]
      exact Sat.mapState ((h j).un k c log)
    · rw [dif_neg hj]
      exact fun _ => ⟨[], fun _ => rfl, fun a => by simp [Res.performed, Res.outs]⟩
  fork k c log := by
    obtain ⟨j, c⟩ := c
    obtain ⟨i, k⟩ := k
    simp only [Machine.mix, onKind]
    by_cases hj : j = i
    · subst hj
      simp only [dif_pos]
      refine Sat.mapState ?_
      have := (h j).fork k c log
      simp only [M.bind_run]
      cases hx : (m j).fork k (c, log) <;> rw [hx] at this <;> simp only [Sat] at this <;> simp only [Out.andThen, Sat]
      · rename_i a s
        cases a <;> exact this
      · exact this
    · simp only [dif_neg hj]
      exact ⟨[], fun _ => rfl, fun a => by simp [onlyIf, optItems]⟩
  bin k c c' log := by
    obtain ⟨i', c⟩ := c
    obtain ⟨j', c'⟩ := c'
    obtain ⟨i, k⟩ := k
    simp only [Machine.mix, onKinds]
    by_cases hj : i' = i ∧ j' = i
    · obtain ⟨rfl, rfl⟩ := hj
      simp only [and_self, dif_pos]
      exact Sat.mapState ((h j').bin k c c' log)
    · rw [dif_neg hj]
      exact fun a => by simp [Res.outs]
  dtor c log := by
    obtain ⟨i, c⟩ := c
    have := (h i).dtor c log
    refine Sat.mapState ?_
    cases hx : (m i).dtor (c, log) <;> rw [hx] at this <;> simp only [Sat] at this <;> simp only [Sat]
    · obtain ⟨leak, h1, h2⟩ := this
      exact ⟨leak, fun hk => h1 (hk i), h2⟩
    · obtain ⟨leak, h1, h2⟩ := this
      exact ⟨leak, fun hk => h1 (hk i), h2⟩
end

/-! ### More calls -/

section
variable {A C D K0 K1 K2 K3 X2 X3 : Type}

/-- The machine with more calls that make a container out of another (`x2`) or take two containers (`x3`); none of them makes clones. -/
def Machine.plus (m : Machine A C K0 K1 K2 K3) (x2 : X2 → M (C × List A) (Option C)) (x3 : X3 → M ((C × C) × List A) (Res A)) :
    Machine A C K0 K1 (K2 ⊕ X2) (K3 ⊕ X3) where
  ctor := m.ctor
  un := m.un
  fork
    | .inl k => m.fork k
    | .inr x => x2 x
  bin
    | .inl k => m.bin k
    | .inr x => x3 x
  dtor := m.dtor
  born
    | .inl k, c => m.born k c
    | .inr _, _ => []

theorem MachineRel.plus {R : C → D → Prop} {m : Machine A C K0 K1 K2 K3} {m' : Machine A D K0 K1 K2 K3} (hm : MachineRel R m m')
    {x2 : X2 → M (C × List A) (Option C)} {y2 : X2 → M (D × List A) (Option D)} {x3 : X3 → M ((C × C) × List A) (Res A)}
    {y3 : X3 → M ((D × D) × List A) (Res A)}
    (h2 : ∀ x c d log, R c d → RefV (RelOpt R) (RelLog R) (x2 x (c, log)) (y2 x (d, log)))
    (h3 : ∀ x c d c' d' log, R c d → R c' d' → Ref (RelLog2 R) (x3 x ((c, c'), log)) (y3 x ((d, d'), log))) :
    MachineRel R (m.plus x2 x3) (m'.plus y2 y3) where
  ctor := hm.ctor
  un := hm.un
  fork k c d log h := by cases k with
    | inl k => exact hm.fork k c d log h
    | inr x => exact h2 x c d log h
  bin k c d c' d' log h h' := by cases k with
    | inl k => exact hm.bin k c d c' d' log h h'
    | inr x => exact h3 x c d c' d' log h h'
  dtor := hm.dtor
  born k c d h := by cases k with
    | inl k => exact hm.born k c d h
    | inr x => rfl

/-- The calls added take nothing from the client. -/
def Inputs.plus (I : Inputs A K0 K1 K2 K3) : Inputs A K0 K1 (K2 ⊕ X2) (K3 ⊕ X3) := ⟨I.ctor, I.un⟩
/-- The calls added leak nothing. -/
def Terms.plus (T : Terms K1 K2) : Terms K1 (K2 ⊕ X2) where
  accounted := T.accounted
  unKeeps := T.unKeeps
  forkKeeps
    | .inl k => T.forkKeeps k
    | .inr _ => fun _ => True
  dropKeeps := T.dropKeeps

theorem Balanced.plus [DecidableEq A] {items : C → List A} {m : Machine A C K0 K1 K2 K3} {I : Inputs A K0 K1 K2 K3} {T : Terms K1 K2}
    (h : Balanced items m I T) {x2 : X2 → M (C × List A) (Option C)} {x3 : X3 → M ((C × C) × List A) (Res A)}
    (h2 : ∀ x c log, Sat (x2 x (c, log)) (fun d s => ∀ a, (items c ++ log).count a = (optItems items d ++ items s.1 ++ s.2).count a)
      (fun s => ∀ a, (items c ++ log).count a = (items s.1 ++ s.2).count a) True)
    (h3 : ∀ x c c' log, Sat (x3 x ((c, c'), log))
      (fun r s => ∀ a, (items c ++ items c' ++ log).count a = (r.outs ++ items s.1.1 ++ items s.1.2 ++ s.2).count a)
      (fun s => ∀ a, (items c ++ items c' ++ log).count a = (items s.1.1 ++ items s.1.2 ++ s.2).count a) True) :
    Balanced items (m.plus x2 x3) I.plus (T.plus (X2 := X2)) where
  ctor := h.ctor
  un := h.un
  fork k c log := by cases k with
    | inl k => exact h.fork k c log
    | inr x =>
      have := h2 x c log
      simp only [Machine.plus]
      cases hx : x2 x (c, log) <;> rw [hx] at this <;> simp only [Sat] at this <;> simp only [Sat]
      · rename_i d s
        refine ⟨[], fun _ => rfl, fun a => ?_⟩
        have := this a
        cases d <;> simpa [onlyIf] using this
      · exact ⟨[], fun _ => rfl, fun a => by simpa using this a⟩
  bin k c c' log := by cases k with
    | inl k => exact h.bin k c c' log
    | inr x => exact h3 x c c' log
  dtor := h.dtor
end
/-! ### Histories that cannot stop -/

section
variable {ι A : Type} [DecidableEq ι] {C K0 K1 K2 K3 : ι → Type}
theorem onKind_total {α : Type} {i : ι} {f : M (C i × List A) α} {skip : α} (h : ∀ s, Sat (f s) (fun _ _ => True) (fun _ => True) False)
    (s : (Σ i, C i) × List A) : Sat (onKind i f skip s) (fun _ _ => True) (fun _ => True) False := by
  obtain ⟨⟨j, c⟩, log⟩ := s
  simp only [onKind]
  split
  · exact Sat.mapState (h _)
  · trivial
theorem onKinds_total {α : Type} {i j : ι} {f : M ((C i × C j) × List A) α} {skip : α} (h : ∀ s, Sat (f s) (fun _ _ => True) (fun _ => True) False)
    (s : ((Σ i, C i) × (Σ i, C i)) × List A) : Sat (onKinds i j f skip s) (fun _ _ => True) (fun _ => True) False := by
  obtain ⟨⟨⟨i', c⟩, ⟨j', c'⟩⟩, log⟩ := s
  simp only [onKinds]
  split
  · exact Sat.mapState (h _)
  · trivial
theorem Machine.Total.mix {m : ∀ i, Machine A (C i) (K0 i) (K1 i) (K2 i) (K3 i)} (h : ∀ i, (m i).Total) : (Machine.mix m).Total where
  ctor k log := by
    have := (h k.1).ctor k.2 log
    simp only [Machine.mix, M.bind_run]
    cases hx : (m k.1).ctor k.2 log <;> rw [hx] at this <;> exact this
  un k s := onKind_total (fun s => (h k.1).un k.2 s) s
  fork k s := onKind_total (fun s => by
    have := (h k.1).fork k.2 s
    simp only [M.bind_run]
    cases hx : (m k.1).fork k.2 s <;> rw [hx] at this <;> exact this) s
  bin k s := onKinds_total (fun s => (h k.1).bin k.2 s) s
  dtor s := Sat.mapState ((h s.1.1).dtor (s.1.2, s.2))
end
theorem Machine.Total.plus {A C K0 K1 K2 K3 X2 X3 : Type} {m : Machine A C K0 K1 K2 K3} (h : m.Total) {x2 : X2 → M (C × List A) (Option C)}
    {x3 : X3 → M ((C × C) × List A) (Res A)} (h2 : ∀ x s, Sat (x2 x s) (fun _ _ => True) (fun _ => True) False)
    (h3 : ∀ x s, Sat (x3 x s) (fun _ _ => True) (fun _ => True) False) : (m.plus x2 x3).Total where
  ctor := h.ctor
  un := h.un
  fork k s := match k with
    | .inl k => h.fork k s
    | .inr x => h2 x s
  bin k s := match k with
    | .inl k => h.bin k s
    | .inr x => h3 x s
  dtor := h.dtor

end Verif
