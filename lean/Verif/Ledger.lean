import Verif.World
/-
Element accounting over whole histories: what the client moved in (or cloning created) against what was
handed back, dropped, is still stored, or was leaked.
-/
namespace Verif

/-- Elements moved out to the caller by a call. -/
def Res.outs {A : Type} : Res A → List A
  | .val a => [a]
  | .opt o => o.toList
  | .vals l => l
  | .read _ l => l
  | _ => []

/-- Elements moved out to the client by an action. -/
def Obs.outs {A : Type} : Obs A → List A
  | .res r => r.outs
  | _ => []

/-- `l`, unless the client skipped the call. -/
def Res.performed {A : Type} : Res A → List A → List A
  | .skipped, _ => []
  | _, l => l

/-- Elements moved in by the arguments of each kind of call. -/
structure Inputs (A K0 K1 K2 K3 : Type) where
  ctor : K0 → List A
  un : K1 → List A

/-- Elements the client gave away in an action (none if the action was not performed). -/
def Inputs.ofStep {A K0 K1 K2 K3 : Type} (I : Inputs A K0 K1 K2 K3) : Op K0 K1 K2 K3 → Obs A → List A
  | .ctor k, _ => I.ctor k
  | .un _ _, .skipped => []
  | .un _ k, .res r => r.performed (I.un k)
  | .un _ k, _ => I.un k
  | _, _ => []

/-- Elements the client gave away in a history. -/
def Inputs.ofRun {A K0 K1 K2 K3 : Type} (I : Inputs A K0 K1 K2 K3) : List (Op K0 K1 K2 K3) → List (Obs A) → List A
  | op :: ops, o :: os => I.ofStep op o ++ I.ofRun ops os
  | _, _ => []

/-- Elements handed to the client in a history. -/
def outsOf {A : Type} (os : List (Obs A)) : List A := os.flatMap Obs.outs

/-- All elements stored in live containers, by handle. -/
def liveItems {A C : Type} (items : C → List A) : Nat → (Nat → Option C) → List A
  | 0, _ => []
  | n + 1, heap => liveItems items n heap ++ (match heap n with | some c => items c | none => [])

/-- All elements stored in the live containers of a world. -/
def World.live {A C : Type} (items : C → List A) (w : World A C) : List A := liveItems items w.next w.heap

/-- Elements of an optional container. -/
def optItems {A C : Type} (items : C → List A) : Option C → List A
  | some c => items c
  | none => []

/-- `l`, if a container was produced. -/
def onlyIf {A C : Type} : Option C → List A → List A
  | none, _ => []
  | some _, l => l

section
variable {A C K0 K1 K2 K3 : Type}

/-- Did the action panic? -/
def Obs.panic : Obs A → Bool
  | .panicked => true
  | _ => false

/-- Under which terms elements are accounted for, by kind of call and by whether it panicked: `accounted` calls never
duplicate an element, calls that `keep` do not leak any. -/
structure Terms (K1 K2 : Type) where
  accounted : K1 → Bool → Prop
  unKeeps : K1 → Bool → Prop
  forkKeeps : K2 → Bool → Prop
  dropKeeps : Bool → Prop

/-- The action, with this result, is one for which exact accounting is claimed. -/
def Terms.Accounted (T : Terms K1 K2) : Op K0 K1 K2 K3 → Obs A → Prop
  | .un _ k, o => T.accounted k o.panic
  | _, _ => True
/-- The action, with this result, is one that leaks nothing. -/
def Terms.Keeps (T : Terms K1 K2) : Op K0 K1 K2 K3 → Obs A → Prop
  | .un _ k, o => T.unKeeps k o.panic
  | .fork _ k, o => T.forkKeeps k o.panic
  | .drop _, o => T.dropKeeps o.panic
  | _, _ => True
/-- Every action of a history, with the result the client saw, satisfies `P`. -/
def AllSteps (P : Op K0 K1 K2 K3 → Obs A → Prop) : List (Op K0 K1 K2 K3) → List (Obs A) → Prop
  | op :: ops, o :: os => P op o ∧ AllSteps P ops os
  | _, _ => True
theorem AllSteps.of_forall {P : Op K0 K1 K2 K3 → Obs A → Prop} {ops : List (Op K0 K1 K2 K3)}
    (h : ∀ op ∈ ops, ∀ o, P op o) (os : List (Obs A)) : AllSteps P ops os := by
  induction ops generalizing os with
  | nil => simp [AllSteps]
  | cons op r ih =>
    cases os with
    | nil => simp [AllSteps]
    | cons o os => exact ⟨h op (by simp) o, ih (fun op' ho => h op' (by simp [ho])) os⟩

theorem AllSteps.imp {P Q : Op K0 K1 K2 K3 → Obs A → Prop} (h : ∀ op o, P op o → Q op o) {ops : List (Op K0 K1 K2 K3)}
    {os : List (Obs A)} (hp : AllSteps P ops os) : AllSteps Q ops os := by
  induction ops generalizing os with
  | nil => simp [AllSteps]
  | cons op r ih =>
    cases os with
    | nil => simp [AllSteps]
    | cons o os => exact ⟨h _ _ hp.1, ih hp.2⟩

/-- Accounting of one operation: before + moved in = after + handed out + dropped + leaked, under the terms `T`. -/
structure Balanced [DecidableEq A] (items : C → List A) (m : Machine A C K0 K1 K2 K3) (I : Inputs A K0 K1 K2 K3)
    (T : Terms K1 K2) : Prop where
  ctor : ∀ k log, Sat (m.ctor k log)
    (fun c log' => ∀ a, (I.ctor k ++ log).count a = (items c ++ log').count a)
    (fun log' => ∀ a, (I.ctor k ++ log).count a = log'.count a) True
  un : ∀ k c log, Sat (m.un k (c, log))
    (fun r s => T.accounted k false → ∃ leak, (T.unKeeps k false → leak = []) ∧
      ∀ a, (r.performed (I.un k) ++ items c ++ log).count a = (r.outs ++ items s.1 ++ s.2 ++ leak).count a)
    (fun s => T.accounted k true → ∃ leak, (T.unKeeps k true → leak = []) ∧
      ∀ a, (I.un k ++ items c ++ log).count a = (items s.1 ++ s.2 ++ leak).count a) True
  fork : ∀ k c log, Sat (m.fork k (c, log))
    (fun d s => ∃ leak, (T.forkKeeps k false → leak = []) ∧ ∀ a, (onlyIf d (m.born k c) ++ items c ++ log).count a
        = (optItems items d ++ items s.1 ++ s.2 ++ leak).count a)
    (fun s => ∃ leak, (T.forkKeeps k true → leak = []) ∧
      ∀ a, (m.born k c ++ items c ++ log).count a = (items s.1 ++ s.2 ++ leak).count a) True
  bin : ∀ k c c' log, Sat (m.bin k ((c, c'), log))
    (fun r s => ∀ a, (items c ++ items c' ++ log).count a = (r.outs ++ items s.1.1 ++ items s.1.2 ++ s.2).count a)
    (fun s => ∀ a, (items c ++ items c' ++ log).count a = (items s.1.1 ++ items s.1.2 ++ s.2).count a) True
  dtor : ∀ c log, Sat (m.dtor (c, log))
    (fun _ s => ∃ leak, (T.dropKeeps false → leak = []) ∧ ∀ a, (items c ++ log).count a = (s.2 ++ leak).count a)
    (fun s => ∃ leak, (T.dropKeeps true → leak = []) ∧ ∀ a, (items c ++ log).count a = (s.2 ++ leak).count a) True

theorem count_live_put [DecidableEq A] (items : C → List A) (n h : Nat) (heap : Nat → Option C) (c : Option C) (a : A)
    (hh : h < n) :
    (liveItems items n (fun i => if i = h then c else heap i)).count a + (optItems items (heap h)).count a
      = (liveItems items n heap).count a + (optItems items c).count a := by
  induction n with
  | zero => omega
  | succ n ih =>
    simp only [liveItems, List.count_append]
    by_cases e : n = h
    · subst e
      have : ∀ k, k ≤ n → liveItems items k (fun i => if i = n then c else heap i) = liveItems items k heap := by
        intro k
        induction k with
        | zero => intro _; rfl
        | succ k ihk =>
          intro hk
          have : k ≠ n := by omega
          simp [liveItems, ihk (by omega), this]
      rw [this n (Nat.le_refl _)]
      simp only [if_true]
      cases c <;> cases heap n <;> simp [optItems] <;> omega
    · have := ih (by omega)
      simp only [e, if_false]
      omega

theorem count_live_above [DecidableEq A] (items : C → List A) (n h : Nat) (heap : Nat → Option C) (c : Option C)
    (hh : n ≤ h) : liveItems items n (fun i => if i = h then c else heap i) = liveItems items n heap := by
  induction n with
  | zero => rfl
  | succ n ih =>
    have : n ≠ h := by omega
    simp [liveItems, ih (by omega), this]

/-- Handles in use are below `next`. -/
def World.Fresh (w : World A C) : Prop := ∀ h, w.next ≤ h → w.heap h = none

theorem Balanced.step [DecidableEq A] {items : C → List A} {m : Machine A C K0 K1 K2 K3} {I : Inputs A K0 K1 K2 K3}
    {T : Terms K1 K2} (hb : Balanced items m I T) (op : Op K0 K1 K2 K3)
    {w w' : World A C} {o : Obs A} (hf : w.Fresh) (hs : m.step op w = .ok o w') (hg : T.Accounted op o) :
    w'.Fresh ∧ ∃ leak, (T.Keeps op o → leak = []) ∧ ∀ a,
      (I.ofStep op o ++ w'.made ++ w.log ++ w.live items).count a
        = (o.outs ++ w'.log ++ w'.live items ++ w.made ++ leak).count a := by
  cases op with
  | ctor k =>
    have h := hb.ctor k w.log
    simp only [Machine.step] at hs
    cases hx : m.ctor k w.log <;> rw [hx] at h hs <;> simp only [Sat] at h <;> simp at hs
    · obtain ⟨rfl, rfl⟩ := hs
      refine ⟨?_, [], by simp, ?_⟩
      · intro i hi
        simp only [World.put] at hi ⊢
        have : i ≠ w.next := by omega
        simp [this]; exact hf i (by omega)
      · intro a
        have := h a
        simp only [World.live, World.put, liveItems, if_true]
        rw [count_live_above _ _ _ _ _ (Nat.le_refl _)]
        simp only [List.count_append, Inputs.ofStep, Obs.outs, List.count_nil] at *
        omega
    · obtain ⟨rfl, rfl⟩ := hs
      refine ⟨hf, [], by simp, ?_⟩
      intro a
      have := h a
      simp only [World.live, Inputs.ofStep, Obs.outs, List.count_append, List.count_nil] at *
      omega
  | un h k =>
    simp only [Machine.step] at hs
    cases hc : w.heap h with
    | none =>
      rw [hc] at hs; simp at hs
      obtain ⟨rfl, rfl⟩ := hs
      exact ⟨hf, [], by simp, by intro a; simp [Inputs.ofStep, Obs.outs]; omega⟩
    | some c =>
      rw [hc] at hs
      simp only at hs
      have hlt : h < w.next := by
        apply Nat.lt_of_not_le; intro hle; rw [hf h hle] at hc; cases hc
      have hu := hb.un k c w.log
      have key := fun (d : C) (a : A) => count_live_put items w.next h w.heap (some d) a hlt
      have hfr : ∀ d : C, World.Fresh (w.put h (some d)) := by
        intro d i hi
        simp only [World.put] at hi ⊢
        have : i ≠ h := by omega
        simp [this]; exact hf i hi
      cases hx : m.un k (c, w.log) <;> rw [hx] at hu hs <;> simp only [Sat] at hu <;> simp at hs
      · obtain ⟨rfl, rfl⟩ := hs
        obtain ⟨leak, hl, hq⟩ := hu hg
        refine ⟨hfr _, leak, hl, ?_⟩
        intro a
        rename_i r s
        have h1 := key s.1 a
        have h2 := hq a
        rw [hc] at h1
        simp only [World.live, World.put, Obs.outs, List.count_append, optItems, Inputs.ofStep] at *
        omega
      · obtain ⟨rfl, rfl⟩ := hs
        obtain ⟨leak, hl, hq⟩ := hu hg
        refine ⟨hfr _, leak, hl, ?_⟩
        intro a
        rename_i s
        have h1 := key s.1 a
        have h2 := hq a
        rw [hc] at h1
        simp only [World.live, World.put, Obs.outs, List.count_append, List.count_nil, optItems, Inputs.ofStep] at *
        omega
  | fork h k =>
    simp only [Machine.step] at hs
    cases hc : w.heap h with
    | none =>
      rw [hc] at hs; simp at hs
      obtain ⟨rfl, rfl⟩ := hs
      exact ⟨hf, [], by simp, by intro a; simp [Inputs.ofStep, Obs.outs]; omega⟩
    | some c =>
      rw [hc] at hs
      simp only at hs
      have hlt : h < w.next := by
        apply Nat.lt_of_not_le; intro hle; rw [hf h hle] at hc; cases hc
      have hu := hb.fork k c w.log
      have key := fun (d : C) (a : A) => count_live_put items w.next h w.heap (some d) a hlt
      have hfr : ∀ d : C, World.Fresh (w.put h (some d)) := by
        intro d i hi
        simp only [World.put] at hi ⊢
        have : i ≠ h := by omega
        simp [this]; exact hf i hi
      cases hx : m.fork k (c, w.log) <;> rw [hx] at hu hs <;> simp only [Sat] at hu <;> try simp at hs
      · rename_i r s
        cases r with
        | none =>
          simp at hs
          obtain ⟨rfl, rfl⟩ := hs
          obtain ⟨leak, hl, hu⟩ := hu
          refine ⟨hfr _, leak, hl, ?_⟩
          intro a
          have h1 := key s.1 a
          have h2 := hu a
          rw [hc] at h1
          simp only [World.live, World.put, Obs.outs, List.count_append, List.count_nil, optItems, onlyIf, Inputs.ofStep] at *
          omega
        | some d =>
          simp at hs
          obtain ⟨rfl, rfl⟩ := hs
          obtain ⟨leak, hl, hu⟩ := hu
          refine ⟨?_, leak, hl, ?_⟩
          · intro i hi
            simp only [World.put] at hi ⊢
            have : i ≠ w.next := by omega
            have h2 : i ≠ h := by omega
            simp [this, h2]; exact hf i (by omega)
          · intro a
            have h1 := key s.1 a
            have h2 := hu a
            rw [hc] at h1
            simp only [World.live, World.put, liveItems, if_true]
            rw [count_live_above _ _ _ _ _ (Nat.le_refl _)]
            simp only [List.count_append, Inputs.ofStep, Obs.outs, List.count_nil, optItems, onlyIf] at *
            omega
      · obtain ⟨rfl, rfl⟩ := hs
        obtain ⟨leak, hl, hu⟩ := hu
        refine ⟨hfr _, leak, hl, ?_⟩
        intro a
        rename_i s
        have h1 := key s.1 a
        have h2 := hu a
        rw [hc] at h1
        simp only [World.live, World.put, Obs.outs, List.count_append, List.count_nil, optItems, Inputs.ofStep] at *
        omega
  | bin h h' k =>
    simp only [Machine.step] at hs
    cases hc : w.heap h with
    | none =>
      rw [hc] at hs; simp at hs
      obtain ⟨rfl, rfl⟩ := hs
      exact ⟨hf, [], by simp, by intro a; simp [Inputs.ofStep, Obs.outs]; omega⟩
    | some c =>
      cases hc' : w.heap h' with
      | none =>
        rw [hc, hc'] at hs; simp at hs
        obtain ⟨rfl, rfl⟩ := hs
        exact ⟨hf, [], by simp, by intro a; simp [Inputs.ofStep, Obs.outs]; omega⟩
      | some c' =>
        rw [hc, hc'] at hs
        simp only at hs
        by_cases hne : h = h'
        · rw [if_pos hne] at hs
          simp at hs
          obtain ⟨rfl, rfl⟩ := hs
          exact ⟨hf, [], by simp, by intro a; simp [Inputs.ofStep, Obs.outs]; omega⟩
        · rw [if_neg hne] at hs
          have hlt : h < w.next := by
            apply Nat.lt_of_not_le; intro hle; rw [hf h hle] at hc; cases hc
          have hlt' : h' < w.next := by
            apply Nat.lt_of_not_le; intro hle; rw [hf h' hle] at hc'; cases hc'
          have hu := hb.bin k c c' w.log
          have key := fun (d : C) (a : A) => count_live_put items w.next h w.heap (some d) a hlt
          have key' := fun (d d' : C) (a : A) =>
            count_live_put items w.next h' (fun i => if i = h then some d else w.heap i) (some d') a hlt'
          have hfr : ∀ d d' : C, World.Fresh ((w.put h (some d)).put h' (some d')) := by
            intro d d' i hi
            simp only [World.put] at hi ⊢
            have : i ≠ h := by omega
            have h2 : i ≠ h' := by omega
            simp [this, h2]; exact hf i hi
          have hne' : h' ≠ h := fun e => hne e.symm
          cases hx : m.bin k ((c, c'), w.log) <;> rw [hx] at hu hs <;> simp only [Sat] at hu <;> simp at hs
          all_goals
            obtain ⟨rfl, rfl⟩ := hs
            refine ⟨hfr _ _, [], by simp, ?_⟩
            intro a
            rename_i s
            have h1 := key s.1.1 a
            have h2 := key' s.1.1 s.1.2 a
            have h3 := hu a
            rw [hc] at h1
            simp only [if_neg hne', hc'] at h2
            simp only [World.live, World.put, Obs.outs, List.count_append, List.count_nil, optItems, Inputs.ofStep] at *
            omega
  | drop h =>
    simp only [Machine.step] at hs
    cases hc : w.heap h with
    | none =>
      rw [hc] at hs; simp at hs
      obtain ⟨rfl, rfl⟩ := hs
      exact ⟨hf, [], by simp, by intro a; simp [Inputs.ofStep, Obs.outs]; omega⟩
    | some c =>
      rw [hc] at hs
      simp only at hs
      have hlt : h < w.next := by
        apply Nat.lt_of_not_le; intro hle; rw [hf h hle] at hc; cases hc
      have hu := hb.dtor c w.log
      have key := fun (a : A) => count_live_put items w.next h w.heap none a hlt
      have hfr : World.Fresh (w.put h none) := by
        intro i hi
        simp only [World.put] at hi ⊢
        split
        · rfl
        · exact hf i hi
      cases hx : m.dtor (c, w.log) <;> rw [hx] at hu hs <;> simp only [Sat] at hu <;> simp at hs
      all_goals
        obtain ⟨rfl, rfl⟩ := hs
        obtain ⟨leak, hl, hu⟩ := hu
        refine ⟨hfr, leak, hl, ?_⟩
        intro a
        rename_i s
        have h1 := key a
        have h2 := hu a
        rw [hc] at h1
        simp only [World.live, World.put, Obs.outs, Res.outs, List.count_append, List.count_nil, optItems, Inputs.ofStep] at *
        omega

theorem Balanced.run [DecidableEq A] {items : C → List A} {m : Machine A C K0 K1 K2 K3} {I : Inputs A K0 K1 K2 K3}
    {T : Terms K1 K2} (hb : Balanced items m I T) (ops : List (Op K0 K1 K2 K3))
    {w w' : World A C} {os : List (Obs A)} (hf : w.Fresh) (hs : m.run ops w = .ok os w') (hg : AllSteps T.Accounted ops os) :
    w'.Fresh ∧ ∃ leak, (AllSteps T.Keeps ops os → leak = []) ∧ ∀ a,
      (I.ofRun ops os ++ w'.made ++ w.log ++ w.live items).count a
        = (outsOf os ++ w'.log ++ w'.live items ++ w.made ++ leak).count a := by
  induction ops generalizing w os with
  | nil =>
    simp [Machine.run] at hs
    obtain ⟨rfl, rfl⟩ := hs
    exact ⟨hf, [], by simp, by intro a; simp [Inputs.ofRun, outsOf]; omega⟩
  | cons op ops ih =>
    simp only [Machine.run, M.bind_run, M.pure_run] at hs
    cases hx : m.step op w <;> rw [hx] at hs <;> simp at hs
    rename_i o w1
    cases hy : m.run ops w1 <;> rw [hy] at hs <;> simp at hs
    rename_i os' w2
    obtain ⟨rfl, rfl⟩ := hs
    obtain ⟨f1, l1, e1, c1⟩ := hb.step op hf hx hg.1
    obtain ⟨f2, l2, e2, c2⟩ := ih f1 hy hg.2
    refine ⟨f2, l1 ++ l2, ?_, ?_⟩
    · intro h
      simp [e1 h.1, e2 h.2]
    · intro a
      have h1 := c1 a
      have h2 := c2 a
      simp only [Inputs.ofRun, outsOf, List.flatMap_cons, List.count_append] at *
      omega

theorem live_rel {D : Type} {R : C → D → Prop} {items : D → List A} {peek : C → List A}
    (hp : ∀ c d, R c d → peek c = items d) {w : World A C} {v : World A D} (h : WorldRel R w v) :
    w.live peek = v.live items := by
  unfold World.live
  rw [h.next]
  have := h.heap
  generalize v.next = n
  induction n with
  | zero => rfl
  | succ n ih =>
    simp only [liveItems, ih]
    congr 1
    have := h.heap n
    cases h1 : w.heap n <;> cases h2 : v.heap n <;> rw [h1, h2] at this <;> simp only [RelOpt] at this
    exact hp _ _ this

/-- Conservation for every history of a machine refining a balanced one: what was moved in or created equals
what was handed out, destroyed, is still stored, or leaked. -/
theorem conservation [DecidableEq A] {D : Type} {R : C → D → Prop} {m : Machine A C K0 K1 K2 K3} {m' : Machine A D K0 K1 K2 K3}
    {items : D → List A} {peek : C → List A} {I : Inputs A K0 K1 K2 K3} {T : Terms K1 K2}
    (hm : MachineRel R m m') (hb : Balanced items m' I T) (hp : ∀ c d, R c d → peek c = items d)
    (ops : List (Op K0 K1 K2 K3)) {w : World A C} {os : List (Obs A)}
    (hs : m.run ops World.empty = .ok os w) (hg : AllSteps T.Accounted ops os) :
    ∃ leak, (AllSteps T.Keeps ops os → leak = []) ∧
      (I.ofRun ops os ++ w.made).Perm (outsOf os ++ w.log ++ w.live peek ++ leak) := by
  have h := hm.run_ref ops (MachineRel.empty_rel (R := R))
  rw [hs] at h
  obtain ⟨v, e, hw⟩ := h
  have hf : (World.empty : World A D).Fresh := fun _ _ => rfl
  obtain ⟨_, leak, hl, hc⟩ := hb.run ops hf e hg
  refine ⟨leak, hl, ?_⟩
  rw [List.perm_iff_count]
  intro a
  have := hc a
  rw [live_rel hp hw, hw.log, hw.made]
  simp only [World.empty, World.live, liveItems, List.count_append, List.count_nil] at *
  omega
end
end Verif
