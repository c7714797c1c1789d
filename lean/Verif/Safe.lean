import Verif.Driver
/-
Safety of histories without a list specification: an invariant kept by every operation, whatever else it does.
-/
namespace Verif
namespace Machine
variable {A C D K0 K1 K2 K3 : Type}

/-- Every operation of `m`, started on containers satisfying `I`, returns, panics or aborts (never undefined behaviour, never an endless
loop) and leaves containers satisfying `I`. -/
structure Keeps (I : C → Prop) (m : Machine A C K0 K1 K2 K3) : Prop where
  ctor : ∀ k log, Sat (m.ctor k log) (fun c _ => I c) (fun _ => True) True
  un : ∀ k c log, I c → Sat (m.un k (c, log)) (fun _ s => I s.1) (fun s => I s.1) True
  fork : ∀ k c log, I c → Sat (m.fork k (c, log)) (fun r s => I s.1 ∧ ∀ d, r = some d → I d) (fun s => I s.1) True
  bin : ∀ k c c' log, I c → I c' → Sat (m.bin k ((c, c'), log)) (fun _ s => I s.1.1 ∧ I s.1.2) (fun s => I s.1.1 ∧ I s.1.2) True
  dtor : ∀ c log, I c → Sat (m.dtor (c, log)) (fun _ _ => True) (fun _ => True) True

/-- Everything alive satisfies `I`. -/
def AllLive (I : C → Prop) (w : World A C) : Prop := ∀ h c, w.heap h = some c → I c

theorem AllLive.put {I : C → Prop} {w : World A C} (hw : AllLive I w) {h : Nat} {c : Option C} (hc : ∀ d, c = some d → I d) :
    ∀ i d, (w.put h c).heap i = some d → I d := by
  intro i d e
  simp only [World.put] at e
  split at e
  · exact hc d e
  · exact hw i d e

theorem Keeps.step {I : C → Prop} {m : Machine A C K0 K1 K2 K3} (hm : m.Keeps I) (op : Op K0 K1 K2 K3) {w : World A C} (hw : AllLive I w) :
    Sat (m.step op w) (fun _ w' => AllLive I w') (fun _ => False) True := by
  cases op with
  | ctor k =>
    have h := hm.ctor k w.log
    simp only [Machine.step]
    cases hx : m.ctor k w.log <;> rw [hx] at h <;> simp only [Sat] at h ⊢
    · exact hw.put fun d e => by cases e; exact h
    · exact hw
  | un h k =>
    simp only [Machine.step]
    cases hc : w.heap h with
    | none => exact hw
    | some c =>
      have h1 := hm.un k c w.log (hw h c hc)
      dsimp only
      cases hx : m.un k (c, w.log) <;> rw [hx] at h1 <;> simp only [Sat] at h1 ⊢
      · exact hw.put fun d e => by cases e; exact h1
      · exact hw.put fun d e => by cases e; exact h1
  | fork h k =>
    simp only [Machine.step]
    cases hc : w.heap h with
    | none => exact hw
    | some c =>
      have h1 := hm.fork k c w.log (hw h c hc)
      dsimp only
      cases hx : m.fork k (c, w.log) with
      | ok r s =>
        rw [hx] at h1
        simp only [Sat] at h1
        cases r with
        | none => exact hw.put fun d e => by cases e; exact h1.1
        | some d =>
          exact AllLive.put (w := w.put h (some s.1)) (hw.put fun d e => by cases e; exact h1.1) fun d' e => by cases e; exact h1.2 d rfl
      | panic s =>
        rw [hx] at h1
        exact hw.put fun d e => by cases e; exact h1
      | abort => exact trivial
      | ub => rw [hx] at h1; exact h1
      | diverge => rw [hx] at h1; exact h1
  | bin h h' k =>
    simp only [Machine.step]
    cases hc : w.heap h with
    | none => exact hw
    | some c =>
      cases hc' : w.heap h' with
      | none => exact hw
      | some c' =>
        have h1 := hm.bin k c c' w.log (hw h c hc) (hw h' c' hc')
        dsimp only
        split
        · exact hw
        · cases hx : m.bin k ((c, c'), w.log) <;> rw [hx] at h1 <;> simp only [Sat] at h1 ⊢
          · exact AllLive.put (w := w.put h _) (hw.put fun d e => by cases e; exact h1.1) fun d e => by cases e; exact h1.2
          · exact AllLive.put (w := w.put h _) (hw.put fun d e => by cases e; exact h1.1) fun d e => by cases e; exact h1.2
  | drop h =>
    simp only [Machine.step]
    cases hc : w.heap h with
    | none => exact hw
    | some c =>
      have h1 := hm.dtor c w.log (hw h c hc)
      dsimp only
      cases hx : m.dtor (c, w.log) <;> rw [hx] at h1 <;> simp only [Sat] at h1 ⊢
      · exact hw.put fun d e => by cases e
      · exact hw.put fun d e => by cases e

theorem Keeps.run {I : C → Prop} {m : Machine A C K0 K1 K2 K3} (hm : m.Keeps I) (ops : List (Op K0 K1 K2 K3)) {w : World A C}
    (hw : AllLive I w) : Sat (m.run ops w) (fun os w' => os.length = ops.length ∧ AllLive I w') (fun _ => False) True := by
  induction ops generalizing w with
  | nil => exact ⟨rfl, hw⟩
  | cons op ops ih =>
    simp only [Machine.run]
    apply Sat.bind
    refine Sat.imp (hm.step op hw) ?_ (fun _ h => h) id
    intro o w' h'
    apply Sat.bind
    refine Sat.imp (ih h') ?_ (fun _ h => h) id
    intro os w'' h''
    exact ⟨by simp [h''.1], h''.2⟩

/-- What refines a specification keeps being related to some specification state. -/
theorem _root_.Verif.MachineRel.keeps {R : C → D → Prop} {m : Machine A C K0 K1 K2 K3} {m' : Machine A D K0 K1 K2 K3} (h : MachineRel R m m') :
    m.Keeps (fun c => ∃ d, R c d) where
  ctor k log := Sat.imp (h.ctor k log) (fun _ _ ⟨b, _, _, h, _⟩ => ⟨b, h⟩) (fun _ _ => trivial) (fun _ => trivial)
  un k c log := fun ⟨d, hd⟩ => Sat.imp (h.un k c d log hd) (fun _ _ ⟨t, _, h⟩ => ⟨t.1, h.1⟩) (fun _ ⟨t, _, h⟩ => ⟨t.1, h.1⟩) (fun _ => trivial)
  fork k c log := fun ⟨d, hd⟩ => Sat.imp (h.fork k c d log hd) (fun r s ⟨b, t, _, h1, h2⟩ => ⟨⟨t.1, h2.1⟩, fun x e => by
      subst e
      cases b with
      | none => exact h1.elim
      | some b => exact ⟨b, h1⟩⟩)
    (fun _ ⟨t, _, h⟩ => ⟨t.1, h.1⟩) (fun _ => trivial)
  bin k c c' log := fun ⟨d, hd⟩ ⟨d', hd'⟩ => Sat.imp (h.bin k c d c' d' log hd hd')
    (fun _ _ ⟨t, _, h⟩ => ⟨⟨t.1.1, h.1⟩, ⟨t.1.2, h.2.1⟩⟩) (fun _ ⟨t, _, h⟩ => ⟨⟨t.1.1, h.1⟩, ⟨t.1.2, h.2.1⟩⟩) (fun _ => trivial)
  dtor c log := fun ⟨d, hd⟩ => Sat.imp (h.dtor c d log hd) (fun _ _ _ => trivial) (fun _ _ => trivial) (fun _ => trivial)

end Machine
end Verif
