import Verif.Props.Moves
/-
C87: "repeated pushes to the same side will always run in constant time" (src/lib.rs:46-47).
-/
namespace Verif.Chunk
variable {A : Type} {E : Env} {N : Nat}

/-- One successful call at the back. -/
def BackStep (E : Env) (N : Nat) (c c' : Chunk A) : Prop :=
  (∃ v, pushBack E N v c = .ok () c') ∨ ∃ a, popBack E N c = .ok a c'

/-- One successful call at the front. -/
def FrontStep (E : Env) (N : Nat) (c c' : Chunk A) : Prop :=
  (∃ v, pushFront E N v c = .ok () c') ∨ ∃ a, popFront E N c = .ok a c'

theorem back_step (hN : 2 * N < E.W) {c c' : Chunk A} {l : List A} (h : View E N c l) (hs : BackStep E N c c') :
    (∃ l', View E N c' l') ∧ (c.left = 0 → c'.left = 0 ∧ Mem.Rewritten N 1 c.mem c'.mem) ∧ (c'.left = 0 ∨ Mem.Rewritten N 1 c.mem c'.mem) := by
  have hr := h.rep hN
  rcases hs with ⟨v, e⟩ | ⟨a, e⟩
  · have hv := pushBack_ref (show N < E.W by omega) hr v
    rw [e] at hv
    obtain ⟨t, -, ht⟩ := hv
    refine ⟨⟨t, ht.view E⟩, ?_⟩
    have hs : Sat (pushBack E N v c) (fun _ s => (c.left = 0 → s.left = 0 ∧ Mem.Rewritten N 1 c.mem s.mem) ∧
        (s.left = 0 ∨ Mem.Rewritten N 1 c.mem s.mem)) (fun _ => True) False := by
      obtain ⟨h1, h2, h3⟩ := hr
      unfold pushBack
      vc
      · exact ⟨fun _ => ⟨rfl, (Mem.Rewritten.none N 0 _).put ..⟩, .inl rfl⟩
      · exact ⟨fun _ => by omega, .inl rfl⟩
      · exact ⟨fun h => ⟨h, (Mem.Rewritten.none N 0 _).put ..⟩, .inr ((Mem.Rewritten.none N 0 _).put ..)⟩
    rw [e] at hs
    exact hs
  · have hv := popBack_ref (E := E) hr
    rw [e] at hv
    obtain ⟨t, -, ht⟩ := hv
    have hm := C72_pop hN h (.inr e)
    refine ⟨⟨t, ht.view E⟩, fun h0 => ⟨?_, by rw [hm]; exact Mem.Rewritten.none ..⟩, .inr (by rw [hm]; exact Mem.Rewritten.none ..)⟩
    have hs : Sat (popBack E N c) (fun _ s => s.left = c.left) (fun _ => True) True := by
      obtain ⟨h1, h2, h3⟩ := hr
      unfold popBack
      vc
      exact sat_forceRead (v := l[l.length - 1]'(by omega)) (by omega) (by rw [h3 _ (by omega) (by omega)]; grind) rfl
    rw [e] at hs
    exact hs.trans h0

theorem front_step (hN : 2 * N < E.W) {c c' : Chunk A} {l : List A} (h : View E N c l) (hs : FrontStep E N c c') :
    (∃ l', View E N c' l') ∧ (c.right = N ∨ c.left = c.right → c'.right = N ∧ Mem.Rewritten N 1 c.mem c'.mem) ∧ (c'.right = N ∨ Mem.Rewritten N 1 c.mem c'.mem) := by
  have hr := h.rep hN
  rcases hs with ⟨v, e⟩ | ⟨a, e⟩
  · have hv := pushFront_ref (E := E) hr v
    rw [e] at hv
    obtain ⟨t, -, ht⟩ := hv
    refine ⟨⟨t, ht.view E⟩, ?_⟩
    have hs : Sat (pushFront E N v c) (fun _ s => (c.right = N ∨ c.left = c.right → s.right = N ∧ Mem.Rewritten N 1 c.mem s.mem) ∧
        (s.right = N ∨ Mem.Rewritten N 1 c.mem s.mem)) (fun _ => True) False := by
      obtain ⟨h1, h2, h3⟩ := hr
      unfold pushFront
      vc
      · exact ⟨fun _ => ⟨rfl, (Mem.Rewritten.none N 0 _).put ..⟩, .inl rfl⟩
      · exact ⟨fun _ => by omega, .inl rfl⟩
      · exact ⟨fun h => ⟨by omega, (Mem.Rewritten.none N 0 _).put ..⟩, .inr ((Mem.Rewritten.none N 0 _).put ..)⟩
    rw [e] at hs
    exact hs
  · have hv := popFront_ref (show N < E.W by omega) hr
    rw [e] at hv
    obtain ⟨t, -, ht⟩ := hv
    have hm := C72_pop hN h (.inl e)
    refine ⟨⟨t, ht.view E⟩, fun h0 => ⟨?_, by rw [hm]; exact Mem.Rewritten.none ..⟩, .inr (by rw [hm]; exact Mem.Rewritten.none ..)⟩
    have hs : Sat (popFront E N c) (fun _ s => c.left < c.right ∧ s.right = c.right) (fun _ => True) True := by
      obtain ⟨h1, h2, h3⟩ := hr
      unfold popFront
      vc
      exact sat_forceRead (v := l[0]'(by omega)) (by omega) (by rw [h3 _ (by omega) (by omega)]; grind) (by vc; omega)
    rw [e] at hs
    obtain ⟨h1, h2⟩ := hs
    omega

theorem front_step' (hN : 2 * N < E.W) {c c' : Chunk A} {l : List A} (h : View E N c l) (hs : FrontStep E N c c') :
    (∃ l', View E N c' l') ∧ (c.right = N ∨ c.left = c.right → (c'.right = N ∨ c'.left = c'.right) ∧ Mem.Rewritten N 1 c.mem c'.mem) ∧
      ((c'.right = N ∨ c'.left = c'.right) ∨ Mem.Rewritten N 1 c.mem c'.mem) :=
  have ⟨h1, h2, h3⟩ := front_step hN h hs
  ⟨h1, fun q => ⟨.inl (h2 q).1, (h2 q).2⟩, h3.imp .inl id⟩

/-- A run of steps after each of which a flag is raised or the step was cheap, the flag once raised staying up and making steps cheap,
has at most one step that is not cheap. -/
theorem one_dear_step {S : Type} {I up : S → Prop} {step cheap : S → S → Prop}
    (hs : ∀ s s', I s → step s s' → I s' ∧ (up s → up s' ∧ cheap s s') ∧ (up s' ∨ cheap s s')) (k : Nat) (c : Nat → S) (h0 : I (c 0))
    (hc : ∀ i, i < k → step (c i) (c (i + 1))) :
    (up (c 0) → ∀ i, i < k → cheap (c i) (c (i + 1))) ∧ ∃ j, ∀ i, i < k → i ≠ j → cheap (c i) (c (i + 1)) := by
  induction k generalizing c with
  | zero => exact ⟨fun _ i hi => by omega, 0, fun i hi => by omega⟩
  | succ k ih =>
    obtain ⟨h1, h2, h3⟩ := hs _ _ h0 (hc 0 (by omega))
    obtain ⟨r1, j, r2⟩ := ih (fun i => c (i + 1)) h1 (fun i hi => hc (i + 1) (by omega))
    constructor
    · intro hu i hi
      cases i with
      | zero => exact (h2 hu).2
      | succ i => exact r1 (h2 hu).1 i (by omega)
    · rcases h3 with h3 | h3
      · refine ⟨0, fun i hi hne => ?_⟩
        obtain ⟨i, rfl⟩ : ∃ m, i = m + 1 := ⟨i - 1, by omega⟩
        exact r1 h3 i (by omega)
      · refine ⟨j + 1, fun i hi hne => ?_⟩
        cases i with
        | zero => exact h3
        | succ i => exact r2 i (by omega) (by omega)

/-- C87. In any run of `push_back`s and `pop_back`s, from any chunk, all calls but at most one write at most one slot and move nothing
(the one that may not is bounded by C72: it moves each item once). -/
theorem C87_back_run (hN : 2 * N < E.W) (k : Nat) (c : Nat → Chunk A) {l : List A} (h : View E N (c 0) l)
    (hc : ∀ i, i < k → BackStep E N (c i) (c (i + 1))) : ∃ j, ∀ i, i < k → i ≠ j → Mem.Rewritten N 1 (c i).mem (c (i + 1)).mem :=
  (one_dear_step (I := fun s => ∃ l, View E N s l) (up := fun s => s.left = 0) (step := BackStep E N)
    (cheap := fun s s' => Mem.Rewritten N 1 s.mem s'.mem) (fun _ _ hI hs => hI.elim fun _ hv => back_step hN hv hs) k c ⟨l, h⟩ hc).2

/-- C87. In any run of `push_front`s and `pop_front`s, from any chunk, all calls but at most one write at most one slot and move nothing. -/
theorem C87_front_run (hN : 2 * N < E.W) (k : Nat) (c : Nat → Chunk A) {l : List A} (h : View E N (c 0) l)
    (hc : ∀ i, i < k → FrontStep E N (c i) (c (i + 1))) : ∃ j, ∀ i, i < k → i ≠ j → Mem.Rewritten N 1 (c i).mem (c (i + 1)).mem :=
  (one_dear_step (I := fun s => ∃ l, View E N s l) (up := fun s => s.right = N ∨ s.left = s.right) (step := FrontStep E N)
    (cheap := fun s s' => Mem.Rewritten N 1 s.mem s'.mem) (fun _ _ hI hs => hI.elim fun _ hv => front_step' hN hv hs) k c ⟨l, h⟩ hc).2

/-- C87. A chunk that is used as a stack from the start (made with `new`, then only `push_back` and `pop_back`, or only `push_front` and
`pop_front`) never moves an item. -/
theorem C87_fresh_stack (hN : 2 * N < E.W) (k : Nat) (c : Nat → Chunk A) (h : c 0 = new)
    (hc : (∀ i, i < k → BackStep E N (c i) (c (i + 1))) ∨ (∀ i, i < k → FrontStep E N (c i) (c (i + 1)))) :
    ∀ i, i < k → Mem.Rewritten N 1 (c i).mem (c (i + 1)).mem := by
  have hv : View E N (c 0) [] := by rw [h]; exact (Rep.empty rfl rfl : Rep N new []).view E
  rcases hc with hc | hc
  · exact (one_dear_step (I := fun s => ∃ l, View E N s l) (up := fun s => s.left = 0) (step := BackStep E N)
      (cheap := fun s s' => Mem.Rewritten N 1 s.mem s'.mem) (fun _ _ hI hs => hI.elim fun _ hv => back_step hN hv hs) k c ⟨_, hv⟩ hc).1 (by rw [h]; rfl)
  · exact (one_dear_step (I := fun s => ∃ l, View E N s l) (up := fun s => s.right = N ∨ s.left = s.right) (step := FrontStep E N)
      (cheap := fun s s' => Mem.Rewritten N 1 s.mem s'.mem) (fun _ _ hI hs => hI.elim fun _ hv => front_step' hN hv hs) k c ⟨_, hv⟩ hc).1
      (.inr (by rw [h]; rfl))

/-- C87 is not vacuous, and the exception occurs: in a chunk of 3 slots holding one item at the back, the first `push_back` moves it, the
second one moves nothing. -/
example : ∃ c₁ c₂, View dbg64 3 (⟨2, 3, Mem.uninit.put 2 7⟩ : Chunk Nat) [7] ∧ pushBack dbg64 3 8 (⟨2, 3, Mem.uninit.put 2 7⟩ : Chunk Nat) = .ok () c₁ ∧
    pushBack dbg64 3 9 c₁ = .ok () c₂ ∧ c₁.mem 0 = some 7 ∧ c₁.mem 1 = some 8 ∧ c₂.mem 2 = some 9 := ⟨_, _, rfl, rfl, rfl, rfl, rfl, rfl⟩

end Verif.Chunk
