import Verif.Props.ChunkHistory
import Verif.Props.RingHistory
import Verif.Props.SparseHistory
import Verif.Props.InlineHistory
/-
C79: how the contents are laid out never shows.
-/
namespace Verif

/-- Two states of a client's world that differ at most in how containers of equal contents are laid out: the same handles, the same destructor
runs and clones so far, and under every handle two containers that both show (`R`) the same contents. -/
def SameContents {A C D : Type} (R : C → D → Prop) (w w' : World A C) : Prop :=
  w.next = w'.next ∧ w.log = w'.log ∧ w.made = w'.made ∧
    ∀ h, (w.heap h = none ∧ w'.heap h = none) ∨ ∃ c c' d, w.heap h = some c ∧ w'.heap h = some c' ∧ R c d ∧ R c' d

/-- Two runs of a program that its user cannot tell apart: both end with the same observations and again in states that differ at most in the
layout, or both abort (a destructor panicked while unwinding). -/
def SameRun {A C D : Type} (R : C → D → Prop) (o o' : Out (World A C) (List (Obs A))) : Prop :=
  (∃ os w w', o = .ok os w ∧ o' = .ok os w' ∧ SameContents R w w') ∨ (o = .abort ∧ o' = .abort)

theorem Machine.step_ne_panic {A C K0 K1 K2 K3 : Type} (m : Machine A C K0 K1 K2 K3) (op : Op K0 K1 K2 K3) (w w' : World A C) :
    m.step op w ≠ .panic w' := by
  cases op <;> simp only [Machine.step] <;> (repeat' split) <;> simp

theorem Machine.run_ne_panic {A C K0 K1 K2 K3 : Type} (m : Machine A C K0 K1 K2 K3) :
    ∀ (ops : List (Op K0 K1 K2 K3)) (w w' : World A C), m.run ops w ≠ .panic w'
  | [], w, w' => by simp [Machine.run]
  | op :: ops, w, w' => by
    simp only [Machine.run, M.bind_run]
    cases h : m.step op w with
    | panic s => exact absurd h (m.step_ne_panic op w s)
    | ok a s =>
      simp only [Out.andThen_ok]
      cases h' : m.run ops s with
      | panic s' => exact absurd h' (Machine.run_ne_panic m ops s s')
      | ok => simp
      | _ => simp
    | _ => simp

/-- Runs of a machine that refines a machine over contents cannot be told apart if they start from states with the same contents. -/
theorem MachineRel.same_run {A C D K0 K1 K2 K3 : Type} {R : C → D → Prop} {m : Machine A C K0 K1 K2 K3} {m' : Machine A D K0 K1 K2 K3}
    (hm : MachineRel R m m') (ops : List (Op K0 K1 K2 K3)) {w w' : World A C} (hs : SameContents R w w') :
    SameRun R (m.run ops w) (m.run ops w') := by
  obtain ⟨hs1, hs2, hs3, hs4⟩ := hs
  have hch : ∀ h, ∃ d : Option D, RelOpt R (w.heap h) d ∧ RelOpt R (w'.heap h) d := fun h => by
    rcases hs4 h with ⟨h1, h2⟩ | ⟨c, c', d, h1, h2, h3, h4⟩
    · exact ⟨none, by simp [h1, RelOpt], by simp [h2, RelOpt]⟩
    · exact ⟨some d, by simpa [h1, RelOpt] using h3, by simpa [h2, RelOpt] using h4⟩
  let v : World A D := { next := w.next, log := w.log, made := w.made, heap := fun h => (hch h).choose }
  have r1 := hm.run_ref ops (w := w) (v := v) ⟨rfl, rfl, rfl, fun h => (hch h).choose_spec.1⟩
  have r2 := hm.run_ref ops (w := w') (v := v) ⟨hs1.symm, hs2.symm, hs3.symm, fun h => (hch h).choose_spec.2⟩
  cases e1 : m.run ops w with
  | panic s => exact absurd e1 (m.run_ne_panic ops w s)
  | ub => rw [e1] at r1; exact r1.elim
  | diverge => rw [e1] at r1; exact r1.elim
  | abort =>
    rw [e1] at r1
    cases e2 : m.run ops w' with
    | abort => exact .inr ⟨rfl, rfl⟩
    | ok a s => rw [e2] at r2; obtain ⟨t, h1, _⟩ := r2; rw [show m'.run ops v = .abort from r1] at h1; cases h1
    | panic s => exact absurd e2 (m.run_ne_panic ops w' s)
    | ub => rw [e2] at r2; exact r2.elim
    | diverge => rw [e2] at r2; exact r2.elim
  | ok os s =>
    rw [e1] at r1
    obtain ⟨t, h1, h2⟩ := r1
    cases e2 : m.run ops w' with
    | abort => rw [e2] at r2; rw [show m'.run ops v = .abort from r2] at h1; cases h1
    | panic s => exact absurd e2 (m.run_ne_panic ops w' s)
    | ub => rw [e2] at r2; exact r2.elim
    | diverge => rw [e2] at r2; exact r2.elim
    | ok os' s' =>
      rw [e2] at r2
      obtain ⟨t', h3, h4⟩ := r2
      rw [h1] at h3
      injection h3 with h5 h6
      subst h5 h6
      refine .inl ⟨os, s, s', rfl, rfl, h2.next.trans h4.next.symm, h2.log.trans h4.log.symm, h2.made.trans h4.made.symm, fun h => ?_⟩
      have a1 := h2.heap h
      have a2 := h4.heap h
      cases x : t.heap h with
      | none =>
        rw [x] at a1 a2
        left
        cases y : s.heap h <;> cases z : s'.heap h <;> simp_all [RelOpt]
      | some l =>
        rw [x] at a1 a2
        right
        cases y : s.heap h <;> cases z : s'.heap h <;> simp_all [RelOpt]
        exact ⟨l, a1, a2⟩

/-- C79 for `Chunk`: two worlds whose chunks have the same contents, wherever in the storage they lie and whatever is left in the unused slots,
cannot be told apart by any program. -/
theorem Chunk.C79_layout_never_shows {A : Type} {E : Env} {N : Nat} {dp : A → Bool} {cl : A → Option A} (hN : 2 * N < E.W)
    (prog : List (Op (Ctor A) (Un A) Fork Bin)) {w w' : World A (Chunk A)} (h : SameContents (View E N) w w') :
    SameRun (View E N) ((machine E N dp cl).run prog w) ((machine E N dp cl).run prog w') :=
  (machineRelView hN).same_run prog h

/-- C79 for `RingBuffer`: wherever the seam is. -/
theorem Ring.C79_layout_never_shows {A : Type} {E : Env} {N : Nat} {dp : A → Bool} {cl : A → Option A} (hN : 0 < N) (hW : 2 * N < E.W)
    (prog : List (Op (Ctor A) (Un A) Fork Bin)) {w w' : World A (Ring A)} (h : SameContents (View E N) w w') :
    SameRun (View E N) ((machine E N dp cl).run prog w) ((machine E N dp cl).run prog w') :=
  (machineRelView hN hW).same_run prog h

/-- C79 for `SparseChunk`: whatever is left in the empty slots. -/
theorem Sparse.C79_layout_never_shows {A : Type} {E : Env} {N : Nat} {dp : A → Bool} {cl : A → Option A} (hW : N < E.W)
    (prog : List (Op (Ctor A) (Un A) Fork (Bin A))) {w w' : World A (Sparse A)} (h : SameContents (View N) w w') :
    SameRun (View N) ((machine E N dp cl).run prog w) ((machine E N dp cl).run prog w') :=
  (machineRelView hW).same_run prog h

theorem SameContents.imp {A C D : Type} {R S : C → D → Prop} (h : ∀ c d, R c d → S c d) {w w' : World A C} (hs : SameContents R w w') :
    SameContents S w w' :=
  ⟨hs.1, hs.2.1, hs.2.2.1, fun i => (hs.2.2.2 i).imp id fun ⟨c, c', d, h1, h2, h3, h4⟩ => ⟨c, c', d, h1, h2, h _ _ h3, h _ _ h4⟩⟩

/-- C79 for `InlineArray`: two worlds, each the result of some program, whose arrays have the same contents, wherever in memory they are and whatever
is left in the unused bytes, cannot be told apart by any program. -/
theorem Inline.C79_layout_never_shows {A : Type} [DecidableEq A] {E : Env} {L : Layout A} {dp : A → Bool} {cl : A → Option A} (hv : L.Valid E)
    (before before' prog : List (Op (Ctor A) (Un A) Fork Empty)) {os os' : List (Obs A)} {w w' : World A (Inline A)}
    (hw : (machine E L dp cl).run before World.empty = .ok os w) (hw' : (machine E L dp cl).run before' World.empty = .ok os' w')
    (h : SameContents (View E L) w w') :
    SameRun (View E L) ((machine E L dp cl).run prog w) ((machine E L dp cl).run prog w') := by
  have rep : ∀ {before os} {w : World A (Inline A)}, (machine E L dp cl).run before World.empty = .ok os w → ∀ h c d, w.heap h = some c →
      View E L c d → Rep E L c d := fun {before os w} hw h c d hc hd => by
    have := (machineRel (dp := dp) (cl := cl) hv).run_ref before (w := World.empty) (v := World.empty) MachineRel.empty_rel
    rw [hw] at this
    obtain ⟨t, _, ht⟩ := this
    have ht := ht.heap h
    rw [hc] at ht
    cases e : t.heap h with
    | none => rw [e] at ht; exact ht.elim
    | some l =>
      rw [e] at ht
      have hi := items_eq hv ht
      rw [View, hi] at hd
      cases hd
      exact ht
  have hs : SameContents (Rep E L) w w' := ⟨h.1, h.2.1, h.2.2.1, fun i =>
    (h.2.2.2 i).imp id fun ⟨c, c', d, h1, h2, h3, h4⟩ => ⟨c, c', d, h1, h2, rep hw i c d h1 h3, rep hw' i c' d h2 h4⟩⟩
  rcases (machineRel (dp := dp) (cl := cl) hv).same_run prog hs with ⟨os, u, u', h1, h2, h3⟩ | h0
  · exact .inl ⟨os, u, u', h1, h2, h3.imp fun _ _ h => h.view hv⟩
  · exact .inr h0

/-! ### C79 is not vacuous -/

/-- One container, under handle 0. -/
def World.only {A C : Type} (c : C) : World A C := { next := 1, heap := fun h => if h = 0 then some c else none, log := [], made := [] }

theorem sameContents_only {A C D : Type} {R : C → D → Prop} {c c' : C} {d : D} (h : R c d) (h' : R c' d) :
    SameContents R (World.only c : World A C) (World.only c') :=
  ⟨rfl, rfl, rfl, fun i => by
    by_cases hi : i = 0
    · exact .inr ⟨c, c', d, by simp [World.only, hi], by simp [World.only, hi], h, h'⟩
    · exact .inl ⟨by simp [World.only, hi], by simp [World.only, hi]⟩⟩

/-- Two chunks of three slots with the same two items, at the left end and, above a stale item, at the right end. -/
example : SameContents (Chunk.View Chunk.dbg64 3) (World.only (⟨0, 2, (Mem.uninit.put 0 7).put 1 8⟩ : Chunk Nat) : World Nat _)
    (World.only ⟨1, 3, ((Mem.uninit.put 0 5).put 1 7).put 2 8⟩) :=
  sameContents_only (d := [7, 8]) rfl rfl
/-- A program that sees both, and makes the second one move its items. -/
example : ((Chunk.machine Chunk.dbg64 3 (fun _ => false) some).run [.un 0 (.pushBack 9), .un 0 .asSlice, .un 0 (.pushBack 1)]
      (World.only (⟨1, 3, ((Mem.uninit.put 0 5).put 1 7).put 2 8⟩ : Chunk Nat))).seen = some [.res .unit, .res (.refs [7, 8, 9]), .panicked] := by
  decide +kernel
/-- Two buffers with the same items, one of them across the seam. -/
example : SameContents (Ring.View Chunk.dbg64 3) (World.only (⟨0, 2, (Mem.uninit.put 0 7).put 1 8⟩ : Ring Nat) : World Nat _)
    (World.only ⟨2, 2, ((Mem.uninit.put 2 7).put 0 8).put 1 5⟩) :=
  sameContents_only (d := [7, 8]) ⟨rfl, by decide, by decide⟩ ⟨rfl, by decide, by decide⟩
/-- Two sparse chunks, one with a stale item in an empty slot. -/
example : SameContents (Sparse.View 3) (World.only (⟨fun i => decide (i = 1), Mem.uninit.put 1 7⟩ : Sparse Nat) : World Nat _)
    (World.only ⟨fun i => decide (i = 1), (Mem.uninit.put 1 7).put 2 5⟩) :=
  sameContents_only (d := fun i => if i = 1 then some 7 else none)
    (fun i => match i with | 0 => rfl | 1 => rfl | 2 => rfl | _ + 3 => rfl) (fun i => match i with | 0 => rfl | 1 => rfl | 2 => rfl | _ + 3 => rfl)
/-- Two arrays with the same items, reached by different programs, at different addresses, the second with a stale item behind its last. -/
example : ((Inline.machine Chunk.rel64 Inline.words (fun _ => false) some).run [.ctor (.new 1), .un 0 (.push 7), .un 0 .items] World.empty).seen =
    some [.handle 0, .res .unit, .res (.refs [7])] := by decide +kernel
example : ((Inline.machine Chunk.rel64 Inline.words (fun _ => false) some).run
      [.ctor (.new 3), .un 0 (.push 7), .un 0 (.push 8), .un 0 .pop, .un 0 (.moveTo 9), .un 0 .items] World.empty).seen =
    some [.handle 0, .res .unit, .res .unit, .res (.opt (some 8)), .res .unit, .res (.refs [7])] := by decide +kernel
end Verif
