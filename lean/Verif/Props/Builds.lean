import Verif.Props.Layout
/-
C81: the build profile (debug or release) and the width of `usize` never show.
-/
namespace Verif

/-- Two worlds of different builds that hold the same: the same handles, the same destructor runs and clones so far, and under every handle
two containers that show (`R` in the one build, `R'` in the other) the same contents. -/
def HoldSame {A C C' D : Type} (R : C → D → Prop) (R' : C' → D → Prop) (w : World A C) (w' : World A C') : Prop :=
  w.next = w'.next ∧ w.log = w'.log ∧ w.made = w'.made ∧
    ∀ h, (w.heap h = none ∧ w'.heap h = none) ∨ ∃ c c' d, w.heap h = some c ∧ w'.heap h = some c' ∧ R c d ∧ R' c' d

/-- Two runs of a program, in two builds, that its user cannot tell apart: both end with the same observations in worlds that hold the same, or both
abort (a destructor panicked while unwinding). -/
def RunAlike {A C C' D : Type} (R : C → D → Prop) (R' : C' → D → Prop) (o : Out (World A C) (List (Obs A)))
    (o' : Out (World A C') (List (Obs A))) : Prop :=
  (∃ os w w', o = .ok os w ∧ o' = .ok os w' ∧ HoldSame R R' w w') ∨ (o = .abort ∧ o' = .abort)

/-- If two machines refine machines over contents that run this program alike, they run it alike. -/
theorem MachineRel.run_alike {A C C' D K0 K1 K2 K3 : Type} {R : C → D → Prop} {R' : C' → D → Prop} {m : Machine A C K0 K1 K2 K3}
    {m' : Machine A C' K0 K1 K2 K3} {p p' : Machine A D K0 K1 K2 K3} (hm : MachineRel R m p) (hm' : MachineRel R' m' p')
    (ops : List (Op K0 K1 K2 K3)) (hp : p.run ops World.empty = p'.run ops World.empty) :
    RunAlike R R' (m.run ops World.empty) (m'.run ops World.empty) := by
  have r1 := hm.run_ref ops (w := World.empty) (v := World.empty) MachineRel.empty_rel
  have r2 := hm'.run_ref ops (w := World.empty) (v := World.empty) MachineRel.empty_rel
  rw [← hp] at r2
  cases e1 : m.run ops World.empty with
  | panic s => exact absurd e1 (m.run_ne_panic ops _ s)
  | ub => rw [e1] at r1; exact r1.elim
  | diverge => rw [e1] at r1; exact r1.elim
  | abort =>
    rw [e1] at r1
    cases e2 : m'.run ops World.empty with
    | abort => exact .inr ⟨rfl, rfl⟩
    | ok a s => rw [e2] at r2; obtain ⟨t, h1, _⟩ := r2; rw [show p.run ops World.empty = .abort from r1] at h1; cases h1
    | panic s => exact absurd e2 (m'.run_ne_panic ops _ s)
    | ub => rw [e2] at r2; exact r2.elim
    | diverge => rw [e2] at r2; exact r2.elim
  | ok os s =>
    rw [e1] at r1
    obtain ⟨t, h1, h2⟩ := r1
    cases e2 : m'.run ops World.empty with
    | abort => rw [e2] at r2; rw [show p.run ops World.empty = .abort from r2] at h1; cases h1
    | panic s => exact absurd e2 (m'.run_ne_panic ops _ s)
    | ub => rw [e2] at r2; exact r2.elim
    | diverge => rw [e2] at r2; exact r2.elim
    | ok os' s' =>
      rw [e2] at r2
      obtain ⟨t', h3, h4⟩ := r2
      rw [h1] at h3
      injection h3 with h5 h6
      subst h5 h6
      refine .inl ⟨os, s, s', rfl, rfl, h2.next.trans h4.next.symm, h2.log.trans h4.log.symm, h2.made.trans h4.made.symm, fun h => ?_⟩
      have a1 := h2.heap h
      have a2 := h4.heap h
      cases x : t.heap h with
      | none =>
        rw [x] at a1 a2
        left
        cases y : s.heap h <;> cases z : s'.heap h <;> simp_all [RelOpt]
      | some l =>
        rw [x] at a1 a2
        right
        cases y : s.heap h <;> cases z : s'.heap h <;> simp_all [RelOpt]
        exact ⟨l, a1, a2⟩

theorem Machine.run_congr {A C K0 K1 K2 K3 : Type} {p p' : Machine A C K0 K1 K2 K3} :
    ∀ (ops : List (Op K0 K1 K2 K3)), (∀ op ∈ ops, p.step op = p'.step op) → p.run ops = p'.run ops
  | [], _ => rfl
  | op :: ops, h => by
    simp only [Machine.run]
    rw [h op (by simp), Machine.run_congr ops (fun o ho => h o (by simp [ho]))]

theorem guarded_true {A C α : Type} {g g' : C → Bool} {skip : α} {x : M (C × List A) α} (h : ∀ c, g c = true) (h' : ∀ c, g' c = true) :
    guarded g skip x = guarded g' skip x := by
  funext s; simp only [guarded, h, h', if_true]

/-- Calls on a `Chunk` that mean the same in the builds `E` and `E'`: everything but `insert_from` with an announced length that overflows the
sum in a release build (C12), and `from_front`/`from_back` across profiles (C22: only a debug build checks the count). -/
def Chunk.Portable {A : Type} (E E' : Env) (N : Nat) : Op (Chunk.Ctor A) (Chunk.Un A) Chunk.Fork Chunk.Bin → Prop
  | .un _ (.insertFrom _ n _) => (E.debug = true ∨ N + n < E.W) ∧ (E'.debug = true ∨ N + n < E'.W)
  | .fork _ (.fromFront _) => E.debug = E'.debug
  | .fork _ (.fromBack _) => E.debug = E'.debug
  | _ => True

/-- C81 for `Chunk`. -/
theorem Chunk.C81_builds_alike {A : Type} {E E' : Env} {N : Nat} {dp : A → Bool} {cl : A → Option A} (hN : 2 * N < E.W) (hN' : 2 * N < E'.W)
    (prog : List (Op (Chunk.Ctor A) (Chunk.Un A) Chunk.Fork Chunk.Bin)) (hp : ∀ op ∈ prog, Chunk.Portable E E' N op) :
    RunAlike (View E N) (View E' N) ((machine E N dp cl).run prog World.empty) ((machine E' N dp cl).run prog World.empty) := by
  refine (machineRelView hN).run_alike (machineRelView hN') prog (congrFun (Machine.run_congr prog fun op ho => ?_) _)
  have h := hp op ho
  cases op with
  | ctor k => rfl
  | un i k =>
    have : (specMachine E N dp cl).un k = (specMachine E' N dp cl).un k := by
      cases k <;> try rfl
      simp only [Portable] at h
      simp only [specMachine]
      exact guarded_true (fun _ => by simpa using h.1) (fun _ => by simpa using h.2)
    simp only [Machine.step, this]; rfl
  | fork i k =>
    have : (specMachine E N dp cl).fork k = (specMachine E' N dp cl).fork k := by
      cases k <;> try rfl
      all_goals
        simp only [Portable] at h
        simp only [specMachine, h]
    simp only [Machine.step, this]; rfl
  | bin i j k => rfl
  | drop i => rfl

/-- Calls on a `RingBuffer` that mean the same in the builds `E` and `E'`: everything but `insert_from` with an announced length that overflows the
sum in a release build (C31), `write` in a debug build (C41), and ranges that end in `..=usize::MAX` in a release build (C40) or
whose bounds do not fit the narrower `usize`. -/
def Ring.Portable {A : Type} (E E' : Env) (N : Nat) : Op (Ring.Ctor A) (Ring.Un A) Ring.Fork Ring.Bin → Prop
  | .un _ (.insertFrom _ n _) => (E.debug = true ∨ N + n < E.W) ∧ (E'.debug = true ∨ N + n < E'.W)
  | .un _ (.write _) => E.debug = false ∧ E'.debug = false
  | .un _ (.slice lo hi cuts _) => (Bound.regular E lo hi = true ∧ Cut.regular E cuts = true) ∧ Bound.regular E' lo hi = true ∧ Cut.regular E' cuts = true
  | .fork _ (.toOwned lo hi cuts) => (Bound.regular E lo hi = true ∧ Cut.regular E cuts = true) ∧ Bound.regular E' lo hi = true ∧ Cut.regular E' cuts = true
  | _ => True

/-- C81 for `RingBuffer`. -/
theorem Ring.C81_builds_alike {A : Type} {E E' : Env} {N : Nat} {dp : A → Bool} {cl : A → Option A} (h0 : 0 < N) (hN : 2 * N < E.W)
    (hN' : 2 * N < E'.W) (prog : List (Op (Ring.Ctor A) (Ring.Un A) Ring.Fork Ring.Bin)) (hp : ∀ op ∈ prog, Ring.Portable E E' N op) :
    RunAlike (View E N) (View E' N) ((machine E N dp cl).run prog World.empty) ((machine E' N dp cl).run prog World.empty) := by
  refine (machineRelView h0 hN).run_alike (machineRelView h0 hN') prog (congrFun (Machine.run_congr prog fun op ho => ?_) _)
  have h := hp op ho
  cases op with
  | ctor k => rfl
  | un i k =>
    have : (specMachine E N dp cl).un k = (specMachine E' N dp cl).un k := by
      cases k <;> try rfl
      all_goals
        simp only [Portable] at h
        simp only [specMachine]
        exact guarded_true (fun _ => by simpa using h.1) (fun _ => by simpa using h.2)
    simp only [Machine.step, this]; rfl
  | fork i k =>
    have : (specMachine E N dp cl).fork k = (specMachine E' N dp cl).fork k := by
      cases k <;> try rfl
      all_goals
        simp only [Portable] at h
        simp only [specMachine]
        exact guarded_true (fun _ => by simpa using h.1) (fun _ => by simpa using h.2)
    simp only [Machine.step, this]; rfl
  | bin i j k => rfl
  | drop i => rfl

/-- C81 for `SparseChunk`: every program. -/
theorem Sparse.C81_builds_alike {A : Type} {E E' : Env} {N : Nat} {dp : A → Bool} {cl : A → Option A} (hN : N < E.W) (hN' : N < E'.W)
    (prog : List (Op (Sparse.Ctor A) (Sparse.Un A) Sparse.Fork (Sparse.Bin A))) :
    RunAlike (View N) (View N) ((machine E N dp cl).run prog World.empty) ((machine E' N dp cl).run prog World.empty) :=
  (machineRelView hN).run_alike (machineRelView hN') prog rfl

theorem Inline.specMachine_congr {A : Type} {dp : A → Bool} {cl : A → Option A} {a b : Prop} [ia : Decidable a] [ib : Decidable b] (h : a ↔ b)
    (N : Nat) : specMachine dp cl a N = specMachine dp cl b N := by
  obtain rfl := propext h
  congr

/-- C81 for `InlineArray`: neither the build nor the host type shows, as long as the capacity is the same and both can be constructed. -/
theorem Inline.C81_hosts_alike {A : Type} [DecidableEq A] {E E' : Env} {L L' : Layout A} {dp : A → Bool} {cl : A → Option A} (hv : L.Valid E)
    (hv' : L'.Valid E') (hc : cap E L = cap E' L') (h : ∃ s, new E L 0 () = .ok s ()) (h' : ∃ s, new E' L' 0 () = .ok s ())
    (prog : List (Op (Inline.Ctor A) (Inline.Un A) Inline.Fork Empty)) :
    RunAlike (View E L) (View E' L') ((machine E L dp cl).run prog World.empty) ((machine E' L' dp cl).run prog World.empty) := by
  have acc : ∀ {E : Env} {L : Layout A}, (∃ s, new E L 0 () = .ok s ()) → Accepted E L := fun {E L} ⟨s, hs⟩ => by
    by_cases ha : Accepted E L
    · exact ha
    · rw [new_panic ha] at hs; cases hs
  have hm := machineRel (dp := dp) (cl := cl) hv'
  rw [← hc, ← specMachine_congr (iff_of_true (acc h) (acc h'))] at hm
  rcases (machineRel (dp := dp) (cl := cl) hv).run_alike hm prog rfl with ⟨os, w, w', h1, h2, h3, h4, h5, h6⟩ | h0
  · exact .inl ⟨os, w, w', h1, h2, h3, h4, h5, fun i => (h6 i).imp id
      fun ⟨c, c', d, e1, e2, e3, e4⟩ => ⟨c, c', d, e1, e2, e3.view hv, e4.view hv'⟩⟩
  · exact .inr h0

/-- C81 for `InlineArray`: debug and release builds of the same array type. -/
theorem Inline.C81_builds_alike {A : Type} [DecidableEq A] {E E' : Env} {L : Layout A} {dp : A → Bool} {cl : A → Option A} (hv : L.Valid E)
    (hv' : L.Valid E') (hW : E.W = E'.W) (prog : List (Op (Inline.Ctor A) (Inline.Un A) Inline.Fork Empty)) :
    RunAlike (View E L) (View E' L) ((machine E L dp cl).run prog World.empty) ((machine E' L dp cl).run prog World.empty) := by
  have hc : cap E L = cap E' L := by simp only [cap, capacity, hW]
  have ha : Accepted E L ↔ Accepted E' L := by simp only [Accepted, hc]
  have hm := machineRel (dp := dp) (cl := cl) hv'
  rw [← hc, ← specMachine_congr ha] at hm
  rcases (machineRel (dp := dp) (cl := cl) hv).run_alike hm prog rfl with ⟨os, w, w', h1, h2, h3, h4, h5, h6⟩ | h0
  · exact .inl ⟨os, w, w', h1, h2, h3, h4, h5, fun i => (h6 i).imp id
      fun ⟨c, c', d, e1, e2, e3, e4⟩ => ⟨c, c', d, e1, e2, e3.view hv, e4.view hv'⟩⟩
  · exact .inr h0

/-! ### C81 is not vacuous -/

/-- A release build for a target with 16-bit pointers. -/
def rel16 : Env := ⟨65536, false⟩

/-- A program whose calls are portable, with a call that panics, an `insert_from` and a clone; what it shows in a 64-bit debug build. -/
def Chunk.portableProg : List (Op (Chunk.Ctor Nat) (Chunk.Un Nat) Chunk.Fork Chunk.Bin) :=
  [.ctor (.pair 1 2), .un 0 (.insertFrom 1 2 (It.ofList [8, 9])), .un 0 (.pushBack 7), .fork 0 .clone, .un 1 .popFront, .un 1 .asSlice]
example : ∀ op ∈ Chunk.portableProg, Chunk.Portable Chunk.dbg64 rel16 4 op := by
  simp [Chunk.portableProg, Chunk.Portable, Chunk.dbg64, rel16]
example : ((Chunk.machine Chunk.dbg64 4 (fun _ => false) some).run Chunk.portableProg World.empty).seen =
    some [.handle 0, .res .unit, .panicked, .handle 1, .res (.val 1), .res (.refs [8, 9, 2])] := by decide +kernel
/-- The same for a ring buffer, with a slice. -/
def Ring.portableProg : List (Op (Ring.Ctor Nat) (Ring.Un Nat) Ring.Fork Ring.Bin) :=
  [.ctor (.pair 1 2), .un 0 (.pushFront 5), .un 0 (.slice (.included 1) (.included 2) [.right 1] .items), .un 0 (.pushBack 7)]
example : ∀ op ∈ Ring.portableProg, Ring.Portable Chunk.dbg64 rel16 3 op := by
  simp [Ring.portableProg, Ring.Portable, Bound.regular, Bound.usize, Cut.regular, Chunk.dbg64, rel16]
example : ((Ring.machine rel16 3 (fun _ => false) some).run Ring.portableProg World.empty).seen =
    some [.handle 0, .res .unit, .res (.refs [2]), .panicked] := by decide +kernel
/-- `InlineArray<u32, [u32; 6]>` in a release build and `InlineArray<u32, [u64; 3]>` in a debug build: different hosts with the same capacity. -/
def Inline.words6 : Layout Nat := ⟨24, 4, 4, 4, 8, 8, 8, none⟩
theorem Inline.words6_valid : Inline.words6.Valid Chunk.rel64 :=
  ⟨⟨2, rfl⟩, ⟨2, rfl⟩, ⟨3, rfl⟩, ⟨3, rfl⟩, ⟨6, rfl⟩, ⟨1, rfl⟩, ⟨1, rfl⟩, by decide, by decide, by decide, fun h => by cases h⟩
example : Inline.cap Chunk.dbg64 Inline.words = 4 ∧ Inline.cap Chunk.rel64 Inline.words6 = 4 ∧
    (∃ s, Inline.new Chunk.dbg64 Inline.words 0 () = .ok s ()) ∧ ∃ s, Inline.new Chunk.rel64 Inline.words6 0 () = .ok s () := by
  refine ⟨rfl, rfl, ?_, ?_⟩
  · obtain ⟨s, h, _⟩ := Inline.new_ok Inline.words_valid (by decide) 0; exact ⟨s, h⟩
  · obtain ⟨s, h, _⟩ := Inline.new_ok Inline.words6_valid (by decide) 0; exact ⟨s, h⟩

end Verif
