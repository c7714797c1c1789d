import Verif.Vc
/-
Histories.  A client program holds any number of containers and calls their operations in any order,
catching panics (`catch_unwind`) and going on.  The same definition runs the code's model and the list
specification; `run_ref` lifts operation-by-operation refinement to whole histories.
-/
namespace Verif

/-- What a call returns to the client.  `val`/`opt`/`vals` are elements moved out to the caller;
`ref`/`optRef`/`refs`/`entries`/`optRefs` are only looked at (borrowed). -/
inductive Res (A : Type) where
  | unit
  | val (a : A)
  | opt (o : Option A)
  | ref (a : A)
  | optRef (o : Option A)
  | refs (l : List A)
  | vals (l : List A)
  | nat (n : Nat)
  | bool (b : Bool)
  | hint (n : Nat) (m : Option Nat)
  | read (n : Nat) (l : List A)
  /-- indices -/
  | nats (l : List Nat)
  /-- indices with borrowed elements -/
  | entries (l : List (Nat × A))
  /-- borrowed elements, one per slot -/
  | optRefs (l : List (Option A))
  /-- the client did not make the call because it would violate the call's precondition -/
  | skipped
deriving DecidableEq

/-- A container type with its operations, grouped by shape.  `A` elements, `C` containers, `K0` constructors,
`K1` operations on one container, `K2` operations producing another container, `K3` operations on two
containers.  The `List A` in the states is the log of destructor runs. -/
structure Machine (A C K0 K1 K2 K3 : Type) where
  ctor : K0 → M (List A) C
  un : K1 → M (C × List A) (Res A)
  fork : K2 → M (C × List A) (Option C)
  bin : K3 → M ((C × C) × List A) (Res A)
  dtor : M (C × List A) Unit
  /-- elements newly created by a `fork` (clones), given the source -/
  born : K2 → C → List A

/-- One client action; containers are named by handles. -/
inductive Op (K0 K1 K2 K3 : Type) where
  | ctor (k : K0)
  | un (h : Nat) (k : K1)
  | fork (h : Nat) (k : K2)
  | bin (h h' : Nat) (k : K3)
  | drop (h : Nat)

/-- What the client sees of one action. -/
inductive Obs (A : Type) where
  | handle (n : Nat)
  | res (r : Res A)
  | panicked
  /-- not a possible action: unknown handle, or the same container borrowed mutably twice -/
  | skipped
deriving DecidableEq

/-- Everything alive: containers by handle, the log of destructor runs, and the elements created by clones. -/
structure World (A C : Type) where
  next : Nat
  heap : Nat → Option C
  log : List A
  made : List A

namespace World
/-- Before anything was constructed. -/
def empty {A C : Type} : World A C := { next := 0, heap := fun _ => none, log := [], made := [] }
/-- Update one handle. -/
def put {A C : Type} (w : World A C) (h : Nat) (c : Option C) : World A C :=
  { w with heap := fun i => if i = h then c else w.heap i }
end World

namespace Machine
variable {A C D K0 K1 K2 K3 : Type}

/-- One client action; panics of the call are caught. -/
def step (m : Machine A C K0 K1 K2 K3) : Op K0 K1 K2 K3 → M (World A C) (Obs A)
  | .ctor k => fun w =>
    match m.ctor k w.log with
    | .ok c log => .ok (.handle w.next) { w.put w.next (some c) with next := w.next + 1, log := log }
    | .panic log => .ok .panicked { w with log := log }
    | .abort => .abort
    | .ub => .ub
    | .diverge => .diverge
  | .un h k => fun w =>
    match w.heap h with
    | none => .ok .skipped w
    | some c =>
      match m.un k (c, w.log) with
      | .ok r s => .ok (.res r) { w.put h (some s.1) with log := s.2 }
      | .panic s => .ok .panicked { w.put h (some s.1) with log := s.2 }
      | .abort => .abort
      | .ub => .ub
      | .diverge => .diverge
  | .fork h k => fun w =>
    match w.heap h with
    | none => .ok .skipped w
    | some c =>
      match m.fork k (c, w.log) with
      | .ok none s => .ok .skipped { w.put h (some s.1) with log := s.2 }
      | .ok (some d) s =>
        .ok (.handle w.next)
          { (w.put h (some s.1)).put w.next (some d) with
            next := w.next + 1, log := s.2, made := w.made ++ m.born k c }
      | .panic s => .ok .panicked { w.put h (some s.1) with log := s.2, made := w.made ++ m.born k c }
      | .abort => .abort
      | .ub => .ub
      | .diverge => .diverge
  | .bin h h' k => fun w =>
    match w.heap h, w.heap h' with
    | some c, some c' =>
      if h = h' then .ok .skipped w
      else match m.bin k ((c, c'), w.log) with
        | .ok r s => .ok (.res r) { (w.put h (some s.1.1)).put h' (some s.1.2) with log := s.2 }
        | .panic s => .ok .panicked { (w.put h (some s.1.1)).put h' (some s.1.2) with log := s.2 }
        | .abort => .abort
        | .ub => .ub
        | .diverge => .diverge
    | _, _ => .ok .skipped w
  | .drop h => fun w =>
    match w.heap h with
    | none => .ok .skipped w
    | some c =>
      match m.dtor (c, w.log) with
      | .ok _ s => .ok (.res .unit) { w.put h none with log := s.2 }
      | .panic s => .ok .panicked { w.put h none with log := s.2 }
      | .abort => .abort
      | .ub => .ub
      | .diverge => .diverge

/-- A whole history; the result lists what the client saw. -/
def run (m : Machine A C K0 K1 K2 K3) : List (Op K0 K1 K2 K3) → M (World A C) (List (Obs A))
  | [] => pure []
  | op :: ops => do
    let o ← m.step op
    let os ← run m ops
    return o :: os

end Machine

/-- The returned value, if the outcome is a normal return (used to display concrete runs). -/
def Out.seen {σ α : Type} : Out σ α → Option α
  | .ok a _ => some a
  | _ => none
/-- Did the computation reach undefined behaviour? -/
def Out.isUb {σ α : Type} : Out σ α → Bool
  | .ub => true
  | _ => false
/-- Did the computation panic? -/
def Out.isPanic {σ α : Type} : Out σ α → Bool
  | .panic _ => true
  | _ => false
/-- The final state, if the outcome is a return or a panic. -/
def Out.final {σ α : Type} : Out σ α → Option σ
  | .ok _ s => some s
  | .panic s => some s
  | _ => none

theorem Out.seen_some {σ α : Type} {o : Out σ α} {a : α} (h : o.seen = some a) : ∃ s, o = .ok a s := by
  cases o <;> simp_all [Out.seen]
theorem Out.isUb_true {σ α : Type} {o : Out σ α} (h : o.isUb = true) : o = .ub := by
  cases o <;> simp_all [Out.isUb]

/-! ### Histories that cannot stop -/

/-- No operation of the machine aborts, diverges or reaches undefined behaviour. -/
structure Machine.Total {A C K0 K1 K2 K3 : Type} (m : Machine A C K0 K1 K2 K3) : Prop where
  ctor : ∀ k log, Sat (m.ctor k log) (fun _ _ => True) (fun _ => True) False
  un : ∀ k s, Sat (m.un k s) (fun _ _ => True) (fun _ => True) False
  fork : ∀ k s, Sat (m.fork k s) (fun _ _ => True) (fun _ => True) False
  bin : ∀ k s, Sat (m.bin k s) (fun _ _ => True) (fun _ => True) False
  dtor : ∀ s, Sat (m.dtor s) (fun _ _ => True) (fun _ => True) False

theorem Machine.Total.step {A C K0 K1 K2 K3 : Type} {m : Machine A C K0 K1 K2 K3} (hm : m.Total)
    (op : Op K0 K1 K2 K3) (w : World A C) : ∃ o w', m.step op w = .ok o w' := by
  cases op with
  | ctor k =>
    have := hm.ctor k w.log
    simp only [Machine.step]
    cases h : m.ctor k w.log <;> simp_all [Sat]
  | un h k =>
    simp only [Machine.step]
    cases hc : w.heap h with
    | none => simp
    | some c =>
      have := hm.un k (c, w.log)
      cases h : m.un k (c, w.log) <;> simp_all [Sat]
  | fork h k =>
    simp only [Machine.step]
    cases hc : w.heap h with
    | none => simp
    | some c =>
      have := hm.fork k (c, w.log)
      cases h : m.fork k (c, w.log) <;> simp_all [Sat]
      rename_i a s
      cases a <;> simp
  | bin h h' k =>
    simp only [Machine.step]
    cases hc : w.heap h with
    | none => simp
    | some c =>
      cases hc' : w.heap h' with
      | none => simp
      | some c' =>
        have := hm.bin k ((c, c'), w.log)
        simp only
        split
        · simp
        · cases h : m.bin k ((c, c'), w.log) <;> simp_all [Sat]
  | drop h =>
    simp only [Machine.step]
    cases hc : w.heap h with
    | none => simp
    | some c =>
      have := hm.dtor (c, w.log)
      cases h : m.dtor (c, w.log) <;> simp_all [Sat]

theorem Machine.Total.run {A C K0 K1 K2 K3 : Type} {m : Machine A C K0 K1 K2 K3} (hm : m.Total)
    (ops : List (Op K0 K1 K2 K3)) (w : World A C) : ∃ os w', m.run ops w = .ok os w' := by
  induction ops generalizing w with
  | nil => exact ⟨_, _, rfl⟩
  | cons op ops ih =>
    obtain ⟨o, w1, h1⟩ := hm.step op w
    obtain ⟨os, w2, h2⟩ := ih w1
    exact ⟨o :: os, w2, by simp [Machine.run, h1, h2]⟩

/-! ### Refinement of histories -/

/-- Relate container-and-log states. -/
def RelLog {A C D : Type} (R : C → D → Prop) (s : C × List A) (t : D × List A) : Prop := R s.1 t.1 ∧ s.2 = t.2
/-- Relate two-containers-and-log states. -/
def RelLog2 {A C D : Type} (R : C → D → Prop) (s : (C × C) × List A) (t : (D × D) × List A) : Prop :=
  R s.1.1 t.1.1 ∧ R s.1.2 t.1.2 ∧ s.2 = t.2
/-- Relate optional containers. -/
def RelOpt {C D : Type} (R : C → D → Prop) : Option C → Option D → Prop
  | none, none => True
  | some c, some d => R c d
  | _, _ => False
/-- Two worlds have the same handles, logs and created elements, and related containers. -/
structure WorldRel {A C D : Type} (R : C → D → Prop) (w : World A C) (v : World A D) : Prop where
  next : w.next = v.next
  log : w.log = v.log
  made : w.made = v.made
  heap : ∀ h, RelOpt R (w.heap h) (v.heap h)

/-- `RefV`: as `Ref`, but the returned values are related by `S` instead of being equal. -/
def RefV {σ τ α β : Type} (S : α → β → Prop) (R : σ → τ → Prop) (o : Out σ α) (o' : Out τ β) : Prop :=
  Sat o (fun a s => ∃ b t, o' = .ok b t ∧ S a b ∧ R s t) (fun s => ∃ t, o' = .panic t ∧ R s t) (o' = .abort)

/-- Every operation of `m` refines the same operation of `m'`. -/
structure MachineRel {A C D K0 K1 K2 K3 : Type} (R : C → D → Prop)
    (m : Machine A C K0 K1 K2 K3) (m' : Machine A D K0 K1 K2 K3) : Prop where
  ctor : ∀ k log, RefV R Eq (m.ctor k log) (m'.ctor k log)
  un : ∀ k c d log, R c d → Ref (RelLog R) (m.un k (c, log)) (m'.un k (d, log))
  fork : ∀ k c d log, R c d → RefV (RelOpt R) (RelLog R) (m.fork k (c, log)) (m'.fork k (d, log))
  bin : ∀ k c d c' d' log, R c d → R c' d' →
    Ref (RelLog2 R) (m.bin k ((c, c'), log)) (m'.bin k ((d, d'), log))
  dtor : ∀ c d log, R c d → Ref (RelLog R) (m.dtor (c, log)) (m'.dtor (d, log))
  born : ∀ k c d, R c d → m.born k c = m'.born k d

namespace MachineRel
variable {A C D K0 K1 K2 K3 : Type} {R : C → D → Prop}
  {m : Machine A C K0 K1 K2 K3} {m' : Machine A D K0 K1 K2 K3}

theorem put_heap {w : World A C} {v : World A D} (hw : ∀ h, RelOpt R (w.heap h) (v.heap h)) {h : Nat}
    {c : Option C} {d : Option D} (hc : RelOpt R c d) (i : Nat) :
    RelOpt R ((w.put h c).heap i) ((v.put h d).heap i) := by
  simp only [World.put]; split
  · exact hc
  · exact hw i

theorem put_some {w : World A C} {v : World A D} (hw : ∀ h, RelOpt R (w.heap h) (v.heap h)) {h : Nat}
    {c : C} {d : D} (hc : R c d) (i : Nat) :
    RelOpt R ((w.put h (some c)).heap i) ((v.put h (some d)).heap i) :=
  put_heap (c := some c) (d := some d) hw hc i

theorem step_ref (hm : MachineRel R m m') (op : Op K0 K1 K2 K3) {w : World A C} {v : World A D}
    (hw : WorldRel R w v) : Ref (WorldRel R) (m.step op w) (m'.step op v) := by
  obtain ⟨hn, hl, hmd, hh⟩ := hw
  cases op with
  | ctor k =>
    have h := hm.ctor k w.log
    simp only [Machine.step, ← hl, hn]
    cases hx : m.ctor k w.log <;> rw [hx] at h <;> simp only [RefV, Sat] at h <;> simp only [Ref, Sat] <;>
      try contradiction
    · obtain ⟨b, t, e, h1, h2⟩ := h
      rw [e]; subst h2
      exact ⟨_, rfl, rfl, rfl, hmd, put_heap hh h1⟩
    · obtain ⟨t, e, h2⟩ := h
      rw [e]; subst h2
      exact ⟨_, rfl, rfl, rfl, hmd, hh⟩
    · rw [h]
  | un h k =>
    have hr := hh h
    simp only [Machine.step]
    cases hc : w.heap h <;> cases hd : v.heap h <;> rw [hc, hd] at hr <;> simp only [RelOpt] at hr
    · exact ⟨_, rfl, hn, hl, hmd, hh⟩
    · rename_i c d
      have h1 := hm.un k c d w.log hr
      simp only [← hl]
      cases hx : m.un k (c, w.log) <;> rw [hx] at h1 <;> simp only [Ref, Sat] at h1 <;> simp only [Ref, Sat] <;>
        try contradiction
      · obtain ⟨t, e, h2⟩ := h1
        rw [e]
        exact ⟨_, rfl, hn, h2.2, hmd, put_heap hh h2.1⟩
      · obtain ⟨t, e, h2⟩ := h1
        rw [e]
        exact ⟨_, rfl, hn, h2.2, hmd, put_heap hh h2.1⟩
      · rw [h1]
  | fork h k =>
    have hr := hh h
    simp only [Machine.step]
    cases hc : w.heap h <;> cases hd : v.heap h <;> rw [hc, hd] at hr <;> simp only [RelOpt] at hr
    · exact ⟨_, rfl, hn, hl, hmd, hh⟩
    · rename_i c d
      have h1 := hm.fork k c d w.log hr
      have hb := hm.born k c d hr
      simp only [← hl, hb, hmd, hn]
      cases hx : m.fork k (c, w.log) <;> rw [hx] at h1 <;> simp only [RefV, Sat] at h1 <;>
        try contradiction
      · obtain ⟨b, t, e, h2, h3⟩ := h1
        rw [e]
        rename_i a s
        cases a <;> cases b <;> simp only [RelOpt] at h2
        · exact ⟨_, rfl, hn, h3.2, hmd, put_some hh h3.1⟩
        · exact ⟨_, rfl, rfl, h3.2, rfl, put_some (put_some hh h3.1) h2⟩
      · obtain ⟨t, e, h2⟩ := h1
        rw [e]
        exact ⟨_, rfl, hn, h2.2, rfl, put_heap hh h2.1⟩
      · rw [h1]; simp only [Ref, Sat]
  | bin h h' k =>
    have hr := hh h
    have hr' := hh h'
    simp only [Machine.step]
    cases hc : w.heap h <;> cases hd : v.heap h <;> rw [hc, hd] at hr <;> simp only [RelOpt] at hr
    · exact ⟨_, rfl, hn, hl, hmd, hh⟩
    · rename_i c d
      cases hc' : w.heap h' <;> cases hd' : v.heap h' <;> rw [hc', hd'] at hr' <;> simp only [RelOpt] at hr'
      · exact ⟨_, rfl, hn, hl, hmd, hh⟩
      · rename_i c' d'
        have h1 := hm.bin k c d c' d' w.log hr hr'
        simp only [← hl]
        split
        · exact ⟨_, rfl, hn, hl, hmd, hh⟩
        · cases hx : m.bin k ((c, c'), w.log) <;> rw [hx] at h1 <;> simp only [Ref, Sat] at h1 <;>
            simp only [Ref, Sat] <;> try contradiction
          · obtain ⟨t, e, h2⟩ := h1
            rw [e]
            exact ⟨_, rfl, hn, h2.2.2, hmd, put_some (put_some hh h2.1) h2.2.1⟩
          · obtain ⟨t, e, h2⟩ := h1
            rw [e]
            exact ⟨_, rfl, hn, h2.2.2, hmd, put_some (put_some hh h2.1) h2.2.1⟩
          · rw [h1]
  | drop h =>
    have hr := hh h
    simp only [Machine.step]
    cases hc : w.heap h <;> cases hd : v.heap h <;> rw [hc, hd] at hr <;> simp only [RelOpt] at hr
    · exact ⟨_, rfl, hn, hl, hmd, hh⟩
    · rename_i c d
      have h1 := hm.dtor c d w.log hr
      simp only [← hl]
      cases hx : m.dtor (c, w.log) <;> rw [hx] at h1 <;> simp only [Ref, Sat] at h1 <;> simp only [Ref, Sat] <;>
        try contradiction
      · obtain ⟨t, e, h2⟩ := h1
        rw [e]
        exact ⟨_, rfl, hn, h2.2, hmd, put_heap hh trivial⟩
      · obtain ⟨t, e, h2⟩ := h1
        rw [e]
        exact ⟨_, rfl, hn, h2.2, hmd, put_heap hh trivial⟩
      · rw [h1]

theorem run_ref (hm : MachineRel R m m') (ops : List (Op K0 K1 K2 K3)) {w : World A C} {v : World A D}
    (hw : WorldRel R w v) : Ref (WorldRel R) (m.run ops w) (m'.run ops v) := by
  induction ops generalizing w v with
  | nil => exact ⟨_, rfl, hw⟩
  | cons op ops ih =>
    have h1 := step_ref hm op hw
    simp only [Machine.run, M.bind_run, M.pure_run]
    cases hx : m.step op w <;> rw [hx] at h1 <;> simp only [Ref, Sat] at h1 <;> try contradiction
    · obtain ⟨t, e, h2⟩ := h1
      rw [e]
      simp only [Out.andThen_ok]
      have h3 := ih h2
      rename_i a s
      cases hy : m.run ops s <;> rw [hy] at h3 <;> simp only [Ref, Sat] at h3 <;> try contradiction
      · obtain ⟨t', e', h4⟩ := h3
        rw [e']; exact ⟨_, rfl, h4⟩
      · obtain ⟨t', e', h4⟩ := h3
        rw [e']; exact ⟨_, rfl, h4⟩
      · rw [h3]; simp [Ref, Sat]
    · obtain ⟨t, e, h2⟩ := h1
      rw [e]; exact ⟨_, rfl, h2⟩
    · rw [h1]; simp [Ref, Sat]

theorem empty_rel : WorldRel R (World.empty : World A C) (World.empty : World A D) :=
  ⟨rfl, rfl, rfl, fun _ => trivial⟩

theorem run_total (hm : MachineRel R m m') (ht : m'.Total) (ops : List (Op K0 K1 K2 K3)) {w : World A C} {v : World A D}
    (hw : WorldRel R w v) : ∃ os w', m.run ops w = .ok os w' := by
  obtain ⟨os, v', h⟩ := ht.run ops v
  have h1 := run_ref hm ops hw
  rw [h] at h1
  cases hx : m.run ops w <;> rw [hx] at h1 <;> simp [Ref, Sat] at h1
  exact ⟨_, _, rfl⟩

end MachineRel
end Verif
