import Verif.Spec
/-
How a client calls an operation: shared by the machines of the code and of the specification.
-/
namespace Verif
section
variable {A C D α β : Type}

/-- Call an operation that takes no elements and runs no destructor. -/
def ask (x : M C α) (f : α → Res A) : M (C × List A) (Res A) := do return f (← M.onFst x)

/-- Call an operation passing the elements `args` by value: if it panics, unwinding drops them (in order). -/
def giving (dp : A → Bool) (args : List A) (x : M C α) (f : α → Res A) : M (C × List A) (Res A) :=
  M.onUnwind (ask x f) (dropSlice dp args)

/-- Call an operation that runs destructors itself. -/
def logged (x : M (C × List A) Unit) : M (C × List A) (Res A) := do
  x
  return .unit

/-- Call an operation producing another container. -/
def forking (x : M C C) : M (C × List A) (Option C) := do return some (← M.onFst x)

/-- Make the call only if the guard (evaluated on the container) allows it; otherwise nothing happens. -/
def guarded (g : C → Bool) (skip : α) (x : M (C × List A) α) : M (C × List A) α := fun s =>
  if g s.1 = true then x s else .ok skip s

/-- Call a constructor passing the elements `args` by value. -/
def making (dp : A → Bool) (args : List A) (x : M Unit C) : M (List A) C := fun log =>
  (M.onUnwind (M.onFst x) (dropSlice dp args) ((), log)).mapState (·.2)

/-- Call a constructor that borrows the client's iterator; afterwards the client disposes of what is left in
it (recorded in the log). -/
def borrowing (it : It A) (x : M (It A × List A) C) : M (List A) C := fun log =>
  (x (it, log)).mapState (fun s => s.2 ++ s.1.owned)

/-- Call an operation on two containers. -/
def both (x : M (C × C) Unit) : M ((C × C) × List A) (Res A) := do
  M.onFst x
  return .unit

/-! ### Refinement through the wrappers -/
variable {R : C → D → Prop}

theorem ask_ref {x : M C α} {y : M D α} {f : α → Res A} {c : C} {d : D} {log : List A}
    (h : Ref R (x c) (y d)) : Ref (RelLog R) (ask x f (c, log)) (ask y f (d, log)) := by
  simp only [ask, M.bind_run, M.onFst_run, M.pure_run]
  cases hx : x c <;> rw [hx] at h <;> simp only [Ref, Sat] at h
  · obtain ⟨t, e, h1⟩ := h; rw [e]; exact ⟨_, rfl, h1, rfl⟩
  · obtain ⟨t, e, h1⟩ := h; rw [e]; exact ⟨_, rfl, h1, rfl⟩
  · rw [h]; simp [Ref, Sat]

theorem giving_ref {dp : A → Bool} {args : List A} {x : M C α} {y : M D α} {f : α → Res A} {c : C} {d : D} {log : List A}
    (h : Ref R (x c) (y d)) : Ref (RelLog R) (giving dp args x f (c, log)) (giving dp args y f (d, log)) := by
  have h' := ask_ref (f := f) (log := log) h
  unfold giving M.onUnwind
  cases hx : ask x f (c, log) <;> rw [hx] at h' <;> simp only [Ref, Sat] at h'
  · obtain ⟨t, e, h1⟩ := h'; rw [e]; exact ⟨_, rfl, h1⟩
  · obtain ⟨t, e, h1, h2⟩ := h'; rw [e]
    rename_i s
    obtain ⟨s1, s2⟩ := s
    obtain ⟨t1, t2⟩ := t
    simp only at h1 h2; subst h2
    simp only [dropSlice]
    by_cases h0 : args.countP dp = 0
    · simp only [h0]; exact ⟨_, rfl, h1, rfl⟩
    · cases hh : args.countP dp with
      | zero => exact absurd hh h0
      | succ n => cases n <;> simp [Ref, Sat]
  · rw [h']; simp [Ref, Sat]

theorem logged_ref {x : M (C × List A) Unit} {y : M (D × List A) Unit} {c : C} {d : D} {log : List A}
    (h : Ref (RelLog R) (x (c, log)) (y (d, log))) : Ref (RelLog R) (logged x (c, log)) (logged y (d, log)) := by
  simp only [logged, M.bind_run, M.pure_run]
  cases hx : x (c, log) <;> rw [hx] at h <;> simp only [Ref, Sat] at h
  · obtain ⟨t, e, h1⟩ := h; rw [e]; exact ⟨_, rfl, h1⟩
  · obtain ⟨t, e, h1⟩ := h; rw [e]; exact ⟨_, rfl, h1⟩
  · rw [h]; simp [Ref, Sat]

theorem forking_ref {x : M C C} {y : M D D} {c : C} {d : D} {log : List A}
    (h : RefV R R (x c) (y d)) : RefV (RelOpt R) (RelLog R) (forking x (c, log)) (forking y (d, log)) := by
  simp only [forking, M.bind_run, M.onFst_run, M.pure_run]
  cases hx : x c <;> rw [hx] at h <;> simp only [RefV, Sat] at h
  · obtain ⟨b, t, e, h1, h2⟩ := h; rw [e]; exact ⟨_, _, rfl, h1, h2, rfl⟩
  · obtain ⟨t, e, h1⟩ := h; rw [e]; exact ⟨_, rfl, h1, rfl⟩
  · rw [h]; simp [RefV, Sat]

theorem guarded_ref {g : C → Bool} {g' : D → Bool} {skip : α} {x : M (C × List A) α} {y : M (D × List A) α} {c : C}
    {d : D} {log : List A} (hR : R c d) (hg : g c = g' d)
    (h : g' d = true → Ref (RelLog R) (x (c, log)) (y (d, log))) :
    Ref (RelLog R) (guarded g skip x (c, log)) (guarded g' skip y (d, log)) := by
  simp only [guarded, hg]
  split
  · exact h ‹_›
  · exact ⟨_, rfl, hR, rfl⟩

theorem guarded_refV {g : C → Bool} {g' : D → Bool} {x : M (C × List A) (Option C)} {y : M (D × List A) (Option D)} {c : C}
    {d : D} {log : List A} (hR : R c d) (hg : g c = g' d)
    (h : g' d = true → RefV (RelOpt R) (RelLog R) (x (c, log)) (y (d, log))) :
    RefV (RelOpt R) (RelLog R) (guarded g none x (c, log)) (guarded g' none y (d, log)) := by
  simp only [guarded, hg]
  split
  · exact h ‹_›
  · exact ⟨_, _, rfl, trivial, hR, rfl⟩

theorem making_ref {dp : A → Bool} {args : List A} {x : M Unit C} {y : M Unit D} {log : List A}
    (h : RefV R Eq (x ()) (y ())) : RefV R Eq (making dp args x log) (making dp args y log) := by
  unfold making M.onUnwind
  simp only [M.onFst_run]
  cases hx : x () <;> rw [hx] at h <;> simp only [RefV, Sat] at h
  · obtain ⟨b, t, e, h1, h2⟩ := h; rw [e]; exact ⟨_, _, rfl, h1, rfl⟩
  · obtain ⟨t, e, h1⟩ := h; rw [e]
    simp only [Out.mapState_panic, dropSlice]
    cases hh : args.countP dp with
    | zero => exact ⟨_, rfl, rfl⟩
    | succ n => cases n <;> simp [RefV, Sat]
  · rw [h]; simp [RefV, Sat]

theorem borrowing_ref {it : It A} {x : M (It A × List A) C} {y : M (It A × List A) D} {log : List A}
    (h : RefV R Eq (x (it, log)) (y (it, log))) : RefV R Eq (borrowing it x log) (borrowing it y log) := by
  unfold borrowing
  cases hx : x (it, log) <;> rw [hx] at h <;> simp only [RefV, Sat] at h
  · obtain ⟨b, t, e, h1, h2⟩ := h; rw [e]; subst h2; exact ⟨_, _, rfl, h1, rfl⟩
  · obtain ⟨t, e, h1⟩ := h; rw [e]; subst h1; exact ⟨_, rfl, rfl⟩
  · rw [h]; simp [RefV, Sat]

theorem both_ref {x : M (C × C) Unit} {y : M (D × D) Unit} {c c' : C} {d d' : D} {log : List A}
    (h : Ref (fun s t => R s.1 t.1 ∧ R s.2 t.2) (x (c, c')) (y (d, d'))) :
    Ref (RelLog2 R) (both x ((c, c'), log)) (both y ((d, d'), log)) := by
  simp only [both, M.bind_run, M.onFst_run, M.pure_run]
  cases hx : x (c, c') <;> rw [hx] at h <;> simp only [Ref, Sat] at h
  · obtain ⟨t, e, h1, h2⟩ := h; rw [e]; exact ⟨_, rfl, h1, h2, rfl⟩
  · obtain ⟨t, e, h1, h2⟩ := h; rw [e]; exact ⟨_, rfl, h1, h2, rfl⟩
  · rw [h]; simp [Ref, Sat]

theorem Ref.of_eq {σ τ α : Type} {R : σ → τ → Prop} {o : Out σ α} {o' : Out τ α} {a : α} {s : σ} {t : τ}
    (h : o = .ok a s) (h' : o' = .ok a t) (hr : R s t) : Ref R o o' := by
  rw [h, h']; exact ⟨_, rfl, hr⟩

theorem RefV.imp {σ τ α β : Type} {S S' : α → β → Prop} {R R' : σ → τ → Prop} {o : Out σ α} {o' : Out τ β}
    (h : RefV S R o o') (h1 : ∀ a b, S a b → S' a b) (h2 : ∀ s t, R s t → R' s t) : RefV S' R' o o' := by
  refine Sat.imp h ?_ ?_ id
  · rintro a s ⟨b, t, e, hs, hr⟩; exact ⟨b, t, e, h1 _ _ hs, h2 _ _ hr⟩
  · rintro s ⟨t, e, hr⟩; exact ⟨t, e, h2 _ _ hr⟩

theorem Ref.imp {σ τ α : Type} {R R' : σ → τ → Prop} {o : Out σ α} {o' : Out τ α}
    (h : Ref R o o') (h2 : ∀ s t, R s t → R' s t) : Ref R' o o' := by
  refine Sat.imp h ?_ ?_ id
  · rintro a s ⟨t, e, hr⟩; exact ⟨t, e, h2 _ _ hr⟩
  · rintro s ⟨t, e, hr⟩; exact ⟨t, e, h2 _ _ hr⟩

/-! ### Destructors that do not panic -/
section total
variable {dp : A → Bool} (hd : ∀ a, dp a = false)
include hd
theorem dropSlice_total {σ : Type} (l : List A) (s : σ × List A) : dropSlice dp l s = .ok () (s.1, s.2 ++ l) := by
  have : l.countP dp = 0 := by simp [hd]
  simp [dropSlice, this]
theorem any_total (l : List A) : l.any dp = false := by simp [hd]
end total

/-- Returns or panics. -/
abbrev Runs {σ α : Type} (o : Out σ α) : Prop := Sat o (fun _ _ => True) (fun _ => True) False

theorem ask_total {x : M C α} {f : α → Res A} {s : C × List A} (h : Runs (x s.1)) : Runs (ask x f s) := by
  obtain ⟨c, log⟩ := s
  simp only [Runs, ask, M.bind_run, M.onFst_run, M.pure_run]
  cases hx : x c <;> simp_all [Sat]
theorem giving_total {dp : A → Bool} (hd : ∀ a, dp a = false) {args : List A} {x : M C α} {f : α → Res A} {s : C × List A}
    (h : Runs (x s.1)) : Runs (giving dp args x f s) := by
  have := ask_total (f := f) h
  simp only [Runs, giving, M.onUnwind]
  cases hx : ask x f s <;> rw [hx] at this <;> simp_all [Sat, dropSlice_total]
theorem logged_total {x : M (C × List A) Unit} {s : C × List A} (h : Runs (x s)) : Runs (logged (A := A) x s) := by
  simp only [Runs, logged, M.bind_run, M.pure_run]
  cases hx : x s <;> simp_all [Sat]
theorem forking_total {x : M C C} {s : C × List A} (h : Runs (x s.1)) : Runs (forking x s) := by
  simp only [Runs, forking, M.bind_run, M.onFst_run, M.pure_run]
  cases hx : x s.1 <;> simp_all [Sat]
theorem guarded_total {g : C → Bool} {skip : α} {x : M (C × List A) α} {s : C × List A} (h : Runs (x s)) :
    Runs (guarded g skip x s) := by
  unfold guarded; split
  · exact h
  · trivial
theorem making_total {dp : A → Bool} (hd : ∀ a, dp a = false) {args : List A} {x : M Unit C} {log : List A}
    (h : Runs (x ())) : Runs (making dp args x log) := by
  simp only [Runs, making, M.onUnwind, M.onFst_run]
  cases hx : x () <;> simp_all [Sat, dropSlice_total]
theorem borrowing_total {it : It A} {x : M (It A × List A) C} {log : List A} (h : Runs (x (it, log))) :
    Runs (borrowing it x log) := by
  simp only [Runs, borrowing]
  cases hx : x (it, log) <;> simp_all [Sat]
theorem both_total {x : M (C × C) Unit} {s : (C × C) × List A} (h : Runs (x s.1)) : Runs (both (A := A) x s) := by
  simp only [Runs, both, M.bind_run, M.onFst_run, M.pure_run]
  cases hx : x s.1 <;> simp_all [Sat]

namespace Spec
variable {dp : A → Bool} (hd : ∀ a, dp a = false)
include hd
theorem dropping_total (d l l' log : List A) : Spec.dropping dp d l l' log = .ok () (l', log ++ d) := by
  have : d.countP dp = 0 := by simp [hd]
  simp [dropping, this]
theorem panicDropping_total {β : Type} (d l log : List A) : (panicDropping dp d l log : Out _ β) = .panic (l, log ++ d) := by
  simp [panicDropping, any_total hd]
theorem extend_total (N : Nat) (it : It A) (s : List A × List A) : Runs (extend N dp it s) := by
  induction it generalizing s with
  | nil => trivial
  | cons e r ih =>
    cases e with
    | panic => simp only [extend]; rw [panicDropping_total hd]; trivial
    | item a =>
      simp only [extend]; split
      · exact ih _
      · rw [panicDropping_total hd]; trivial
theorem insertFrom_total (N i n : Nat) (it : It A) (s : List A × List A) : Runs (insertFrom N dp i n it s) := by
  simp only [insertFrom]
  split
  · split
    · have : (It.owned (it.drop n)).countP dp = 0 := by simp [hd]
      rw [this]; trivial
    · rw [panicDropping_total hd]; trivial
  · rw [panicDropping_total hd]; trivial
theorem fromIter_total (N : Nat) (it : It A) (log : List A) : Runs (fromIter N dp it log) := by
  have := extend_total hd N it ([], log)
  simp only [fromIter]
  cases hx : extend N dp it ([], log) <;> rw [hx] at this <;> simp_all [Runs, Sat]
theorem collectFrom_total (N n : Nat) (s : It A × List A) : Runs (collectFrom N dp n s) := by
  simp only [collectFrom, any_total hd]
  repeat' split
  all_goals first | trivial | contradiction
theorem clone_total (cl : A → Option A) (s : List A × List A) : Runs (clone dp cl s) := by
  simp only [clone]; split
  · trivial
  · rw [panicDropping_total hd]; trivial
end Spec

/-! ### Accounting through the wrappers (on lists) -/
variable [DecidableEq A]

/-- Accounting of one unary operation (the shape used by `Balanced.un`). -/
def UnBal (args : List A) (g h : Bool → Prop) (l log : List A) (o : Out (List A × List A) (Res A)) : Prop :=
  Sat o
    (fun r s => g false → ∃ leak, (h false → leak = []) ∧ ∀ a, (r.performed args ++ l ++ log).count a
        = (r.outs ++ s.1 ++ s.2 ++ leak).count a)
    (fun s => g true → ∃ leak, (h true → leak = []) ∧ ∀ a, (args ++ l ++ log).count a = (s.1 ++ s.2 ++ leak).count a) True

theorem giving_bal {dp : A → Bool} {args : List A} {x : M (List A) α} {f : α → Res A} {l log : List A} {g h : Bool → Prop}
    (hx : Sat (x l) (fun r l' => (f r).performed args = args ∧ ∀ a, (args ++ l).count a = ((f r).outs ++ l').count a)
      (fun l' => l' = l) True) : UnBal args g h l log (giving dp args x f (l, log)) := by
  unfold giving ask UnBal
  apply Sat.onUnwind
  apply Sat.bind
  apply Sat.onFst
  refine Sat.imp hx ?_ ?_ (fun _ => trivial)
  · rintro r s ⟨h1, h2⟩
    apply Sat.pure
    refine fun _ => ⟨[], fun _ => rfl, fun a => ?_⟩
    have := h2 a
    simp only [h1, List.count_append, List.count_nil] at *
    omega
  · rintro s rfl
    simp only [dropSlice]
    split
    · refine fun _ => ⟨[], fun _ => rfl, fun a => ?_⟩
      simp only [List.count_append, List.count_nil]; omega
    · trivial
    · trivial

theorem ask_bal {x : M (List A) α} {f : α → Res A} {l log : List A} {g h : Bool → Prop}
    (hx : Sat (x l) (fun r l' => g false → ∀ a, l.count a = ((f r).outs ++ l').count a)
      (fun l' => l' = l) True) : UnBal [] g h l log (ask x f (l, log)) := by
  unfold ask UnBal
  apply Sat.bind
  apply Sat.onFst
  refine Sat.imp hx ?_ ?_ (fun _ => trivial)
  · rintro r s h2
    apply Sat.pure
    refine fun hg => ⟨[], fun _ => rfl, fun a => ?_⟩
    have := h2 hg a
    have e : (f r).performed ([] : List A) = [] := by cases f r <;> rfl
    simp only [e, List.count_append, List.count_nil] at *
    omega
  · rintro s rfl
    refine fun _ => ⟨[], fun _ => rfl, fun a => ?_⟩
    simp

theorem ask_bal' {x : M (List A) α} {f : α → Res A} {l log : List A} {g h : Bool → Prop}
    (hx : Sat (x l) (fun r l' => ∀ a, l.count a = ((f r).outs ++ l').count a)
      (fun l' => l' = l) True) : UnBal [] g h l log (ask x f (l, log)) :=
  ask_bal (Sat.imp hx (fun _ _ h _ => h) (fun _ h => h) id)

theorem logged_bal {args : List A} {x : M (List A × List A) Unit} {l log : List A} {g h : Bool → Prop}
    (hx : Sat (x (l, log))
      (fun _ s => g false → ∃ leak, (h false → leak = []) ∧ ∀ a, (args ++ l ++ log).count a = (s.1 ++ s.2 ++ leak).count a)
      (fun s => g true → ∃ leak, (h true → leak = []) ∧ ∀ a, (args ++ l ++ log).count a = (s.1 ++ s.2 ++ leak).count a) True) :
    UnBal args g h l log (logged x (l, log)) := by
  unfold logged UnBal
  apply Sat.bind
  refine Sat.imp hx ?_ ?_ (fun _ => trivial)
  · rintro _ s h2
    apply Sat.pure
    simpa [Res.performed, Res.outs] using h2
  · exact fun _ h => h
end
end Verif

namespace Verif
section
variable {σ τ α β : Type} {R : σ → τ → Prop} {S : α → β → Prop}

theorem Ref.of_ok {o : Out σ α} {o' : Out τ α} {a : α} {t : τ} (h : Ref R o o') (e : o' = .ok a t) :
    ∃ s, o = .ok a s ∧ R s t := by
  subst e
  cases o <;> simp [Ref, Sat] at h
  obtain ⟨t', ⟨rfl, rfl⟩, hr⟩ := h
  exact ⟨_, rfl, hr⟩
theorem Ref.of_panic {o : Out σ α} {o' : Out τ α} {t : τ} (h : Ref R o o') (e : o' = .panic t) :
    ∃ s, o = .panic s ∧ R s t := by
  subst e
  cases o <;> simp_all [Ref, Sat]
theorem Ref.of_abort {o : Out σ α} {o' : Out τ α} (h : Ref R o o') (e : o' = .abort) : o = .abort := by
  subst e
  cases o <;> simp_all [Ref, Sat]
theorem RefV.of_ok {o : Out σ α} {o' : Out τ β} {b : β} {t : τ} (h : RefV S R o o') (e : o' = .ok b t) :
    ∃ a s, o = .ok a s ∧ S a b ∧ R s t := by
  subst e
  cases o <;> simp [RefV, Sat] at h
  obtain ⟨b', t', ⟨rfl, rfl⟩, hr⟩ := h
  exact ⟨_, _, rfl, hr⟩
theorem RefV.of_panic {o : Out σ α} {o' : Out τ β} {t : τ} (h : RefV S R o o') (e : o' = .panic t) :
    ∃ s, o = .panic s ∧ R s t := by
  subst e
  cases o <;> simp_all [RefV, Sat]
theorem RefV.of_abort {o : Out σ α} {o' : Out τ β} (h : RefV S R o o') (e : o' = .abort) : o = .abort := by
  subst e
  cases o <;> simp_all [RefV, Sat]

/-- `o` panics exactly under `cond`, and then leaves behind a state that still shows `t`; otherwise it
returns. -/
def PanicsExactly (R : σ → τ → Prop) (t : τ) (o : Out σ α) (cond : Prop) : Prop :=
  (cond → ∃ s, o = .panic s ∧ R s t) ∧ (¬ cond → ∃ a s, o = .ok a s)

/-- `o` returns `a` in a state that shows `t`. -/
def Returns (R : σ → τ → Prop) (o : Out σ α) (a : α) (t : τ) : Prop := ∃ s, o = .ok a s ∧ R s t

theorem Ref.panicsExactly {o : Out σ α} {o' : Out τ α} {t : τ} {cond : Prop} (h : Ref R o o')
    (h1 : cond → o' = .panic t) (h2 : ¬ cond → ∃ a s, o' = .ok a s) : PanicsExactly R t o cond := by
  constructor
  · intro hc; exact h.of_panic (h1 hc)
  · intro hc
    obtain ⟨a, s, e⟩ := h2 hc
    obtain ⟨s', e', _⟩ := h.of_ok e
    exact ⟨a, s', e'⟩
theorem RefV.panicsExactly {o : Out σ α} {o' : Out τ β} {t : τ} {cond : Prop} (h : RefV S R o o')
    (h1 : cond → o' = .panic t) (h2 : ¬ cond → ∃ a s, o' = .ok a s) : PanicsExactly R t o cond := by
  constructor
  · intro hc; exact h.of_panic (h1 hc)
  · intro hc
    obtain ⟨a, s, e⟩ := h2 hc
    obtain ⟨a', s', e', _⟩ := h.of_ok e
    exact ⟨a', s', e'⟩
end
end Verif
