import Verif.Driver
import Verif.Cmp
/-! # Calls through a shared reference, and concurrent readers

`&self` calls may be made by any number of threads at once. This is safe if they write nothing; and then every thread gets the answers it
would get alone. The containers have no interior mutability; that nothing is written is a statement about the code (some of it works
through raw pointers), `ReadOnly` below.

Simplifications: a write that stores what was already there is not told apart from no write (none of the modelled calls does
that: none of them contains a store to the shared object at all). A call is one step of a thread. Since calls write nothing, this loses nothing: two calls that overlap in time see the same
memory as two calls that do not. -/
namespace Verif

/-- Whether it returns or panics, the computation leaves the part `part` of the state exactly as it was. -/
def Keeps {σ τ α : Type} (part : σ → τ) (x : M σ α) : Prop :=
  ∀ s, (∀ a s', x s = .ok a s' → part s' = part s) ∧ (∀ s', x s = .panic s' → part s' = part s)

/-- The computation leaves the object, all of it, exactly as it was. -/
abbrev ReadOnly {σ α : Type} (x : M σ α) : Prop := Keeps (fun s => s) x

namespace Shared
variable {σ α Q R : Type}

/-- A thread: the calls it has still to make, and what it got from those that it made (`none`: the call panicked, the thread caught it). -/
structure Thread (Q R : Type) where
  todo : List Q
  got : List (Option R)

/-- Thread `t` makes its next call on the shared objects `s.1`. `none` if that is undefined behaviour, hangs or aborts. -/
def turn (ask : Q → M σ R) (t : Nat) (s : σ × (Nat → Thread Q R)) : Option (σ × (Nat → Thread Q R)) :=
  match (s.2 t).todo with
  | [] => some s
  | q :: r =>
    match ask q s.1 with
    | .ok a o => some (o, fun u => if u = t then ⟨r, (s.2 t).got ++ [some a]⟩ else s.2 u)
    | .panic o => some (o, fun u => if u = t then ⟨r, (s.2 t).got ++ [none]⟩ else s.2 u)
    | _ => none

/-- The threads take turns as the scheduler decides. -/
def interleave (ask : Q → M σ R) : List Nat → σ × (Nat → Thread Q R) → Option (σ × (Nat → Thread Q R))
  | [], s => some s
  | t :: sched, s => do interleave ask sched (← turn ask t s)

/-- What has become of a thread after `n` turns if each of its calls is answered by `answer`. -/
def Thread.after (answer : Q → Option R) (n : Nat) (t : Thread Q R) : Thread Q R :=
  ⟨t.todo.drop n, t.got ++ (t.todo.take n).map answer⟩

theorem turn_eq {ask : Q → M σ R} {answer : Q → Option R} {s : σ}
    (h : ∀ q, ask q s = match answer q with | some r => .ok r s | none => .panic s) (t : Nat) (th : Nat → Thread Q R) :
    turn ask t (s, th) = some (s, fun u => if u = t then (th u).after answer 1 else th u) := by
  simp only [turn]
  split
  · rename_i e
    congr 2
    funext u
    split
    · rename_i hu; subst hu
      rcases hx : th u with ⟨todo, got⟩
      rw [hx] at e; simp only at e; subst e
      simp [Thread.after]
    · rfl
  · rename_i q r e
    rw [h q]
    rcases ha : answer q with _ | a
    all_goals
      simp only [Option.some.injEq, Prod.mk.injEq, true_and]
      funext u
      split
      · rename_i hu; subst hu
        rcases hx : th u with ⟨todo, got⟩
        rw [hx] at e; simp only at e; subst e
        simp [Thread.after, ha]
      · rfl

theorem after_after (answer : Q → Option R) (n m : Nat) (t : Thread Q R) : (t.after answer n).after answer m = t.after answer (n + m) := by
  simp only [Thread.after, List.drop_drop, List.append_assoc, ← List.map_append, ← List.take_add]

theorem after_zero (answer : Q → Option R) (t : Thread Q R) : t.after answer 0 = t := by simp [Thread.after]

/-- If, on these objects, every call returns (or panics) and leaves the objects as they are, then under every schedule the objects are never
changed, and every thread gets from each of its calls what it would get alone. -/
theorem interleave_eq {ask : Q → M σ R} {answer : Q → Option R} {s : σ}
    (h : ∀ q, ask q s = match answer q with | some r => .ok r s | none => .panic s) (sched : List Nat) (th : Nat → Thread Q R) :
    interleave ask sched (s, th) = some (s, fun t => (th t).after answer (sched.count t)) := by
  induction sched generalizing th with
  | nil => simp [interleave, after_zero]
  | cons t sched ih =>
    simp only [interleave, turn_eq h, Option.bind_eq_bind, Option.bind_some, ih]
    congr 2
    funext u
    by_cases hu : u = t
    · subst hu; simp [after_after, Nat.add_comm]
    · have : ¬ t = u := fun e => hu e.symm
      simp [hu, this]

/-! ### Several shared objects -/
variable {C Q1 Q2 : Type}

/-- A call on one of the shared objects, or on two of them (comparisons; possibly twice the same one). -/
inductive Call (Q1 Q2 : Type) where
  | one (h : Nat) (q : Q1)
  | two (h h' : Nat) (q : Q2)

/-- Make the call on the objects, named by handles. -/
def call (one : Q1 → M C R) (two : Q2 → M (C × C) R) : Call Q1 Q2 → M (Nat → C) R
  | .one h q => fun o => (one q (o h)).mapState (fun c u => if u = h then c else o u)
  | .two h h' q => fun o => (two q (o h, o h')).mapState (fun c u => if u = h' then c.2 else if u = h then c.1 else o u)

/-- The answer that the contents of the objects determine. -/
def reply {V : Type} (one : Q1 → V → Option R) (two : Q2 → V → V → Option R) (v : Nat → V) : Call Q1 Q2 → Option R
  | .one h q => one q (v h)
  | .two h h' q => two q (v h) (v h')

/-- The statement of the property: for any schedule, shared objects with these contents stay as they are and every thread gets, from each
call, the answer that the contents determine. -/
def Agree {V : Type} (View : C → V → Prop) (ask1 : Q1 → M C R) (ask2 : Q2 → M (C × C) R) (ans1 : Q1 → V → Option R) (ans2 : Q2 → V → V → Option R) : Prop :=
  ∀ (o : Nat → C) (v : Nat → V), (∀ h, View (o h) (v h)) → ∀ (sched : List Nat) (th : Nat → Thread (Call Q1 Q2) R),
    interleave (call ask1 ask2) sched (o, th) = some (o, fun t => (th t).after (reply ans1 ans2 v) (sched.count t))

theorem agree {V : Type} {View : C → V → Prop} {ask1 : Q1 → M C R} {ask2 : Q2 → M (C × C) R} {ans1 : Q1 → V → Option R} {ans2 : Q2 → V → V → Option R}
    (h1 : ∀ q c v, View c v → ask1 q c = match ans1 q v with | some r => .ok r c | none => .panic c)
    (h2 : ∀ q c v c' v', View c v → View c' v' → ask2 q (c, c') = match ans2 q v v' with | some r => .ok r (c, c') | none => .panic (c, c')) :
    Agree View ask1 ask2 ans1 ans2 := by
  intro o v hv sched th
  refine interleave_eq (fun q => ?_) sched th
  cases q with
  | one h q =>
    have e : (fun u => if u = h then o h else o u) = o := by funext u; split <;> simp_all
    simp only [call, reply, h1 q _ _ (hv h)]
    cases ans1 q (v h) <;> simp [Out.mapState, e]
  | two h h' q =>
    have e : (fun u => if u = h' then o h' else if u = h then o h else o u) = o := by
      funext u; split; · simp_all
      split <;> simp_all
    simp only [call, reply, h2 q _ _ _ _ (hv h) (hv h')]
    cases ans2 q (v h) (v h') <;> simp [Out.mapState, e]

/-- What a shared call can return: numbers, truth values, items that are looked at, orderings, what was fed to a hasher or a formatter. -/
inductive Ans (A H : Type) where
  | nat (n : Nat) | bool (b : Bool) | ref (a : A) | optRef (o : Option A) | refs (l : List A) | hint (n : Nat) (m : Option Nat)
  | feed (l : List (Feed H)) | fmt (l : List (Fmt A)) | ord (o : Option Ordering)
  | index (o : Option Nat) | nats (l : List Nat) | entries (l : List (Nat × A)) | optRefs (l : List (Option A))
deriving DecidableEq

/-- Run a call that may call destructors; the log is of no interest here. -/
def unlogged {A : Type} (x : M (σ × List A) α) : M σ α := fun s => (x (s, [])).mapState (·.1)
/-- Look at an object of the thread's own. -/
def own {τ : Type} (t : τ) (x : M τ α) : M σ α := fun s => (x t).mapState (fun _ => s)
/-- Clone, then look at the clone, which belongs to the thread. -/
def cloneThen {A : Type} (clone : M (C × List A) C) (look : M C α) : M C α := do own (← unlogged clone) look

theorem mapM_some {A : Type} {cl : A → Option A} {l cs : List A} (h : l.mapM cl = some cs) : l.map cl = cs.map some := by
  induction l generalizing cs with
  | nil => simp at h; subst h; rfl
  | cons a l ih =>
    simp only [List.mapM_cons, Option.pure_def, Option.bind_eq_bind, Option.bind_eq_some_iff, Option.some.injEq] at h
    obtain ⟨b, hb, bs, hbs, rfl⟩ := h
    simp [hb, ih hbs]
theorem mapM_none {A : Type} {cl : A → Option A} {l : List A} (h : l.mapM cl = none) :
    ∃ (l₁ : List A) (x : A) (l₂ cs : List A), l = l₁ ++ x :: l₂ ∧ l₁.map cl = cs.map some ∧ cl x = none := by
  induction l with
  | nil => simp at h
  | cons a l ih =>
    cases ha : cl a with
    | none => exact ⟨[], a, l, [], rfl, rfl, ha⟩
    | some b =>
      simp only [List.mapM_cons, ha, Option.pure_def, Option.bind_eq_bind, Option.bind_some, Option.bind_eq_none_iff] at h
      have : l.mapM cl = none := by
        cases hl : l.mapM cl with
        | none => rfl
        | some x => exact absurd (h x hl) (by simp)
      obtain ⟨l₁, x, l₂, cs, rfl, h1, h2⟩ := ih this
      exact ⟨a :: l₁, x, l₂, b :: cs, rfl, by simp [ha, h1], h2⟩

end Shared

/-! ### Composing computations that keep something -/
namespace Keeps
variable {σ τ ρ α β L : Type} {part : σ → ρ}
theorem pure (a : α) : Keeps part (Pure.pure a : M σ α) := fun s => ⟨fun a s' h => (by cases h; rfl), fun s' h => (by cases h)⟩
theorem panic : Keeps part (M.panic : M σ α) := fun s => ⟨fun a s' h => (by cases h), fun s' h => (by cases h; rfl)⟩
theorem ub : Keeps part (M.ub : M σ α) := fun s => ⟨fun a s' h => (by cases h), fun s' h => (by cases h)⟩
theorem diverge : Keeps part (M.diverge : M σ α) := fun s => ⟨fun a s' h => (by cases h), fun s' h => (by cases h)⟩
theorem get {f : σ → α} : Keeps part (fun s => .ok (f s) s : M σ α) := fun s => ⟨fun a s' h => (by cases h; rfl), fun s' h => (by cases h)⟩
/-- Writing elsewhere. -/
theorem put {f : σ → α} {g : σ → σ} (h : ∀ s, part (g s) = part s) : Keeps part (fun s => .ok (f s) (g s) : M σ α) :=
  fun s => ⟨fun a s' e => (by cases e; exact h s), fun s' e => (by cases e)⟩
theorem bind {x : M σ α} {f : α → M σ β} (hx : Keeps part x) (hf : ∀ a, Keeps part (f a)) : Keeps part (x >>= f) := fun s => by
  have e : (x >>= f) s = (x s).andThen (fun a s' => f a s') := rfl
  rw [e]
  have := hx s
  cases hxs : x s with
  | ok a s' =>
    have h1 := this.1 a s' hxs
    have h2 := hf a s'
    exact ⟨fun b s2 e => (h2.1 b s2 e).trans h1, fun s2 e => (h2.2 s2 e).trans h1⟩
  | panic s' =>
    have h1 := this.2 s' hxs
    exact ⟨fun a s' h => (by cases h), fun s' h => (by cases h; exact h1)⟩
  | _ => exact ⟨fun a s' h => (by cases h), fun s' h => (by cases h)⟩
theorem ite {p : Prop} [Decidable p] {x y : M σ α} (hx : Keeps part x) (hy : Keeps part y) : Keeps part (if p then x else y) := by
  split <;> assumption
theorem panicIf (p : Prop) [Decidable p] : Keeps part (M.panicIf p : M σ Unit) := ite panic (pure _)
theorem assert (p : Prop) [Decidable p] : Keeps part (M.assert p : M σ Unit) := ite (pure _) panic
theorem debugAssert (E : Env) (p : Prop) [Decidable p] : Keeps part (M.debugAssert E p : M σ Unit) := ite (assert p) (pure _)
theorem uadd (E : Env) (a b : Nat) : Keeps part (uadd E a b : M σ Nat) := ite (pure _) (ite panic (pure _))
theorem usub (E : Env) (a b : Nat) : Keeps part (usub E a b : M σ Nat) := ite (pure _) (ite panic (pure _))
theorem umul (E : Env) (a b : Nat) : Keeps part (umul E a b : M σ Nat) := ite (pure _) (ite panic (pure _))
theorem memRead (N : Nat) (m : Mem α) (i : Nat) : Keeps part (memRead N m i : M σ α) := ite (by split; exact pure _; exact ub) ub
theorem memWrite (N : Nat) (m : Mem α) (i : Nat) (v : α) : Keeps part (memWrite N m i v : M σ (Mem α)) := ite (pure _) ub
theorem memSlice (N : Nat) (m : Mem α) (i n : Nat) : Keeps part (memSlice N m i n : M σ (List α)) := ite (by split; exact pure _; exact ub) ub
theorem onFst {x : M σ α} (h : ReadOnly x) : ReadOnly (M.onFst x : M (σ × τ) α) := by
  intro s
  have := h s.1
  simp only [M.onFst]
  cases hx : x s.1 with
  | ok a s' => obtain rfl := this.1 a s' hx; exact ⟨fun a s' h => (by cases h; rfl), fun s' h => (by cases h)⟩
  | panic s' => obtain rfl := this.2 s' hx; exact ⟨fun a s' h => (by cases h), fun s' h => (by cases h; rfl)⟩
  | _ => exact ⟨fun a s' h => (by cases h), fun s' h => (by cases h)⟩
theorem onSnd {x : M τ α} (h : ReadOnly x) : ReadOnly (M.onSnd x : M (σ × τ) α) := by
  intro s
  have := h s.2
  simp only [M.onSnd]
  cases hx : x s.2 with
  | ok a s' => obtain rfl := this.1 a s' hx; exact ⟨fun a s' h => (by cases h; rfl), fun s' h => (by cases h)⟩
  | panic s' => obtain rfl := this.2 s' hx; exact ⟨fun a s' h => (by cases h), fun s' h => (by cases h; rfl)⟩
  | _ => exact ⟨fun a s' h => (by cases h), fun s' h => (by cases h)⟩
/-- A read-only computation keeps every part. -/
theorem of_readOnly {x : M σ α} (h : ReadOnly x) : Keeps part x := fun s =>
  ⟨fun a s' e => congrArg part ((h s).1 a s' e), fun s' e => congrArg part ((h s).2 s' e)⟩
/-- What runs on the second component keeps the first. -/
theorem snd {x : M τ α} : Keeps (·.1) (M.onSnd x : M (σ × τ) α) := by
  intro s
  simp only [M.onSnd]
  cases hx : x s.2 with
  | ok a s' => exact ⟨fun a s' h => (by cases h; rfl), fun s' h => (by cases h)⟩
  | panic s' => exact ⟨fun a s' h => (by cases h), fun s' h => (by cases h; rfl)⟩
  | _ => exact ⟨fun a s' h => (by cases h), fun s' h => (by cases h)⟩
/-- What runs on the first component keeps the second. -/
theorem fst {x : M σ α} : Keeps (·.2) (M.onFst x : M (σ × τ) α) := by
  intro s
  simp only [M.onFst]
  cases hx : x s.1 with
  | ok a s' => exact ⟨fun a s' h => (by cases h; rfl), fun s' h => (by cases h)⟩
  | panic s' => exact ⟨fun a s' h => (by cases h), fun s' h => (by cases h; rfl)⟩
  | _ => exact ⟨fun a s' h => (by cases h), fun s' h => (by cases h)⟩
/-- What runs on the first component leaves alone there what it leaves alone. -/
theorem onFst' {x : M σ α} (h : Keeps part x) : Keeps (fun s => part s.1) (M.onFst x : M (σ × τ) α) := by
  intro s
  have := h s.1
  simp only [M.onFst]
  cases hx : x s.1 with
  | ok a s' => have := this.1 a s' hx; exact ⟨fun a s' h => (by cases h; exact this), fun s' h => (by cases h)⟩
  | panic s' => have := this.2 s' hx; exact ⟨fun a s' h => (by cases h), fun s' h => (by cases h; exact this)⟩
  | _ => exact ⟨fun a s' h => (by cases h), fun s' h => (by cases h)⟩
/-- A container of one's own and the log: the rest is kept. -/
theorem atFst {C : Type} {x : M (C × L) α} : Keeps (fun s => s.1.2) (M.atFst x : M ((C × σ) × L) α) := by
  intro s
  simp only [M.atFst]
  cases hx : x (s.1.1, s.2) with
  | ok a s' => exact ⟨fun a s' h => (by cases h; rfl), fun s' h => (by cases h)⟩
  | panic s' => exact ⟨fun a s' h => (by cases h), fun s' h => (by cases h; rfl)⟩
  | _ => exact ⟨fun a s' h => (by cases h), fun s' h => (by cases h)⟩
/-- A local variable, and its destructor when unwinding: what the body keeps, the whole keeps. -/
theorem withLocal {t : τ} {body : M ((τ × σ) × L) α} {dtor : M ((τ × σ) × L) Unit} (hb : Keeps (fun s => part s.1.2) body)
    (hd : Keeps (fun s => part s.1.2) dtor) : Keeps (fun s => part s.1) (M.withLocal t body dtor) := by
  intro s
  simp only [M.withLocal]
  have h1 := hb ((t, s.1), s.2)
  cases hx : body ((t, s.1), s.2) with
  | ok a s' => exact ⟨fun a s' h => (by cases h; exact h1.1 _ _ hx), fun s' h => (by cases h)⟩
  | panic s' =>
    have h2 := hd s'
    simp only
    cases hy : dtor s' with
    | ok a s2 => exact ⟨fun a s' h => (by cases h), fun s' h => (by cases h; exact (h2.1 _ _ hy).trans (h1.2 _ hx))⟩
    | _ => exact ⟨fun a s' h => (by cases h), fun s' h => (by cases h)⟩
  | _ => exact ⟨fun a s' h => (by cases h), fun s' h => (by cases h)⟩
theorem dropOne (dp : α → Bool) (a : α) : Keeps (·.1) (dropOne dp a : M (σ × List α) Unit) := by
  intro s
  simp only [Verif.dropOne]
  split <;> exact ⟨fun a s' h => (by cases h <;> rfl), fun s' h => (by cases h <;> rfl)⟩
theorem dropSlice (dp : α → Bool) (l : List α) : Keeps (·.1) (dropSlice dp l : M (σ × List α) Unit) := by
  intro s
  simp only [Verif.dropSlice]
  split <;> exact ⟨fun a s' h => (by cases h <;> rfl), fun s' h => (by cases h <;> rfl)⟩
theorem unlogged {x : M (σ × List α) β} (h : Keeps (·.1) x) : ReadOnly (Shared.unlogged x) := by
  intro s
  have := h (s, [])
  simp only [Shared.unlogged]
  cases hx : x (s, []) with
  | ok a s' => have := this.1 a s' hx; exact ⟨fun a s' h => (by cases h; exact this), fun s' h => (by cases h)⟩
  | panic s' => have := this.2 s' hx; exact ⟨fun a s' h => (by cases h), fun s' h => (by cases h; exact this)⟩
  | _ => exact ⟨fun a s' h => (by cases h), fun s' h => (by cases h)⟩
theorem own {t : τ} {x : M τ α} : ReadOnly (Shared.own t x : M σ α) := by
  intro s
  simp only [Shared.own]
  cases hx : x t with
  | ok a s' => exact ⟨fun a s' h => (by cases h; rfl), fun s' h => (by cases h)⟩
  | panic s' => exact ⟨fun a s' h => (by cases h), fun s' h => (by cases h; rfl)⟩
  | _ => exact ⟨fun a s' h => (by cases h), fun s' h => (by cases h)⟩
theorem cloneThen {x : M (σ × List α) σ} {look : M σ β} (h : Keeps (·.1) x) : ReadOnly (Shared.cloneThen x look) :=
  bind (unlogged h) (fun _ => own)
end Keeps

/-- Decomposes a computation into steps that are known to keep what is to be kept. -/
macro "keeps" : tactic => `(tactic| repeat' (first
  | assumption
  | exact Keeps.pure _
  | exact Keeps.panic
  | exact Keeps.ub
  | exact Keeps.diverge
  | exact Keeps.get
  | exact Keeps.panicIf _
  | exact Keeps.assert _
  | exact Keeps.debugAssert _ _
  | exact Keeps.uadd _ _ _
  | exact Keeps.usub _ _ _
  | exact Keeps.memRead _ _ _
  | exact Keeps.memWrite _ _ _ _
  | exact Keeps.memSlice _ _ _ _
  | refine Keeps.onFst ?_
  | refine Keeps.onSnd ?_
  | refine Keeps.ite ?_ ?_
  | refine Keeps.bind ?_ ?_
  | (intro a; show Keeps _ _)
  | split))
end Verif
