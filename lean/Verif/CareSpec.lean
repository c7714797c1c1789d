import Verif.Care
/-
What the methods of Verif/Care.lean are meant to do, on plain lists, and how the calls of the elements' `clone` and destructor are observed.
-/
namespace Verif
variable {A σ ρ τ α β : Type}

/-- Two runs end the same way: both return, with results related by `V` and states related by `R`; or both panic, with states related by `R`; or both
abort, and so on. -/
def Out.Same (V : α → β → Prop) (R : σ → ρ → Prop) : Out σ α → Out ρ β → Prop
  | .ok a s, .ok b t => V a b ∧ R s t
  | .panic s, .panic t => R s t
  | .abort, .abort => True
  | .ub, .ub => True
  | .diverge, .diverge => True
  | _, _ => False

/-- Cloning the items one by one; the first component of the state collects the clones. -/
def Elem.cloneEach (el : Elem τ A) : List A → M (List A × τ) Unit
  | [] => pure ()
  | a :: r => do
    let b ← M.onSnd (el.clone a)
    M.onFst (do M.set ((← M.get) ++ [b]))
    el.cloneEach r

namespace Care
/-- Destroying a container holding a list; `run` says how the items are destroyed. -/
def drop (run : List A → M τ Unit) : M (List A × τ) Unit := do
  let l ← M.onFst M.get
  M.onSnd (run l)

/-- Emptying it: if a destructor panics, the contents stay. -/
def clear (run : List A → M τ Unit) : M (List A × τ) Unit := do
  let l ← M.onFst M.get
  M.onSnd (run l)
  M.onFst (M.set [])

/-- Discarding the first `i` items; panics before anything is destroyed if there are fewer. -/
def dropLeft (run : List A → M τ Unit) (i : Nat) : M (List A × τ) Unit := do
  let l ← M.onFst M.get
  M.panicIf (i > l.length)
  M.onSnd (run (l.take i))
  M.onFst (M.set (l.drop i))

/-- Keeping the first `i` items; panics before anything is destroyed if there are fewer. -/
def dropRight (run : List A → M τ Unit) (i : Nat) : M (List A × τ) Unit := do
  let l ← M.onFst M.get
  M.panicIf (i > l.length)
  M.onSnd (run (l.drop i))
  M.onFst (M.set (l.take i))

/-- Cloning a list; if a clone panics the clones made so far are disposed of by `run`, and the panic goes on. -/
def clone (el : Elem τ A) (run : List A → M τ Unit) (l : List A) : M τ (List A) := fun u =>
  match el.cloneEach l ([], u) with
  | .ok _ s => .ok s.1 s.2
  | .panic s =>
    match run s.1 s.2 with
    | .ok _ u' => .panic u'
    | .panic _ => .abort
    | .abort => .abort
    | .ub => .ub
    | .diverge => .diverge
  | .abort => .abort
  | .ub => .ub
  | .diverge => .diverge
end Care

/-! ### Observing the calls -/

/-- One call of a `clone` (with what it returned, `none` if it panicked) or of a destructor. -/
inductive Call (A : Type) where
  | clone (a : A) (b : Option A)
  | drop (a : A)
deriving DecidableEq

/-- The same elements with every call recorded in a log. -/
def Elem.traced (el : Elem τ A) : Elem (τ × List (Call A)) A where
  clone a := fun s =>
    match el.clone a s.1 with
    | .ok b u => .ok b (u, s.2 ++ [.clone a (some b)])
    | .panic u => .panic (u, s.2 ++ [.clone a none])
    | .abort => .abort
    | .ub => .ub
    | .diverge => .diverge
  drop a := fun s => (el.drop a s.1).mapState (fun u => (u, s.2 ++ [.drop a]))

/-- The calls of a successful cloning of `l` to `bs`. -/
def Call.clones (l bs : List A) : List (Call A) := List.zipWith (fun a b => .clone a (some b)) l bs

/-- The elements of the container models: destructors log, and may panic, depending on the item; `clone` is a pure function that may panic. -/
def Elem.plain (dp : A → Bool) (cl : A → Option A) : Elem (List A) A where
  clone a := match cl a with
    | none => M.panic
    | some b => pure b
  drop a := fun log => if dp a = true then .panic (log ++ [a]) else .ok () (log ++ [a])

/-! ### Generic facts -/

theorem M.atFst_onFst (x : M σ α) : (M.atFst (M.onFst x) : M ((σ × ρ) × τ) α) = M.onFst (M.onFst x) := by
  funext s
  simp only [M.atFst, M.onFst_run]
  cases x s.1.1 <;> rfl

/-! `M.onFst` distributes over programs. -/

theorem M.onFst_bind (x : M σ α) (f : α → M σ β) : (M.onFst (x >>= f) : M (σ × τ) β) = M.onFst x >>= fun a => M.onFst (f a) := by
  funext s
  simp only [M.onFst_run, M.bind_run]
  cases x s.1 <;> rfl
theorem M.onFst_pure (a : α) : (M.onFst (pure a : M σ α) : M (σ × τ) α) = pure a := rfl
theorem M.onFst_panic : (M.onFst (M.panic : M σ α) : M (σ × τ) α) = M.panic := rfl
theorem M.onFst_ub : (M.onFst (M.ub : M σ α) : M (σ × τ) α) = M.ub := rfl
theorem M.onFst_diverge : (M.onFst (M.diverge : M σ α) : M (σ × τ) α) = M.diverge := rfl
theorem M.onFst_ite (c : Prop) [Decidable c] (x y : M σ α) : (M.onFst (if c then x else y) : M (σ × τ) α) = if c then M.onFst x else M.onFst y := by
  split <;> rfl
theorem M.onFst_uadd (E : Env) (a b : Nat) : (M.onFst (uadd E a b : M σ Nat) : M (σ × τ) Nat) = uadd E a b := by
  unfold uadd; simp only [M.onFst_ite, M.onFst_pure, M.onFst_panic]
theorem M.onFst_usub (E : Env) (a b : Nat) : (M.onFst (usub E a b : M σ Nat) : M (σ × τ) Nat) = usub E a b := by
  unfold usub; simp only [M.onFst_ite, M.onFst_pure, M.onFst_panic]
theorem M.onFst_assert (c : Prop) [Decidable c] : (M.onFst (M.assert c : M σ Unit) : M (σ × τ) Unit) = M.assert c := by
  unfold M.assert; simp only [M.onFst_ite, M.onFst_pure, M.onFst_panic]
theorem M.onFst_debugAssert (E : Env) (c : Prop) [Decidable c] : (M.onFst (M.debugAssert E c : M σ Unit) : M (σ × τ) Unit) = M.debugAssert E c := by
  unfold M.debugAssert; simp only [M.onFst_ite, M.onFst_pure, M.onFst_assert]
theorem M.onFst_memRead (N : Nat) (m : Mem A) (i : Nat) : (M.onFst (memRead N m i : M σ A) : M (σ × τ) A) = memRead N m i := by
  unfold memRead
  by_cases h : i < N
  · simp only [if_pos h]; cases m i <;> rfl
  · simp only [if_neg h]; rfl

theorem Elem.plain_clone (dp : A → Bool) (cl : A → Option A) (a : A) :
    (M.onSnd ((Elem.plain dp cl).clone a) : M (σ × List A) A) = match cl a with
      | none => M.panic
      | some b => pure b := by
  simp only [Elem.plain]
  cases cl a <;> rfl

theorem Elem.plain_dropEach (dp : A → Bool) (cl : A → Option A) (l log : List A) :
    (l.countP dp = 0 → (Elem.plain dp cl).dropEach l log = .ok () (log ++ l)) ∧
    (l.countP dp ≠ 0 → ∃ w, (Elem.plain dp cl).dropEach l log = .panic w) := by
  induction l generalizing log with
  | nil => simp [Elem.dropEach]
  | cons a r ih =>
    simp only [Elem.dropEach, M.bind_run]
    by_cases ha : dp a = true
    · simp [Elem.plain, ha]
    · simp only [show (Elem.plain dp cl).drop a log = .ok () (log ++ [a]) by simp [Elem.plain, ha], List.countP_cons, ha, Out.andThen_ok]
      simpa using ih (log ++ [a])

theorem Elem.plain_dropSlice' (dp : A → Bool) (cl : A → Option A) (l log : List A) :
    (Elem.plain dp cl).dropSlice l log = match l.countP dp with
      | 0 => .ok () (log ++ l)
      | 1 => .panic (log ++ l)
      | _ => .abort := by
  induction l generalizing log with
  | nil => simp [Elem.dropSlice]
  | cons a r ih =>
    simp only [Elem.dropSlice, M.bind_run, M.onUnwind]
    by_cases ha : dp a = true
    · simp only [show (Elem.plain dp cl).drop a log = .panic (log ++ [a]) by simp [Elem.plain, ha], List.countP_cons, ha]
      have := Elem.plain_dropEach dp cl r (log ++ [a])
      rcases hc : r.countP dp with _ | n
      · rw [this.1 hc]; simp
      · obtain ⟨w, hw⟩ := this.2 (by omega)
        rw [hw]; simp
    · simp only [show (Elem.plain dp cl).drop a log = .ok () (log ++ [a]) by simp [Elem.plain, ha], ih, List.countP_cons, ha, Out.andThen_ok]
      rcases hc : r.countP dp with _ | _ | n <;> simp

theorem Elem.plain_dropSlice (dp : A → Bool) (cl : A → Option A) (l : List A) :
    (M.onSnd ((Elem.plain dp cl).dropSlice l) : M (σ × List A) Unit) = Verif.dropSlice dp l := by
  funext s
  simp only [M.onSnd_run, Elem.plain_dropSlice', Verif.dropSlice]
  rcases hc : l.countP dp with _ | _ | n <;> simp

theorem Elem.plain_drop (dp : A → Bool) (cl : A → Option A) (a : A) :
    (M.onSnd ((Elem.plain dp cl).drop a) : M (σ × List A) Unit) = Verif.dropOne dp a := by
  funext s
  simp only [M.onSnd_run, Elem.plain, Verif.dropOne]
  split <;> rfl


theorem Out.Same.bind {α' β' : Type} {V : α → β → Prop} {R R' : σ → ρ → Prop} {V' : α' → β' → Prop} {x : Out σ α} {y : Out ρ β} {f : α → σ → Out σ α'}
    {g : β → ρ → Out ρ β'} (h : Out.Same V R x y) (hp : ∀ s t, R s t → R' s t)
    (hf : ∀ a s b t, V a b → R s t → Out.Same V' R' (f a s) (g b t)) : Out.Same V' R' (x.andThen f) (y.andThen g) := by
  cases x <;> cases y <;> simp_all [Out.Same, Out.andThen]

theorem Out.Same.imp {V V' : α → β → Prop} {R R' : σ → ρ → Prop} {x : Out σ α} {y : Out ρ β} (h : Out.Same V R x y)
    (hv : ∀ a b, V a b → V' a b) (hp : ∀ s t, R s t → R' s t) : Out.Same V' R' x y := by
  cases x <;> cases y <;> simp_all [Out.Same]

/-- The same run of the user's code beside two related containers. -/
theorem Out.Same.onSnd {σ' ρ' : Type} {R : σ' → ρ' → Prop} (x : Out τ α) (f : τ → σ') (g : τ → ρ') (h : ∀ u, R (f u) (g u)) :
    Out.Same Eq R (x.mapState f) (x.mapState g) := by
  cases x <;> simp_all [Out.Same, Out.mapState]

theorem Out.Same.ok_inv {V : α → β → Prop} {R : σ → ρ → Prop} {x : Out σ α} {y : Out ρ β} {a : α} {s : σ} (h : Out.Same V R x y) (e : x = .ok a s) :
    ∃ b t, y = .ok b t ∧ V a b ∧ R s t := by
  subst e; cases y <;> simp only [Out.Same] at h; exact ⟨_, _, rfl, h⟩

theorem Out.Same.panic_inv {V : α → β → Prop} {R : σ → ρ → Prop} {x : Out σ α} {y : Out ρ β} {s : σ} (h : Out.Same V R x y) (e : x = .panic s) :
    ∃ t, y = .panic t ∧ R s t := by
  subst e; cases y <;> simp only [Out.Same] at h; exact ⟨_, rfl, h⟩

/-- The end of a function that owns a local container: from the loop filling it to the whole. -/
theorem Care.finish {C D : Type} {el : Elem τ A} {run : List A → M τ Unit} {l : List A} {t : D} {c : C} {u : τ} {V : D → List A → Prop} {P : D → List A → Prop}
    {body : M ((D × C) × τ) Unit} {dtor : M ((D × C) × τ) Unit}
    (hok : ∀ v s, body ((t, c), u) = .ok v s → ∃ w, el.cloneEach l ([], u) = .ok () w ∧ V s.1.1 w.1 ∧ s.1.2 = c ∧ s.2 = w.2)
    (hpanic : ∀ s, body ((t, c), u) = .panic s → ∃ w, el.cloneEach l ([], u) = .panic w ∧ P s.1.1 w.1 ∧ s.1.2 = c ∧ s.2 = w.2)
    (hother : (body ((t, c), u) = .abort → el.cloneEach l ([], u) = .abort) ∧ (body ((t, c), u) = .ub → el.cloneEach l ([], u) = .ub) ∧
      (body ((t, c), u) = .diverge → el.cloneEach l ([], u) = .diverge))
    (hd : ∀ d bs u', P d bs → Out.Same Eq (fun s t => s.1.2 = c ∧ s.2 = t) (dtor ((d, c), u')) (run bs u')) :
    Out.Same V (fun s w => s.1 = c ∧ s.2 = w)
      ((do let r ← M.withLocal t body dtor; return r.2 : M (C × τ) D) (c, u)) (Care.clone el run l u) := by
  simp only [M.bind_run, M.withLocal, Care.clone]
  cases hb : body ((t, c), u) with
  | ok v s =>
    obtain ⟨w, e, h1, h2, h3⟩ := hok v s hb
    simp only [e, Out.andThen_ok, M.pure_run, Out.Same]
    exact ⟨h1, h2, h3⟩
  | panic s =>
    obtain ⟨w, e, h1, h2, h3⟩ := hpanic s hb
    obtain ⟨⟨d, c'⟩, u'⟩ := s
    dsimp only at h1 h2 h3
    subst h2 h3
    have := hd d w.1 w.2 h1
    simp only [e]
    cases hx : dtor ((d, c'), w.2) <;> cases hy : run w.1 w.2 <;> simp_all [Out.Same, Out.andThen]
  | abort => simp [hother.1 hb, Out.Same]
  | ub => simp [hother.2.1 hb, Out.Same]
  | diverge => simp [hother.2.2 hb, Out.Same]

/-- The same when the loop ends like the cloning of the list. -/
theorem Care.finish' {C D : Type} {el : Elem τ A} {run : List A → M τ Unit} {l : List A} {t : D} {c : C} {u : τ} {V : D → List A → Prop}
    {body : M ((D × C) × τ) Unit} {dtor : M ((D × C) × τ) Unit}
    (hb : Out.Same Eq (fun s w => V s.1.1 w.1 ∧ s.1.2 = c ∧ s.2 = w.2) (body ((t, c), u)) (el.cloneEach l ([], u)))
    (hd : ∀ d bs u', V d bs → Out.Same Eq (fun s t => s.1.2 = c ∧ s.2 = t) (dtor ((d, c), u')) (run bs u')) :
    Out.Same V (fun s w => s.1 = c ∧ s.2 = w)
      ((do let r ← M.withLocal t body dtor; return r.2 : M (C × τ) D) (c, u)) (Care.clone el run l u) := by
  refine Care.finish (P := V) ?_ ?_ ?_ hd
  · intro v s e
    obtain ⟨b, t, e1, e2, e3⟩ := hb.ok_inv e
    exact ⟨t, e1, e3⟩
  · intro s e
    obtain ⟨t, e1, e2⟩ := hb.panic_inv e
    exact ⟨t, e1, e2⟩
  · refine ⟨?_, ?_, ?_⟩ <;> intro e <;> rw [e] at hb <;> cases hy : el.cloneEach l ([], u) <;> simp_all [Out.Same]

/-! ### The calls made by the specifications -/

theorem Elem.cloneEach_length (el : Elem τ A) (l done : List A) (u : τ) (v : Unit) (w : List A × τ) (h : el.cloneEach l (done, u) = .ok v w) :
    w.1.length = done.length + l.length := by
  induction l generalizing done u with
  | nil =>
    simp only [Elem.cloneEach, M.pure_run, Out.ok.injEq] at h
    rw [← h.2]; simp
  | cons a r ih =>
    simp only [Elem.cloneEach, M.bind_run, M.onSnd_run] at h
    cases hx : el.clone a u <;> rw [hx] at h <;>
      simp only [Out.mapState_ok, Out.mapState_panic, Out.mapState_abort, Out.mapState_ub, Out.mapState_diverge, Out.andThen_ok, Out.andThen_panic,
        Out.andThen_abort, Out.andThen_ub, Out.andThen_diverge, M.onFst_run, M.bind_run, M.get_run, M.set_run, reduceCtorEq] at h
    have := ih _ _ h
    rw [this]; simp; omega

theorem Elem.traced_drop (el : Elem τ A) (a : A) (u : τ) (log : List (Call A)) :
    el.traced.drop a (u, log) = (el.drop a u).mapState (fun v => (v, log ++ [.drop a])) := rfl

theorem Elem.traced_clone (el : Elem τ A) (a : A) (u : τ) (log : List (Call A)) :
    el.traced.clone a (u, log) = match el.clone a u with
    | .ok b u => .ok b (u, log ++ [.clone a (some b)])
    | .panic u => .panic (u, log ++ [.clone a none])
    | .abort => .abort
    | .ub => .ub
    | .diverge => .diverge := rfl

theorem Elem.dropEach_calls (el : Elem τ A) (l : List A) (u : τ) (log : List (Call A)) :
    (∀ s, el.traced.dropEach l (u, log) = .ok () s → s.2 = log ++ l.map .drop) ∧
    (∀ s, el.traced.dropEach l (u, log) = .panic s → ∃ k, k < l.length ∧ s.2 = log ++ (l.take (k + 1)).map .drop) := by
  induction l generalizing u log with
  | nil => simp [Elem.dropEach]
  | cons a r ih =>
    simp only [Elem.dropEach, M.bind_run, Elem.traced_drop]
    cases hx : el.drop a u with
    | ok v u' =>
      simp only [Out.mapState_ok, Out.andThen_ok]
      have := ih u' (log ++ [.drop a])
      refine ⟨fun s e => ?_, fun s e => ?_⟩
      · simpa using this.1 s e
      · obtain ⟨k, hk, e'⟩ := this.2 s e
        exact ⟨k + 1, by simp; omega, by simpa using e'⟩
    | panic u' =>
      simp only [Out.mapState_panic, Out.andThen_panic]
      refine ⟨fun s e => by simp at e, fun s e => ?_⟩
      simp only [Out.panic.injEq] at e
      subst e
      exact ⟨0, by simp, by simp⟩
    | _ => simp

theorem Elem.dropSlice_calls (el : Elem τ A) (l : List A) (u : τ) (log : List (Call A)) :
    (∀ s, el.traced.dropSlice l (u, log) = .ok () s → s.2 = log ++ l.map .drop) ∧
    (∀ s, el.traced.dropSlice l (u, log) = .panic s → s.2 = log ++ l.map .drop) := by
  induction l generalizing u log with
  | nil => simp [Elem.dropSlice]
  | cons a r ih =>
    simp only [Elem.dropSlice, M.bind_run, M.onUnwind]
    simp only [Elem.traced_drop]
    cases hx : el.drop a u with
    | ok v u' =>
      simp only [Out.mapState_ok, Out.andThen_ok]
      have := ih u' (log ++ [.drop a])
      exact ⟨fun s e => by simpa using this.1 s e, fun s e => by simpa using this.2 s e⟩
    | panic u' =>
      simp only [Out.mapState_panic]
      have := Elem.dropEach_calls el r u' (log ++ [.drop a])
      cases hy : el.traced.dropEach r (u', log ++ [.drop a]) with
      | ok v w =>
        simp only [Out.andThen_panic]
        refine ⟨fun s e => by simp at e, fun s e => ?_⟩
        simp only [Out.panic.injEq] at e
        subst e
        simpa using this.1 w hy
      | _ => simp
    | _ => simp

theorem Elem.cloneEach_calls (el : Elem τ A) (l done : List A) (u : τ) (log : List (Call A)) :
    (∀ s, el.traced.cloneEach l (done, (u, log)) = .ok () s → ∃ bs, bs.length = l.length ∧ s.1 = done ++ bs ∧ s.2.2 = log ++ Call.clones l bs) ∧
    (∀ s, el.traced.cloneEach l (done, (u, log)) = .panic s → ∃ l₁ a l₂ bs, l = l₁ ++ a :: l₂ ∧ bs.length = l₁.length ∧ s.1 = done ++ bs ∧
      s.2.2 = log ++ Call.clones l₁ bs ++ [.clone a none]) := by
  induction l generalizing u log done with
  | nil =>
    refine ⟨fun s e => ?_, fun s e => by simp [Elem.cloneEach] at e⟩
    simp only [Elem.cloneEach, M.pure_run, Out.ok.injEq, true_and] at e
    subst e
    exact ⟨[], rfl, by simp, by simp [Call.clones]⟩
  | cons a r ih =>
    simp only [Elem.cloneEach, M.bind_run, M.onSnd_run, Elem.traced_clone]
    cases hx : el.clone a u with
    | ok b u' =>
      simp only [Out.mapState_ok, Out.andThen_ok, M.onFst_run, M.bind_run, M.get_run, M.set_run]
      have := ih (done ++ [b]) u' (log ++ [.clone a (some b)])
      refine ⟨fun s e => ?_, fun s e => ?_⟩
      · obtain ⟨bs, h1, h2, h3⟩ := this.1 s e
        exact ⟨b :: bs, by simp [h1], by simpa using h2, by simpa [Call.clones] using h3⟩
      · obtain ⟨l₁, a', l₂, bs, h0, h1, h2, h3⟩ := this.2 s e
        exact ⟨a :: l₁, a', l₂, b :: bs, by simp [h0], by simp [h1], by simpa using h2, by simpa [Call.clones] using h3⟩
    | panic u' =>
      simp only [Out.mapState_panic, Out.andThen_panic]
      refine ⟨fun s e => by simp at e, fun s e => ?_⟩
      simp only [Out.panic.injEq] at e
      subst e
      exact ⟨[], a, r, [], rfl, rfl, by simp, by simp [Call.clones]⟩
    | _ => simp

/-- The calls of a cloning whose clean-up logs `clean bs` when it returns. -/
theorem Care.clone_calls (el : Elem τ A) (run : List A → M (τ × List (Call A)) Unit) (clean : List A → List (Call A))
    (hrun : ∀ bs u lg s, run bs (u, lg) = .ok () s → s.2 = lg ++ clean bs) (l : List A) (u : τ) (log : List (Call A)) :
    (∀ bs s, Care.clone el.traced run l (u, log) = .ok bs s → bs.length = l.length ∧ s.2 = log ++ Call.clones l bs) ∧
    (∀ s, Care.clone el.traced run l (u, log) = .panic s → ∃ l₁ a l₂ bs, l = l₁ ++ a :: l₂ ∧ bs.length = l₁.length ∧
      s.2 = log ++ Call.clones l₁ bs ++ [.clone a none] ++ clean bs) := by
  have h := Elem.cloneEach_calls el l [] u log
  unfold Care.clone
  cases hx : el.traced.cloneEach l ([], (u, log)) with
  | ok v w =>
    obtain ⟨bs, h1, h2, h3⟩ := h.1 w hx
    refine ⟨fun bs' s e => ?_, fun s e => by simp at e⟩
    simp only [Out.ok.injEq] at e
    obtain ⟨rfl, rfl⟩ := e
    rw [h2]
    exact ⟨by simpa using h1, by simpa using h3⟩
  | panic w =>
    obtain ⟨l₁, a, l₂, bs, h0, h1, h2, h3⟩ := h.2 w hx
    obtain ⟨w1, w2, w3⟩ := w
    dsimp only at h2 h3
    rw [List.nil_append] at h2
    subst h2 h3
    dsimp only
    refine ⟨fun bs' s e => ?_, fun s e => ?_⟩
    · cases hr : run w1 (w2, log ++ Call.clones l₁ w1 ++ [.clone a none]) <;> rw [hr] at e <;> simp at e
    · cases hr : run w1 (w2, log ++ Call.clones l₁ w1 ++ [.clone a none]) <;> rw [hr] at e <;> simp at e
      rename_i v s'
      subst e
      exact ⟨l₁, a, l₂, w1, h0, h1, hrun _ _ _ _ hr⟩
  | _ => simp

end Verif
