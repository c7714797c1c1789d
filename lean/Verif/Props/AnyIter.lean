import Verif.Props.Pour
/-
C108: iterators that are arbitrary programs.
-/
namespace Verif
variable {A σ τ : Type} {src : Source τ A} {dp : A → Bool} {R : σ → List A → Prop} {cap : Nat} {push : A → M (σ × List A) Unit} {dtor : M (σ × List A) Unit}

/-! ### What is assumed of an iterator -/

/-- `next()` and dropping may do anything to the iterator's own state, return anything, panic and abort; all that is asked is what safe code cannot
break: no undefined behaviour, and no single call that runs forever. -/
structure Source.Tame (src : Source τ A) (I : τ → Prop) : Prop where
  next : ∀ t, I t → Sat (src.next t) (fun _ t' => I t') I True
  drop : ∀ t log, I t → Sat (src.drop (t, log)) (fun _ _ => True) (fun _ => True) True

/-- Until the first `next()`, `len()` either says `n` or panics (or aborts); it may change the iterator's state. -/
structure Source.Says (src : Source τ A) (I J : τ → Prop) (n : Nat) : Prop where
  tame : ∀ t, J t → I t
  len : ∀ t, J t → Sat (src.len t) (fun m t' => m = n ∧ J t') I True

/-- The iterator has handed out `xs` on its way from one state to another. -/
inductive Source.Gave (src : Source τ A) : τ → List A → τ → Prop
  | rest (t : τ) : Gave src t [] t
  | len {t t' t'' : τ} {n : Nat} {xs : List A} : src.len t = .ok n t' → Gave src t' xs t'' → Gave src t xs t''
  | item {t t' t'' : τ} {a : A} {xs : List A} : src.next t = .ok (some a) t' → Gave src t' xs t'' → Gave src t (a :: xs) t''

theorem Source.Gave.snoc {t t' t'' : τ} {xs : List A} {a : A} (h : src.Gave t xs t') (e : src.next t' = .ok (some a) t'') : src.Gave t (xs ++ [a]) t'' := by
  induction h with
  | rest t => exact .item e (.rest _)
  | len e' _ ih => exact .len e' (ih e)
  | item e' _ ih => exact .item e' (ih e)

/-! ### `extend` and `collect` -/

namespace Source.Tame
variable {I : τ → Prop} (ht : src.Tame I)
include ht

theorem close_sat {t : τ} (h : I t) (s : σ) (log : List A) : Sat (src.close ((s, t), log)) (fun _ s' => s'.1.1 = s) (fun s' => s'.1.1 = s) True := by
  have := ht.drop t log h
  unfold Source.close M.atSnd
  cases hx : src.drop (t, log) <;> rw [hx] at this <;> simp_all [Sat]

theorem pourLoop_sat (hp : PushContract R cap dp push) (fuel : Nat) : ∀ {s : σ} {l : List A} {t : τ} (log : List A), R s l → l.length ≤ cap → I t →
    cap - l.length < fuel →
    Sat (src.pourLoop push fuel ((s, t), log)) (fun _ s' => I s'.1.2 ∧ ∃ xs t', src.Gave t xs t' ∧ R s'.1.1 (l ++ xs))
      (fun s' => I s'.1.2 ∧ ∃ xs t', src.Gave t xs t' ∧ R s'.1.1 (l ++ xs)) True := by
  induction fuel with
  | zero => intro s l t log _ _ _ h; omega
  | succ f ih =>
    intro s l t log h hl hi hf
    have hn := ht.next t hi
    unfold Source.pourLoop
    simp only [M.bind_run, Source.pull, M.onFst_run, M.onSnd_run]
    cases hx : src.next t with
    | panic t' => rw [hx] at hn; exact ⟨hn, [], t, .rest t, by simpa using h⟩
    | abort => trivial
    | ub => rw [hx] at hn; exact hn
    | diverge => rw [hx] at hn; exact hn
    | ok o t' =>
      rw [hx] at hn
      cases o with
      | none => exact ⟨hn, [], t, .rest t, by simpa using h⟩
      | some a =>
        simp only [Out.mapState_ok, Out.andThen_ok, M.bind_run, M.atFst]
        have hc := hp s l h a log
        by_cases hlt : l.length < cap
        · rw [if_pos hlt] at hc
          obtain ⟨⟨s', log'⟩, e, h', rfl⟩ := hc.of_ok rfl
          rw [e]
          refine (ih log' h' (by simp; omega) hn (by simp; omega)).imp ?_ ?_ id <;>
          · rintro - 
            first
            | rintro s'' ⟨h1, xs, t1, h2, h3⟩
              exact ⟨h1, a :: xs, t1, .item hx h2, by simpa using h3⟩
            | rintro ⟨h1, xs, t1, h2, h3⟩
              exact ⟨h1, a :: xs, t1, .item hx h2, by simpa using h3⟩
        · rw [if_neg hlt] at hc
          unfold Spec.panicDropping at hc
          by_cases hd : [a].any dp = true
          · rw [if_pos hd] at hc
            rw [hc.of_abort rfl]; trivial
          · rw [if_neg hd] at hc
            obtain ⟨⟨s', log'⟩, e, h', -⟩ := hc.of_panic rfl
            rw [e]
            exact ⟨hn, [], t, .rest t, by simpa using h'⟩

theorem pour_sat (hp : PushContract R cap dp push) {fuel : Nat} {s : σ} {l : List A} {t : τ} (log : List A) (h : R s l) (hl : l.length ≤ cap) (hi : I t)
    (hf : cap - l.length < fuel) :
    Sat (src.pour push fuel ((s, t), log)) (fun _ s' => ∃ xs t', src.Gave t xs t' ∧ R s'.1.1 (l ++ xs))
      (fun s' => ∃ xs t', src.Gave t xs t' ∧ R s'.1.1 (l ++ xs)) True := by
  have hx := ht.pourLoop_sat hp fuel log h hl hi hf
  unfold Source.pour
  apply Sat.bind
  apply Sat.onUnwind
  refine hx.imp ?_ ?_ id
  · rintro - ⟨⟨s', t'⟩, lg⟩ ⟨h1, h2⟩
    exact (ht.close_sat h1 s' lg).imp (fun _ s'' e => by rw [e]; exact h2) (fun s'' e => by rw [e]; exact h2) id
  · rintro ⟨⟨s', t'⟩, lg⟩ ⟨h1, h2⟩
    exact (ht.close_sat h1 s' lg).imp (fun _ s'' e => by rw [e]; exact h2) (fun s'' e => trivial) id

theorem gather_sat (hp : PushContract R cap dp push) {init : σ} (h0 : R init [])
    (hdt : ∀ s l log, R s l → Sat (dtor (s, log)) (fun _ _ => True) (fun _ => True) True) {fuel : Nat} {t : τ} (log : List A) (hi : I t) (hf : cap < fuel) :
    Sat (src.gather init push dtor fuel (t, log)) (fun c _ => ∃ xs t', src.Gave t xs t' ∧ R c xs) (fun _ => True) True := by
  have hx := ht.pour_sat hp (fuel := fuel) log h0 (by simp) hi (by simpa using hf)
  unfold Source.gather
  apply Sat.bind
  apply Sat.withLocal
  refine hx.imp ?_ ?_ id
  · rintro - s' ⟨xs, t', h⟩; exact ⟨xs, t', by simpa using h⟩
  · rintro s' ⟨xs, t', -, h⟩
    have := hdt _ _ s'.2 h
    unfold M.atFst
    cases hd : dtor (s'.1.1, s'.2) <;> rw [hd] at this <;> simp_all [Sat]

end Source.Tame

/-! ### Lockstep: the run over a program and the run over the events it produces -/

/-- What the next `n` calls of `next()` do (up to the first panic), as events. -/
def Source.unroll (src : Source τ A) : Nat → τ → It A
  | 0, _ => []
  | n + 1, t =>
    match src.next t with
    | .ok none _ => []
    | .ok (some a) t' => .item a :: src.unroll n t'
    | _ => [.panic]

theorem Source.unroll_gave (n : Nat) : ∀ t : τ, ∃ t', src.Gave t (src.unroll n t).items t' := by
  induction n with
  | zero => exact fun t => ⟨t, .rest t⟩
  | succ n ih =>
    intro t
    unfold Source.unroll
    split
    · exact ⟨t, .rest t⟩
    · rename_i a t' e
      obtain ⟨t'', h⟩ := ih t'
      exact ⟨t'', .item e h⟩
    · exact ⟨t, .rest t⟩

theorem Source.unroll_length (n : Nat) : ∀ t : τ, (src.unroll n t).items.length ≤ n := by
  induction n with
  | zero => exact fun t => Nat.le_refl _
  | succ n ih =>
    intro t
    unfold Source.unroll
    split
    · simp [It.items]
    · simpa [It.items] using ih _
    · simp [It.items]

/-- The outcome `o` of a run over a program follows the outcome `o'` of a run over its events, up to the drop log: if it returns, so does the other,
in the same state of the container, with `P`; if it panics, the other does too, in the same state, or the container has `X`; it may abort. -/
def Follows {α : Type} (P : σ → τ → Prop) (J : τ → Prop) (X : σ → Prop) (o : Out ((σ × τ) × List A) α) (o' : Out (σ × List A) α) : Prop :=
  match o with
  | .ok a s => P s.1.1 s.1.2 ∧ ∃ lg, o' = .ok a (s.1.1, lg)
  | .panic s => J s.1.2 ∧ (X s.1.1 ∨ ∃ lg, o' = .panic (s.1.1, lg))
  | .abort => True
  | .ub => o' = .ub
  | .diverge => o' = .diverge

namespace Follows
variable {α β : Type} {P Q : σ → τ → Prop} {J : τ → Prop} {X : σ → Prop}

theorem bind {x : M ((σ × τ) × List A) α} {x' : M (σ × List A) α} {f : α → M ((σ × τ) × List A) β} {f' : α → M (σ × List A) β} {s : (σ × τ) × List A}
    {s' : σ × List A} (h : Follows P J X (x s) (x' s')) (hf : ∀ a c t lg lg', P c t → Follows Q J X (f a ((c, t), lg)) (f' a (c, lg'))) :
    Follows Q J X ((x >>= f) s) ((x' >>= f') s') := by
  simp only [M.bind_run]
  cases hx : x s with
  | ok a s1 =>
    rw [hx] at h
    obtain ⟨h1, lg, e⟩ := h
    rw [e]
    exact hf a s1.1.1 s1.1.2 s1.2 lg h1
  | panic s1 =>
    rw [hx] at h
    obtain ⟨h1, h2 | ⟨lg, e⟩⟩ := h
    · exact ⟨h1, .inl h2⟩
    · rw [e]; exact ⟨h1, .inr ⟨lg, rfl⟩⟩
  | abort => trivial
  | ub => rw [hx] at h; rw [show x' s' = .ub from h]; rfl
  | diverge => rw [hx] at h; rw [show x' s' = .diverge from h]; rfl

theorem own (x : M σ α) {c : σ} {t : τ} {lg lg' : List A} (hP : ∀ a c', x c = .ok a c' → P c' t) (hJ : J t) :
    Follows P J X (M.onFst (M.onFst x) ((c, t), lg)) (M.onFst x (c, lg')) := by
  simp only [M.onFst_run]
  cases hx : x c with
  | ok a c' => exact ⟨hP a c' hx, lg', rfl⟩
  | panic c' => exact ⟨hJ, .inr ⟨lg', rfl⟩⟩
  | abort => trivial
  | ub => rfl
  | diverge => rfl

theorem pure (a : α) {c : σ} {t : τ} {lg lg' : List A} (h : P c t) :
    Follows P J X ((Pure.pure a : M ((σ × τ) × List A) α) ((c, t), lg)) ((Pure.pure a : M (σ × List A) α) (c, lg')) := ⟨h, lg', rfl⟩

theorem panic {c : σ} {t : τ} {lg lg' : List A} (h : J t) :
    Follows P J X ((M.panic : M ((σ × τ) × List A) α) ((c, t), lg)) ((M.panic : M (σ × List A) α) (c, lg')) := ⟨h, .inr ⟨lg', rfl⟩⟩

theorem ite {p : Prop} [Decidable p] {x y : M ((σ × τ) × List A) α} {x' y' : M (σ × List A) α} {s : (σ × τ) × List A} {s' : σ × List A}
    (h1 : p → Follows P J X (x s) (x' s')) (h2 : ¬ p → Follows P J X (y s) (y' s')) :
    Follows P J X ((if p then x else y) s) ((if p then x' else y') s') := by
  split
  · exact h1 ‹_›
  · exact h2 ‹_›

theorem uadd {E : Env} {a b : Nat} {c : σ} {t : τ} {lg lg' : List A} (h : P c t) (hJ : J t) :
    Follows P J X (uadd E a b ((c, t), lg)) (uadd E a b (c, lg')) := by
  unfold Verif.uadd
  exact ite (fun _ => pure _ h) fun _ => ite (fun _ => panic hJ) fun _ => pure _ h

theorem usub {E : Env} {a b : Nat} {c : σ} {t : τ} {lg lg' : List A} (h : P c t) (hJ : J t) :
    Follows P J X (usub E a b ((c, t), lg)) (usub E a b (c, lg')) := by
  unfold Verif.usub
  exact ite (fun _ => pure _ h) fun _ => ite (fun _ => panic hJ) fun _ => pure _ h

theorem assert {p : Prop} [Decidable p] {c : σ} {t : τ} {lg lg' : List A} (h : P c t) (hJ : J t) :
    Follows P J X (M.assert p ((c, t), lg)) (M.assert p (c, lg')) := by
  unfold M.assert
  exact ite (fun _ => pure _ h) fun _ => panic hJ

variable {I : τ → Prop}

/-- Unwinding drops the iterator. -/
theorem unwind (ht : src.Tame I) {x : M ((σ × τ) × List A) α} {x' : M (σ × List A) α} {k : List A} {s : (σ × τ) × List A} {s' : σ × List A}
    (h : Follows P I X (x s) (x' s')) :
    Follows P (fun _ => True) X (M.onUnwind x src.close s) (M.onUnwind x' (dropSlice (fun _ => false) k) s') := by
  unfold M.onUnwind
  cases hx : x s with
  | panic s1 =>
    obtain ⟨⟨c, t⟩, lg⟩ := s1
    rw [hx] at h
    obtain ⟨h1, h2⟩ := h
    have hc := ht.close_sat h1 c lg
    simp only
    cases hy : src.close ((c, t), lg) with
    | ok u s2 =>
      rw [hy] at hc
      obtain ⟨⟨c2, t2⟩, lg2⟩ := s2
      simp only [Sat] at hc
      subst hc
      refine ⟨trivial, h2.imp id ?_⟩
      rintro ⟨lg', e⟩
      rw [e]
      exact ⟨lg' ++ k, by simp [dropSlice]⟩
    | panic _ => trivial
    | abort => trivial
    | ub => rw [hy] at hc; exact hc.elim
    | diverge => rw [hy] at hc; exact hc.elim
  | ok a s1 =>
    rw [hx] at h
    obtain ⟨h1, lg, e⟩ := h
    exact ⟨h1, lg, by rw [e]⟩
  | abort => trivial
  | ub => rw [hx] at h; simp only [Follows] at h ⊢; rw [h]
  | diverge => rw [hx] at h; simp only [Follows] at h ⊢; rw [h]

/-- The clean-up is attached on the program's side only. -/
theorem unwind_left (ht : src.Tame I) {x : M ((σ × τ) × List A) α} {o' : Out (σ × List A) α} {s : (σ × τ) × List A}
    (h : Follows P I X (x s) o') : Follows P (fun _ => True) X (M.onUnwind x src.close s) o' := by
  have := unwind ht (x' := fun _ : σ × List A => o') (k := []) (s' := (s.1.1, [])) h
  revert this
  unfold M.onUnwind
  cases o' <;> simp [dropSlice]

/-- Dropping the iterator at the end of the loop. -/
theorem close (ht : src.Tame I) {f : Unit → M ((σ × τ) × List A) β} {o' : Out (σ × List A) β} {c : σ} {t : τ} {lg : List A} (hi : I t) (hX : X c)
    (h : ∀ t' lg', Follows Q (fun _ => True) X (f () ((c, t'), lg')) o') : Follows Q (fun _ => True) X ((src.close >>= f) ((c, t), lg)) o' := by
  have hc := ht.close_sat hi c lg
  simp only [M.bind_run]
  cases hy : src.close ((c, t), lg) with
  | ok u s2 =>
    rw [hy] at hc
    obtain ⟨⟨c2, t2⟩, lg2⟩ := s2
    simp only [Sat] at hc
    subst hc
    exact h t2 lg2
  | panic s2 => rw [hy] at hc; simp only [Sat] at hc; exact ⟨trivial, .inl (by rw [hc]; exact hX)⟩
  | abort => trivial
  | ub => rw [hy] at hc; exact hc.elim
  | diverge => rw [hy] at hc; exact hc.elim

/-- The same specification of the container's side. -/
theorem sat {o : Out ((σ × τ) × List A) α} {o' : Out (σ × List A) α} (h : Follows P J X o o') {Q' : α → σ → Prop} {P' : σ → Prop}
    (h' : Sat o' (fun a s => Q' a s.1) (fun s => P' s.1) True) (hX : ∀ c, X c → P' c) :
    Sat o (fun a s => P s.1.1 s.1.2 ∧ Q' a s.1.1) (fun s => P' s.1.1) True := by
  cases o with
  | ok a s => obtain ⟨h1, lg, e⟩ := h; rw [e] at h'; exact ⟨h1, h'⟩
  | panic s =>
    obtain ⟨h1, h2 | ⟨lg, e⟩⟩ := h
    · exact hX _ h2
    · rw [e] at h'; exact h'
  | abort => trivial
  | ub => rw [show o' = .ub from h] at h'; exact h'
  | diverge => rw [show o' = .diverge from h] at h'; exact h'

/-- `len()`, asked while the container has `X`, on both sides: it says `n`, or the program panics or aborts. -/
theorem size (ht : src.Tame I) {n : Nat} {f : Nat → M ((σ × τ) × List A) β} {f' : Nat → M (σ × List A) β} {k : List A} {c : σ} {t t' : τ} {lg lg' : List A}
    (hl : Sat (src.len t) (fun m u => m = n ∧ u = t') I True) (hX : X c) (h : Follows Q (fun _ => True) X (f n ((c, t'), lg)) (f' n (c, lg'))) :
    Follows Q (fun _ => True) X ((M.onUnwind src.size src.close >>= f) ((c, t), lg))
      ((M.onUnwind (M.lenCall (some n)) (dropSlice (fun _ => false) k) >>= f') (c, lg')) := by
  rw [M.lenCall_some]
  simp only [M.bind_run, M.onUnwind, Source.size, M.onFst_run, M.onSnd_run]
  cases hx : src.len t with
  | ok m u =>
    rw [hx] at hl
    obtain ⟨rfl, rfl⟩ := hl
    exact h
  | panic u =>
    rw [hx] at hl
    have hc := ht.close_sat hl c lg
    simp only [Out.mapState_panic]
    cases hy : src.close ((c, u), lg) with
    | ok _ s2 =>
      rw [hy] at hc
      simp only [Sat] at hc
      exact ⟨trivial, .inl (by rw [hc]; exact hX)⟩
    | panic s2 => trivial
    | abort => trivial
    | ub => rw [hy] at hc; exact hc.elim
    | diverge => rw [hy] at hc; exact hc.elim
  | abort => trivial
  | ub => rw [hx] at hl; exact hl.elim
  | diverge => rw [hx] at hl; exact hl.elim

/-- Pulling the next item, against the event it produces. -/
theorem pull (ht : src.Tame I) {α : Type} {n : Nat} {f : Option A → M ((σ × τ) × List A) α} {g : It A → M (σ × List A) α} {c : σ} {t : τ} {lg lg' : List A} (hi : I t)
    (h0 : ∀ t', I t' → Follows P I X (f none ((c, t'), lg)) (g [] (c, lg')))
    (h1 : ∀ a t', I t' → Follows P I X (f (some a) ((c, t'), lg)) (g (.item a :: src.unroll n t') (c, lg')))
    (h2 : ∃ lg'', g [.panic] (c, lg') = .panic (c, lg'')) :
    Follows P I X ((src.pull >>= f) ((c, t), lg)) (g (src.unroll (n + 1) t) (c, lg')) := by
  have hn := ht.next t hi
  simp only [M.bind_run, Source.pull, M.onFst_run, M.onSnd_run, Source.unroll]
  cases hx : src.next t with
  | ok o t' =>
    rw [hx] at hn
    cases o with
    | none => exact h0 t' hn
    | some a => exact h1 a t' hn
  | panic t' => rw [hx] at hn; exact ⟨hn, .inr h2⟩
  | abort => trivial
  | ub => rw [hx] at hn; exact hn.elim
  | diverge => rw [hx] at hn; exact hn.elim

end Follows

theorem Source.size_says {α : Type} {n : Nat} {y : M ((σ × τ) × List A) Unit} {f : Nat → M ((σ × τ) × List A) α} {c : σ} {t t' : τ} {lg : List A}
    (he : src.len t = .ok n t') : (M.onUnwind src.size y >>= f) ((c, t), lg) = f n ((c, t'), lg) := by
  simp [M.onUnwind, Source.size, he]

/-- The state in which an iterator is after a call of `len()` that says `n`. -/
theorem Source.Says.after {I J : τ → Prop} {n : Nat} (h : src.Says I J n) {t : τ} (hj : J t) :
    ∃ t', J t' ∧ (src.Gave t [] t') ∧ Sat (src.len t) (fun m u => m = n ∧ u = t') I True := by
  have hl := h.len t hj
  cases hx : src.len t with
  | ok m u => rw [hx] at hl; exact ⟨u, hl.2, .len hx (.rest u), hl.1, rfl⟩
  | panic u => rw [hx] at hl; exact ⟨t, hj, .rest t, hl⟩
  | abort => exact ⟨t, hj, .rest t, trivial⟩
  | ub => rw [hx] at hl; exact hl.elim
  | diverge => rw [hx] at hl; exact hl.elim

theorem Source.Gave.trans {t t' t'' : τ} {xs ys : List A} (h : src.Gave t xs t') (h' : src.Gave t' ys t'') : src.Gave t (xs ++ ys) t'' := by
  induction h with
  | rest t => exact h'
  | len e _ ih => exact .len e (ih h')
  | item e _ ih => exact .item e (ih h')

namespace Chunk
variable {E : Env} {N : Nat} {c : Chunk A} {l : List A} {I J : τ → Prop}

theorem writeLoopBy_follows (ht : src.Tame I) {X : Chunk A → Prop} (hX : ∀ c m, X c → X { c with mem := m }) (n : Nat) : ∀ (w : Nat) {c : Chunk A} {t : τ} {lg lg' : List A},
    I t → X c → Follows (fun c t => I t ∧ X c) I X (writeLoopBy E N src n w ((c, t), lg)) (writeLoop E N (fun _ => false) n (src.unroll n t) w (c, lg')) := by
  induction n with
  | zero =>
    intro w c t lg lg' hi hx
    exact ⟨⟨hi, hx⟩, lg', by simp [writeLoop, dropSlice, Source.unroll, It.owned]⟩
  | succ n ih =>
    intro w c t lg lg' hi hx
    unfold writeLoopBy
    refine Follows.pull (g := fun it => writeLoop E N (fun _ => false) (n + 1) it w) ht hi ?_ ?_ ?_
    · exact fun t' hi' => Follows.pure _ ⟨hi', hx⟩
    · intro a t' hi'
      simp only [writeLoop]
      refine Follows.bind (P := fun c u => u = t' ∧ X c) (Follows.own _ ?_ hi') ?_
      · intro _ c' e
        refine ⟨rfl, ?_⟩
        unfold forceWrite at e
        simp [getMem, setMem, memWrite] at e
        split at e <;> simp at e
        subst e
        exact hX _ _ hx
      · rintro - c u lg lg' ⟨rfl, hx⟩
        refine Follows.bind (P := fun c v => v = u ∧ X c) (Follows.uadd ⟨rfl, hx⟩ hi') ?_
        rintro w c v lg lg' ⟨rfl, hx⟩
        exact ih w hi' hx
    · exact ⟨lg', by simp [writeLoop, M.onUnwind, dropSlice, It.owned]⟩

/-- The chunk looks empty. -/
def Blank (c : Chunk A) : Prop := c.left = 0 ∧ c.right = 0

theorem Blank.view (h : Blank c) : View E N c [] := (Rep.empty h.1 h.2 : Rep N c []).view E

theorem writeFromIterBy_follows (ht : src.Tame I) {n : Nat} (w : Nat) {c : Chunk A} {t t' : τ} {lg lg' : List A}
    (hl : Sat (src.len t) (fun m u => m = n ∧ u = t') I True) (hi : I t') :
    Follows (fun _ _ => True) (fun _ => True) Blank (writeFromIterBy E N src w ((c, t), lg))
      (writeFromIter E N (fun _ => false) w (some n) (src.unroll n t') (c, lg')) := by
  unfold writeFromIterBy writeFromIter
  refine Follows.bind (P := fun _ u => u = t) (Follows.own _ (fun _ _ _ => rfl) trivial) ?_
  rintro left c t lg lg' rfl
  refine Follows.bind (P := fun c u => u = t ∧ c.left = 0) (Follows.own _ ?_ trivial) ?_
  · intro _ c' e; unfold setLeft at e; cases e; exact ⟨rfl, rfl⟩
  rintro - c t lg lg' ⟨rfl, h0⟩
  refine Follows.bind (P := fun c u => u = t ∧ c.left = 0) (Follows.own _ ?_ trivial) ?_
  · intro _ c' e; unfold getRight at e; cases e; exact ⟨rfl, h0⟩
  rintro right c t lg lg' ⟨rfl, h0⟩
  refine Follows.bind (P := fun c u => u = t ∧ Blank c) (Follows.own _ ?_ trivial) ?_
  · intro _ c' e; unfold setRight at e; cases e; exact ⟨rfl, h0, rfl⟩
  rintro - c t lg lg' ⟨rfl, h0⟩
  refine Follows.size ht hl h0 ?_
  refine Follows.bind (P := fun c u => u = t' ∧ Blank c) (Follows.unwind ht (Follows.uadd ⟨rfl, h0⟩ hi)) ?_
  rintro expected c u lg lg' ⟨rfl, h0⟩
  refine Follows.bind (P := fun c u => I u ∧ Blank c) (Follows.unwind_left ht (writeLoopBy_follows ht (fun _ _ h => h) n w hi h0)) ?_
  rintro w' c u lg lg' ⟨hi, h0⟩
  refine Follows.close ht hi h0 fun t lg => ?_
  refine Follows.bind (P := fun _ _ => True) (Follows.assert trivial trivial) fun _ c t lg lg' _ => ?_
  refine Follows.bind (P := fun _ _ => True) (Follows.own _ (fun _ _ _ => trivial) trivial) fun _ c t lg lg' _ => ?_
  exact Follows.own _ (fun _ _ _ => trivial) trivial

theorem insertFromBy_follows (ht : src.Tame I) (hs : src.Says I J n) {t t' : τ} (hj' : J t') (he : src.len t = .ok n t') (i : Nat) {c : Chunk A} {lg : List A} :
    ∃ t2, src.Gave t' [] t2 ∧ Follows (fun _ _ => True) (fun _ => True) Blank (insertFromBy E N src i ((c, t), lg))
      (insertFrom E N (fun _ => false) i ⟨some n, some n, src.unroll n t2⟩ (c, lg)) := by
  obtain ⟨t2, hj2, hg, hl⟩ := hs.after hj'
  have hi2 := hs.tame _ hj2
  refine ⟨t2, hg, ?_⟩
  have own : ∀ {α : Type} (x : M (Chunk A) α) {c : Chunk A} {lg lg' : List A},
      Follows (fun _ u => u = t') (fun _ => True) Blank (M.onFst (M.onFst x) ((c, t'), lg)) (M.onFst x (c, lg')) :=
    fun x _ _ _ => Follows.own x (fun _ _ _ => rfl) trivial
  have own' : ∀ {α : Type} (x : M (Chunk A) α) {c : Chunk A} {t : τ} {lg lg' : List A},
      Follows (fun _ _ => True) (fun _ => True) Blank (M.onFst (M.onFst x) ((c, t), lg)) (M.onFst x (c, lg')) :=
    fun x _ _ _ _ => Follows.own x (fun _ _ _ => trivial) trivial
  have add : ∀ {a b : Nat} {c : Chunk A} {lg lg' : List A},
      Follows (fun _ u => u = t') (fun _ => True) Blank (uadd E a b ((c, t'), lg)) (uadd E a b (c, lg')) := Follows.uadd rfl trivial
  have sub : ∀ {a b : Nat} {c : Chunk A} {lg lg' : List A},
      Follows (fun _ u => u = t') (fun _ => True) Blank (usub E a b ((c, t'), lg)) (usub E a b (c, lg')) := Follows.usub rfl trivial
  have wr : ∀ {w : Nat} {c : Chunk A} {lg lg' : List A}, Follows (fun _ _ => True) (fun _ => True) Blank (writeFromIterBy E N src w ((c, t'), lg))
      (writeFromIter E N (fun _ => false) w (some n) (src.unroll n t2) (c, lg')) := writeFromIterBy_follows ht _ hl hi2
  unfold insertFromBy insertFrom
  rw [M.lenCall_some, src.size_says he]
  refine Follows.bind (P := fun _ u => u = t') (Follows.unwind ht (Follows.own _ (fun _ _ _ => rfl) (hs.tame _ hj'))) ?_
  rintro - c t lg lg' rfl
  refine Follows.bind (own _) ?_
  rintro left c t lg lg' rfl
  refine Follows.bind add ?_
  rintro realIndex c t lg lg' rfl
  refine Follows.bind (own _) ?_
  rintro right c t lg lg' rfl
  refine Follows.bind sub ?_
  rintro rightSize c t lg lg' rfl
  refine Follows.bind (own _) ?_
  rintro right c t lg lg' rfl
  refine Follows.bind (own _) ?_
  rintro left c t lg lg' rfl
  refine Follows.ite (fun _ => ?_) (fun _ => ?_)
  · refine Follows.bind (own _) ?_
    rintro - c t lg lg' rfl
    refine Follows.bind sub ?_
    rintro w c t lg lg' rfl
    exact Follows.bind wr fun _ _ _ _ _ _ => own' _
  refine Follows.bind (own _) ?_
  rintro left c t lg lg' rfl
  refine Follows.bind (own _) ?_
  rintro right c t lg lg' rfl
  refine Follows.bind add ?_
  rintro sum c t lg lg' rfl
  refine Follows.ite (fun _ => ?_) (fun _ => ?_)
  · refine Follows.bind (own _) ?_
    rintro - c t lg lg' rfl
    exact Follows.bind wr fun _ _ _ _ _ _ => own' _
  · refine Follows.bind (own _) ?_
    rintro - c t lg lg' rfl
    exact Follows.bind wr fun _ _ _ _ _ _ => Follows.bind (own' _) fun _ _ _ _ _ _ => Follows.bind (own' _) fun _ _ _ _ _ _ => own' _

/-- C108. `insert_from` on a chunk, with any iterator program whose `len()` is stable: if it returns, it inserted, at the index, exactly as many items
as announced, all of them handed out by the iterator; if it panics, the chunk is unchanged or empty.  There is no undefined behaviour and no endless loop. -/
theorem C108_insert_from (hN : 2 * N < E.W) (h : View E N c l) (ht : src.Tame I) {n : Nat} (hs : src.Says I J n) {t : τ} (hj : J t) (i : Nat) (log : List A)
    (hn : E.debug = true ∨ N + n < E.W) :
    Sat (insertFromBy E N src i ((c, t), log))
      (fun _ s => ∃ xs t', src.Gave t xs t' ∧ xs.length = n ∧ l.length + n ≤ N ∧ i ≤ l.length ∧ View E N s.1.1 (l.take i ++ xs ++ l.drop i))
      (fun s => View E N s.1.1 l ∨ View E N s.1.1 []) True := by
  have hl := hs.len t hj
  cases hx : src.len t with
  | ok m t' =>
    rw [hx] at hl
    obtain ⟨rfl, hj'⟩ := hl
    obtain ⟨t2, hg, hf⟩ := insertFromBy_follows (E := E) (N := N) ht hs hj' hx i (c := c) (lg := log)
    have hr := insertFrom_ref hN (fun _ => false) i m (src.unroll m t2) (h.rep hN) log hn
    obtain ⟨t3, hg3⟩ := src.unroll_gave m t2
    refine (hf.sat (Q' := fun _ c' => ∃ xs t', src.Gave t xs t' ∧ xs.length = m ∧ l.length + m ≤ N ∧ i ≤ l.length ∧ View E N c' (l.take i ++ xs ++ l.drop i))
      (P' := fun c' => View E N c' l ∨ View E N c' []) ?_ fun c hc => .inr hc.view).imp (fun _ _ h => h.2) (fun _ h => h) id
    have hu := src.unroll_length m t2
    by_cases hc : l.length + m ≤ N ∧ i ≤ l.length
    · by_cases hk : m ≤ (src.unroll m t2).items.length
      · rw [specInsertFrom_ok hc hk (by simp)] at hr
        obtain ⟨s', e, h', -⟩ := hr.of_ok rfl
        rw [e]
        rw [List.take_of_length_le hu] at h'
        exact ⟨_, t3, .len hx (hg.trans hg3), by rw [List.nil_append]; omega, hc.1, hc.2, h'.view E⟩
      · rw [specInsertFrom_short hc (by omega), Spec.panicDropping, if_neg (by simp)] at hr
        obtain ⟨s', e, h', -⟩ := hr.of_panic rfl
        rw [e]
        exact .inr (h'.view E)
    · rw [specInsertFrom_refuse hc, Spec.panicDropping, if_neg (by simp)] at hr
      obtain ⟨s', e, h', -⟩ := hr.of_panic rfl
      rw [e]
      exact .inl (h'.view E)
  | panic u =>
    rw [hx] at hl
    have hc := ht.close_sat hl c log
    unfold insertFromBy
    apply Sat.bind
    apply Sat.onUnwind
    simp only [Source.size, M.onFst_run, M.onSnd_run, hx]
    exact hc.imp (fun _ s e => .inl (by rw [e]; exact h)) (fun _ _ => trivial) id
  | abort => simp only [insertFromBy, M.bind_run, M.onUnwind, Source.size, M.onFst_run, M.onSnd_run, hx]; trivial
  | ub => rw [hx] at hl; exact hl.elim
  | diverge => rw [hx] at hl; exact hl.elim

/-- C108. `extend` on a chunk, with any iterator program: afterwards, whether it returns or panics, the chunk holds what it held, followed by items
handed out by the iterator. -/
theorem C108_extend (hN : 2 * N < E.W) (h : View E N c l) (ht : src.Tame I) {t : τ} (hi : I t) (log : List A) {fuel : Nat} (hf : N < fuel) :
    Sat (extendBy E N src dp fuel ((c, t), log)) (fun _ s => ∃ xs t', src.Gave t xs t' ∧ View E N s.1.1 (l ++ xs))
      (fun s => ∃ xs t', src.Gave t xs t' ∧ View E N s.1.1 (l ++ xs)) True :=
  ht.pour_sat (pushContract hN dp) log h (h.rep hN).length_le hi (by omega)

theorem drop_sat (hN : 2 * N < E.W) (dp : A → Bool) : ∀ s l log, View E N s l → Sat (drop E N dp (s, log)) (fun _ _ => True) (fun _ => True) True := by
  intro s l log h
  exact Sat.imp (drop_ref dp (h.rep hN) log) (fun _ _ _ => trivial) (fun _ _ => trivial) fun _ => trivial

/-- C108. `from_iter` (`collect`) into a chunk, with any iterator program. -/
theorem C108_from_iter (hN : 2 * N < E.W) (ht : src.Tame I) {t : τ} (hi : I t) (log : List A) {fuel : Nat} (hf : N < fuel) :
    Sat (fromIterBy E N src dp fuel (t, log)) (fun c _ => ∃ xs t', src.Gave t xs t' ∧ View E N c xs) (fun _ => True) True :=
  ht.gather_sat (pushContract hN dp) ((Rep.empty rfl rfl : Rep N new []).view E) (drop_sat hN dp) log hi hf

theorem collectLoopBy_sat (hN : 2 * N < E.W) (ht : src.Tame I) (n : Nat) : ∀ {c : Chunk A} {l : List A} {t : τ} (log : List A), View E N c l → I t →
    Sat (collectLoopBy E N src dp n ((c, t), log)) (fun _ s => I s.1.2 ∧ ∃ xs, src.Gave t xs s.1.2 ∧ xs.length = n ∧ View E N s.1.1 (l ++ xs))
      (fun s => I s.1.2 ∧ ∃ l', View E N s.1.1 l') True := by
  induction n with
  | zero => intro c l t log h hi; exact ⟨hi, [], .rest t, rfl, by simpa using h⟩
  | succ n ih =>
    intro c l t log h hi
    have hn := ht.next t hi
    unfold collectLoopBy
    simp only [M.bind_run, Source.pull, M.onFst_run, M.onSnd_run]
    cases hx : src.next t with
    | panic t' => rw [hx] at hn; exact ⟨hn, l, h⟩
    | abort => trivial
    | ub => rw [hx] at hn; exact hn
    | diverge => rw [hx] at hn; exact hn
    | ok o t' =>
      rw [hx] at hn
      cases o with
      | none => exact ⟨hn, l, h⟩
      | some a =>
        simp only [Out.mapState_ok, Out.andThen_ok, M.bind_run, M.atFst]
        have hc := pushContract hN dp c l h a log
        split at hc
        · obtain ⟨⟨s', log'⟩, e, h', rfl⟩ := hc.of_ok rfl
          rw [e]
          refine (ih log' h' hn).imp ?_ (fun _ h => h) id
          rintro - s'' ⟨h1, xs, h2, h3, h4⟩
          exact ⟨h1, a :: xs, .item hx h2, by simpa using h3, by simpa using h4⟩
        · unfold Spec.panicDropping at hc
          split at hc
          · rw [hc.of_abort rfl]; trivial
          · obtain ⟨⟨s', log'⟩, e, h', -⟩ := hc.of_panic rfl
            rw [e]
            exact ⟨hn, l, h'⟩

/-- C108. `collect_from` into a chunk, with any iterator program: if it returns, the chunk holds as many items as asked for, and the iterator has handed
out exactly those. -/
theorem C108_collect_from (hN : 2 * N < E.W) (ht : src.Tame I) {t : τ} (hi : I t) (n : Nat) (log : List A) :
    Sat (collectFromBy E N src dp n (t, log)) (fun c s => ∃ xs, src.Gave t xs s.1 ∧ xs.length = n ∧ View E N c xs) (fun _ => True) True := by
  have hx := collectLoopBy_sat (dp := dp) hN ht n log ((Rep.empty rfl rfl : Rep N new []).view E) hi
  unfold collectFromBy
  apply Sat.bind
  apply Sat.withLocal
  refine hx.imp ?_ ?_ id
  · rintro - s' ⟨-, xs, h1, h2, h3⟩; exact ⟨xs, h1, h2, by simpa using h3⟩
  · rintro s' ⟨-, l', h⟩
    have := drop_sat hN dp _ _ s'.2 h
    unfold M.atFst
    cases hd : drop E N dp (s'.1.1, s'.2) <;> rw [hd] at this <;> simp_all [Sat]

end Chunk

namespace Ring
variable {E : Env} {N : Nat} {c : Ring A} {l : List A} {I J : τ → Prop}

/-- The buffer looks empty. -/
def Blank (N : Nat) (c : Ring A) : Prop := c.length = 0 ∧ c.origin < N

theorem Blank.view (hW : 2 * N < E.W) (h : Blank N c) : View E N c [] := by
  refine Rep.view hW ?_
  constructor <;> simp [h.1, h.2]

theorem addLoop_follows {P : σ → τ → Prop} {X : σ → Prop} (f : Nat) : ∀ (r : Nat) {c : σ} {t : τ} {lg lg' : List A}, P c t → J t →
    Follows P J X (addLoop E N f r ((c, t), lg)) (addLoop E N f r (c, lg')) := by
  induction f with
  | zero => intro r c t lg lg' _ _; rfl
  | succ f ih =>
    intro r c t lg lg' hp hj
    unfold addLoop
    refine Follows.ite (fun _ => ?_) fun _ => Follows.pure _ hp
    refine Follows.bind (P := fun c' t' => c' = c ∧ t' = t) (Follows.usub ⟨rfl, rfl⟩ hj) ?_
    rintro _ _ _ _ _ ⟨rfl, rfl⟩
    exact ih _ hp hj

theorem rawAddAssign_follows {P : σ → τ → Prop} {X : σ → Prop} {i k : Nat} {c : σ} {t : τ} {lg lg' : List A} (hp : P c t) (hj : J t) :
    Follows P J X (rawAddAssign E N i k ((c, t), lg)) (rawAddAssign E N i k (c, lg')) := by
  unfold rawAddAssign
  refine Follows.bind (P := fun c' t' => c' = c ∧ t' = t) (Follows.uadd ⟨rfl, rfl⟩ hj) ?_
  rintro _ _ _ _ _ ⟨rfl, rfl⟩
  exact addLoop_follows _ _ hp hj

theorem writeLoopBy_follows (ht : src.Tame I) (n : Nat) : ∀ (p k : Nat) {c : Ring A} {t : τ} {lg lg' : List A},
    I t → Blank N c → Follows (fun c t => I t ∧ Blank N c) I (Blank N) (writeLoopBy E N src n p k ((c, t), lg))
      (writeLoop E N (fun _ => false) n (src.unroll n t) p k (c, lg')) := by
  induction n with
  | zero =>
    intro p k c t lg lg' hi hx
    exact ⟨⟨hi, hx⟩, lg', by simp [writeLoop, dropSlice, Source.unroll, It.owned]⟩
  | succ n ih =>
    intro p k c t lg lg' hi hx
    unfold writeLoopBy
    refine Follows.pull (g := fun it => writeLoop E N (fun _ => false) (n + 1) it p k) ht hi ?_ ?_ ?_
    · exact fun t' hi' => Follows.pure _ ⟨hi', hx⟩
    · intro a t' hi'
      simp only [writeLoop]
      refine Follows.bind (P := fun c u => u = t' ∧ Blank N c) (Follows.own _ ?_ hi') ?_
      · intro _ c' e
        refine ⟨rfl, ?_⟩
        unfold forceWrite at e
        simp [getMem, setMem, memWrite] at e
        split at e <;> simp at e
        · rw [debugAssert_ok ‹_›] at e; cases e; exact hx
        · unfold M.debugAssert at e; simp at e; split at e <;> simp_all
      · rintro - c u lg lg' ⟨rfl, hx⟩
        refine Follows.bind (P := fun c v => v = u ∧ Blank N c) (rawAddAssign_follows ⟨rfl, hx⟩ hi') ?_
        rintro p c v lg lg' ⟨rfl, hx⟩
        refine Follows.bind (P := fun c u => u = v ∧ Blank N c) (Follows.uadd ⟨rfl, hx⟩ hi') ?_
        rintro k c u lg lg' ⟨rfl, hx⟩
        exact ih p k hi' hx
    · exact ⟨lg', by simp [writeLoop, M.onUnwind, dropSlice, It.owned]⟩

theorem fillGapBy_follows (hW : 2 * N < E.W) (ht : src.Tame I) {n : Nat} {i : Nat} (hin : i ≤ N) {c : Ring A} {t : τ} {lg lg' : List A} (hi : I t) (ho : c.origin < N) :
    Follows (fun _ _ => True) (fun _ => True) (Blank N) (fillGapBy E N src i n ((c, t), lg)) (fillGap E N (fun _ => false) i n (src.unroll n t) (c, lg')) := by
  unfold fillGapBy fillGap
  refine Follows.bind (P := fun c u => u = t ∧ c.origin < N) (Follows.own _ ?_ trivial) ?_
  · intro _ c' e
    have hx : Sat (raw E N i c) (fun _ c' => c' = c) (fun _ => False) False := by
      unfold raw
      vc
    rw [e] at hx
    exact ⟨rfl, (show c' = c from hx) ▸ ho⟩
  rintro p c t lg lg' ⟨rfl, ho⟩
  refine Follows.bind (P := fun c u => u = t ∧ c.origin < N) (Follows.own _ ?_ trivial) ?_
  · intro _ c' e; unfold getLen at e; cases e; exact ⟨rfl, ho⟩
  rintro length c t lg lg' ⟨rfl, ho⟩
  refine Follows.bind (P := fun c u => u = t ∧ Blank N c) (Follows.own _ ?_ trivial) ?_
  · intro _ c' e; unfold setLen at e; cases e; exact ⟨rfl, rfl, ho⟩
  rintro - c t lg lg' ⟨rfl, h0⟩
  refine Follows.bind (P := fun c u => I u ∧ Blank N c) (Follows.unwind_left ht (writeLoopBy_follows ht n p 0 hi h0)) ?_
  rintro inserted c u lg lg' ⟨hi, h0⟩
  refine Follows.close ht hi h0 fun t lg => ?_
  refine Follows.bind (P := fun _ _ => True) (Follows.assert trivial trivial) fun _ c t lg lg' _ => ?_
  exact Follows.own _ (fun _ _ _ => trivial) trivial

theorem fillGapBy_sat (hW : 2 * N < E.W) (ht : src.Tame I) (i n : Nat) {c : Ring A} {t : τ} {l log : List A} (hi : I t) 
    (ho : c.origin < N) (hn : l.length + n ≤ N) (hil : i ≤ l.length) (hl : c.length = l.length + n)
    (q1 : ∀ j, j < i → lm N c.origin c.mem j = l[j]?)
    (q2 : ∀ j, i + n ≤ j → j < l.length + n → lm N c.origin c.mem j = l[j - n]?) :
    Sat (fillGapBy E N src i n ((c, t), log)) (fun _ s => ∃ xs t', src.Gave t xs t' ∧ xs.length = n ∧ View E N s.1.1 (l.take i ++ xs ++ l.drop i))
      (fun s => View E N s.1.1 []) True := by
  have hr := fillGap_sat hW (fun _ => false) i n (src.unroll n t) c l log ho hn hil hl q1 q2
  have hf := fillGapBy_follows (E := E) (N := N) hW ht (n := n) (i := i) (by omega) (lg := log) (lg' := log) hi ho
  refine (hf.sat (Q' := fun _ c' => ∃ xs t', src.Gave t xs t' ∧ xs.length = n ∧ View E N c' (l.take i ++ xs ++ l.drop i))
    (P' := fun c' => View E N c' []) ?_ fun c hc => hc.view hW).imp (fun _ _ h => h.2) (fun _ h => h) id
  have hu := src.unroll_length n t
  obtain ⟨t3, hg3⟩ := src.unroll_gave n t
  by_cases hk : n ≤ (src.unroll n t).items.length
  · rw [Chunk.specInsertFrom_ok ⟨hn, hil⟩ hk (by simp)] at hr
    obtain ⟨s', e, h', -⟩ := hr.of_ok rfl
    rw [e]
    rw [List.take_of_length_le hu] at h'
    exact ⟨_, t3, hg3, by omega, h'.view hW⟩
  · rw [Chunk.specInsertFrom_short ⟨hn, hil⟩ (by omega), Spec.panicDropping, if_neg (by simp)] at hr
    obtain ⟨s', e, h', -⟩ := hr.of_panic rfl
    rw [e]
    exact h'.view hW

/-- C108. `insert_from` on a buffer, with any iterator program: if it returns, it inserted, at the index, items handed out by the iterator - exactly as many
as announced, unless the index is the end, where (finding C32) the call takes all there are; if it panics, the buffer is unchanged, or empty, or (at the end)
has some of the iterator's items appended.  There is no undefined behaviour and no endless loop. -/
theorem C108_insert_from (hW : 2 * N < E.W) (h : View E N c l) (ht : src.Tame I) {n : Nat} (hs : src.Says I J n) {t : τ} (hj : J t) (i : Nat) (log : List A)
    (hn : E.debug = true ∨ N + n < E.W) {fuel : Nat} (hf : N < fuel) :
    Sat (insertFromBy E N src dp i fuel ((c, t), log))
      (fun _ s => ∃ xs t', src.Gave t xs t' ∧ (xs.length = n ∨ i = l.length) ∧ l.length + n ≤ N ∧ i ≤ l.length ∧ View E N s.1.1 (l.take i ++ xs ++ l.drop i))
      (fun s => View E N s.1.1 l ∨ View E N s.1.1 [] ∨ i = l.length ∧ ∃ xs t', src.Gave t xs t' ∧ View E N s.1.1 (l ++ xs)) True := by
  have hl := hs.len t hj
  have hr := h.rep hW
  cases hx : src.len t with
  | ok m t' =>
    rw [hx] at hl
    obtain ⟨rfl, hj'⟩ := hl
    have hi' := hs.tame _ hj'
    unfold insertFromBy
    rw [src.size_says hx]
    by_cases hc : l.length + m ≤ N ∧ i ≤ l.length
    · have hck := checks_pass (E := E) hr hW hc.1 hc.2
      have hlen := getLen_eq hr
      rw [M.bind_run]
      simp only [M.onUnwind, M.onFst_run, hck, Out.mapState_ok, Out.andThen_ok]
      rw [M.bind_run]
      simp only [M.onFst_run, hlen, Out.mapState_ok, Out.andThen_ok]
      by_cases he : i = l.length
      · rw [if_pos he]
        refine (ht.pour_sat (pushContract hW dp) log h hr.length_le hi' (by omega)).imp ?_ ?_ id
        · rintro - s ⟨xs, t', hg, hv⟩
          exact ⟨xs, t', .len hx hg, .inr he, hc.1, hc.2, by simpa [he] using hv⟩
        · rintro s ⟨xs, t', hg, hv⟩
          exact .inr (.inr ⟨he, xs, t', .len hx hg, hv⟩)
      · rw [if_neg he]
        have fin : ∀ c', c'.origin < N → c'.length = l.length + m → (∀ j, j < i → lm N c'.origin c'.mem j = l[j]?) →
            (∀ j, i + m ≤ j → j < l.length + m → lm N c'.origin c'.mem j = l[j - m]?) →
            Sat (fillGapBy E N src i m ((c', t'), log))
              (fun _ s => ∃ xs t', src.Gave t xs t' ∧ (xs.length = m ∨ i = l.length) ∧ l.length + m ≤ N ∧ i ≤ l.length ∧ View E N s.1.1 (l.take i ++ xs ++ l.drop i))
              (fun s => View E N s.1.1 l ∨ View E N s.1.1 [] ∨ i = l.length ∧ ∃ xs t', src.Gave t xs t' ∧ View E N s.1.1 (l ++ xs)) True := by
          intro c' a1 a2 a3 a4
          refine (fillGapBy_sat hW ht i m hi' a1 hc.1 hc.2 a2 a3 a4).imp ?_ (fun s h => .inr (.inl h)) id
          rintro - s ⟨xs, t', hg, h1, h2⟩
          exact ⟨xs, t', .len hx hg, .inl h1, hc.1, hc.2, h2⟩
        apply Sat.bind
        apply Sat.onFst
        apply Sat.onFst
        rw [hlen]
        refine Sat.ok ?_
        vc
        · refine sat_shiftRight hW hr (i := i) (n := m) (by omega) (by omega) ?_
          intro c' a1 a2 a3 a4 _
          exact fin c' a1 a2 a3 a4
        · refine sat_shiftLeft hW hr (i := i) (n := m) (by omega) (by omega) ?_
          intro c' a1 a2 a3 a4 _
          exact fin c' a1 a2 a3 a4
    · have hck := checks_refuse hr hn (i := i) (by omega)
      apply Sat.bind
      apply Sat.onUnwind
      simp only [M.onFst_run, hck]
      exact (ht.close_sat hi' c log).imp (fun _ s e => .inl (by rw [e]; exact h)) (fun _ _ => trivial) id
  | panic u =>
    rw [hx] at hl
    have hc := ht.close_sat hl c log
    unfold insertFromBy
    apply Sat.bind
    apply Sat.onUnwind
    simp only [Source.size, M.onFst_run, M.onSnd_run, hx]
    exact hc.imp (fun _ s e => .inl (by rw [e]; exact h)) (fun _ _ => trivial) id
  | abort => simp only [insertFromBy, M.bind_run, M.onUnwind, Source.size, M.onFst_run, M.onSnd_run, hx]; trivial
  | ub => rw [hx] at hl; exact hl.elim
  | diverge => rw [hx] at hl; exact hl.elim

/-- C108. `extend` on a buffer, with any iterator program: afterwards, whether it returns or panics, the buffer holds what it held, followed by items
handed out by the iterator. -/
theorem C108_extend (hW : 2 * N < E.W) (h : View E N c l) (ht : src.Tame I) {t : τ} (hi : I t) (log : List A) {fuel : Nat} (hf : N < fuel) :
    Sat (extendBy E N src dp fuel ((c, t), log)) (fun _ s => ∃ xs t', src.Gave t xs t' ∧ View E N s.1.1 (l ++ xs))
      (fun s => ∃ xs t', src.Gave t xs t' ∧ View E N s.1.1 (l ++ xs)) True :=
  ht.pour_sat (pushContract hW dp) log h (h.rep hW).length_le hi (by omega)

theorem drop_sat (hW : 2 * N < E.W) (dp : A → Bool) : ∀ s l log, View E N s l → Sat (drop E N dp (s, log)) (fun _ _ => True) (fun _ => True) True := by
  intro s l log h
  exact Sat.imp (drop_ref hW dp (h.rep hW) log) (fun _ _ _ => trivial) (fun _ _ => trivial) fun _ => trivial

/-- C108. `from_iter` (`collect`) into a buffer, with any iterator program. -/
theorem C108_from_iter (hN : 0 < N) (hW : 2 * N < E.W) (ht : src.Tame I) {t : τ} (hi : I t) (log : List A) {fuel : Nat} (hf : N < fuel) :
    Sat (fromIterBy E N src dp fuel (t, log)) (fun c _ => ∃ xs t', src.Gave t xs t' ∧ View E N c xs) (fun _ => True) True := by
  have e : fromIterBy E N src dp fuel (t, log) = src.gather ⟨0, 0, Mem.uninit⟩ (pushBackOwned E N dp) (drop E N dp) fuel (t, log) := by
    simp [fromIterBy, M.onUnwind, new_run hN]
  rw [e]
  exact ht.gather_sat (pushContract hW dp) ((Rep.empty hN : Rep N ⟨0, 0, Mem.uninit⟩ []).view hW) (drop_sat hW dp) log hi hf

theorem takeLoopBy_sat (hW : 2 * N < E.W) (ht : src.Tame I) (n : Nat) : ∀ {c : Ring A} {l : List A} {t : τ} (log : List A), View E N c l → I t →
    Sat (takeLoopBy E N src dp n ((c, t), log)) (fun _ s => I s.1.2 ∧ ∃ xs, xs.length ≤ n ∧ View E N s.1.1 (l ++ xs) ∧ (xs.length = n → src.Gave t xs s.1.2))
      (fun s => I s.1.2 ∧ ∃ l', View E N s.1.1 l') True := by
  induction n with
  | zero => intro c l t log h hi; exact ⟨hi, [], Nat.le_refl _, by simpa using h, fun _ => .rest t⟩
  | succ n ih =>
    intro c l t log h hi
    have hn := ht.next t hi
    unfold takeLoopBy
    simp only [M.bind_run, Source.pull, M.onFst_run, M.onSnd_run]
    cases hx : src.next t with
    | panic t' => rw [hx] at hn; exact ⟨hn, l, h⟩
    | abort => trivial
    | ub => rw [hx] at hn; exact hn
    | diverge => rw [hx] at hn; exact hn
    | ok o t' =>
      rw [hx] at hn
      cases o with
      | none => exact ⟨hn, [], Nat.zero_le _, by simpa using h, fun h => absurd h (by simp)⟩
      | some a =>
        simp only [Out.mapState_ok, Out.andThen_ok, M.bind_run, M.atFst]
        have hc := pushContract hW dp c l h a log
        split at hc
        · obtain ⟨⟨s', log'⟩, e, h', rfl⟩ := hc.of_ok rfl
          rw [e]
          refine (ih log' h' hn).imp ?_ (fun _ h => h) id
          rintro - s'' ⟨h1, xs, h2, h3, h4⟩
          exact ⟨h1, a :: xs, by simpa using h2, by simpa using h3, fun h => .item hx (h4 (by simpa using h))⟩
        · unfold Spec.panicDropping at hc
          split at hc
          · rw [hc.of_abort rfl]; trivial
          · obtain ⟨⟨s', log'⟩, e, h', -⟩ := hc.of_panic rfl
            rw [e]
            exact ⟨hn, l, h'⟩

/-- C108. `collect_from` into a buffer, with any iterator program: if it returns, the buffer holds as many items as asked for, and the iterator has handed
out exactly those. -/
theorem C108_collect_from (hN : 0 < N) (hW : 2 * N < E.W) (ht : src.Tame I) {t : τ} (hi : I t) (n : Nat) (log : List A) :
    Sat (collectFromBy E N src dp n (t, log)) (fun c s => ∃ xs, src.Gave t xs s.1 ∧ xs.length = n ∧ View E N c xs) (fun _ => True) True := by
  have hx := takeLoopBy_sat (dp := dp) hW ht n log ((Rep.empty hN : Rep N ⟨0, 0, Mem.uninit⟩ []).view hW) hi
  have dr : ∀ (s : (Ring A × τ) × List A) l, View E N s.1.1 l → Sat (M.atFst (drop E N dp) s) (fun _ _ => True) (fun _ => True) True := by
    intro s' l h
    have := drop_sat hW dp _ _ s'.2 h
    unfold M.atFst
    cases hd : drop E N dp (s'.1.1, s'.2) <;> rw [hd] at this <;> simp_all [Sat]
  unfold collectFromBy
  simp only [M.bind_run, new_run hN, Out.andThen_ok]
  apply Sat.bind (x := M.withLocal _ _ _) (f := fun r => (pure r.2 : M (τ × List A) (Ring A)))
  apply Sat.withLocal
  apply Sat.bind
  refine hx.imp ?_ ?_ id
  · rintro - ⟨⟨c, t'⟩, lg⟩ ⟨-, xs, h1, h2, h3⟩
    have hl := getLen_eq (h2.rep hW)
    simp only [M.bind_run, M.onFst_run, hl, Out.mapState_ok, Out.andThen_ok]
    apply Sat.panicIf
    · intro _; exact dr _ _ h2
    · intro hlt
      simp only [List.nil_append] at hlt h2
      exact ⟨xs, h3 (by omega), by omega, h2⟩
  · rintro s' ⟨-, l', h⟩; exact dr _ _ h

end Ring

namespace Inline
variable [DecidableEq A] {E : Env} {L : Layout A} {dp' : A → Bool} {cl : A → Option A} {s : Inline A} {l : List A} {I : τ → Prop}

/-- C108. `extend` on an inline array, with any iterator program. -/
theorem C108_extend (hv : L.Valid E) (hr : Reachable E L dp' cl s) (h : View E L s l) (ht : src.Tame I) {t : τ} (hi : I t) (log : List A) {fuel : Nat}
    (hf : Inline.cap E L < fuel) : Sat (extendBy E L src dp fuel ((s, t), log)) (fun _ s => ∃ xs t', src.Gave t xs t' ∧ View E L s.1.1 (l ++ xs))
      (fun s => ∃ xs t', src.Gave t xs t' ∧ View E L s.1.1 (l ++ xs)) True := by
  have hR := hr.rep_of_view hv h
  refine (ht.pour_sat (pushContract hv dp) log hR hR.le hi (by omega)).imp ?_ ?_ id
  · rintro - s ⟨xs, t', hg, h⟩; exact ⟨xs, t', hg, h.view hv⟩
  · rintro s ⟨xs, t', hg, h⟩; exact ⟨xs, t', hg, h.view hv⟩

/-- C108. `from_iter` (`collect`) into an inline array, with any iterator program. -/
theorem C108_from_iter (hv : L.Valid E) (j : Nat) (ht : src.Tame I) {t : τ} (hi : I t) (log : List A) {fuel : Nat} (hf : Inline.cap E L < fuel) :
    Sat (fromIterBy E L src dp j fuel (t, log)) (fun c _ => ∃ xs t', src.Gave t xs t' ∧ View E L c xs) (fun _ => True) True := by
  have hn := new_ref hv j
  unfold fromIterBy
  apply Sat.bind
  apply Sat.onUnwind
  unfold make
  cases hx : new E L j () with
  | ok c u =>
    have hr : Rep E L c [] := by
      rw [hx] at hn
      split at hn
      · obtain ⟨_, _, e, h, -⟩ := RefV.of_ok hn rfl
        cases e; exact h
      · simp [RefV, Sat] at hn
    simp only [Out.mapState_ok]
    refine Sat.ok ?_
    refine (ht.gather_sat (pushContract hv dp) hr ?_ log hi hf).imp ?_ (fun _ _ => trivial) id
    · intro s l log h
      exact Sat.imp (drop_ref hv h dp log) (fun _ _ _ => trivial) (fun _ _ => trivial) fun _ => trivial
    · rintro c - ⟨xs, t', hg, h⟩; exact ⟨xs, t', hg, h.view hv⟩
  | panic u => exact ht.drop t log hi
  | abort => trivial
  | ub => rw [hx] at hn; exact hn.elim
  | diverge => rw [hx] at hn; exact hn.elim

end Inline

/-! ### C108 is not vacuous -/

open Chunk (dbg64 rel64 edge)

/-- An iterator that counts its calls, panics in the second one, hands out 100, 102, 103, ..., always says its length is two, and panics when it is
dropped after an odd number of calls. -/
def moody : Source Nat Nat where
  len := pure 2
  next := fun k => if k = 1 then .panic (k + 1) else .ok (some (100 + k)) (k + 1)
  drop := fun s => if s.1 % 2 = 1 then .panic s else .ok () s

theorem moody_tame : moody.Tame (fun _ => True) where
  next t _ := by unfold moody; simp only; split <;> trivial
  drop t log _ := by unfold moody; simp only; split <;> trivial
theorem moody_says : moody.Says (fun _ => True) (fun _ => True) 2 := ⟨fun _ _ => trivial, fun _ _ => ⟨rfl, trivial⟩⟩

/-- A chunk of five with two items at its right edge. -/
def pair : Chunk Nat := ⟨3, 5, (Mem.uninit.put 3 1).put 4 2⟩
theorem pair_view : Chunk.View dbg64 5 pair [1, 2] ∧ Chunk.View rel64 5 pair [1, 2] := ⟨rfl, rfl⟩

/-- Whether the call returned (or panicked), and what the chunk then holds. -/
def held (E : Env) (N : Nat) : Out ((Chunk Nat × Nat) × List Nat) Unit → Option (Bool × List Nat)
  | .ok _ s => match Chunk.asSlice E N s.1.1 with | .ok l _ => some (true, l) | _ => none
  | .panic s => match Chunk.asSlice E N s.1.1 with | .ok l _ => some (false, l) | _ => none
  | _ => none

/-- `insert_from` at index 1 of `pair`: fresh, the iterator panics in `next()`; after two calls it works; after three it panics when dropped. -/
example : held dbg64 5 (Chunk.insertFromBy dbg64 5 moody 1 ((pair, 0), [])) = some (false, []) ∧
    held dbg64 5 (Chunk.insertFromBy dbg64 5 moody 1 ((pair, 2), [])) = some (true, [1, 102, 103, 2]) ∧
    held dbg64 5 (Chunk.insertFromBy dbg64 5 moody 1 ((pair, 3), [])) = some (false, []) ∧
    moody.Gave 2 [102, 103] 4 := ⟨by decide +kernel, by decide +kernel, by decide +kernel, .item rfl (.item rfl (.rest _))⟩

/-- C108 applies to it, for every state of the iterator and every index. -/
example (t i : Nat) : Sat (Chunk.insertFromBy rel64 5 moody i ((pair, t), []))
    (fun _ s => ∃ xs t', moody.Gave t xs t' ∧ xs.length = 2 ∧ 2 + 2 ≤ 5 ∧ i ≤ 2 ∧ Chunk.View rel64 5 s.1.1 ([1, 2].take i ++ xs ++ [1, 2].drop i))
    (fun s => Chunk.View rel64 5 s.1.1 [1, 2] ∨ Chunk.View rel64 5 s.1.1 []) True :=
  Chunk.C108_insert_from (by decide) pair_view.2 moody_tame moody_says (J := fun _ => True) trivial i [] (.inr (by decide))

/-- It never ends, so `extend` always panics, and aborts the process if dropping the iterator panics too. -/
example : held dbg64 3 (Chunk.extendBy dbg64 3 moody (fun _ => false) 4 ((edge, 2), [])) = some (false, [10, 20, 102]) ∧
    Chunk.extendBy dbg64 3 moody (fun _ => false) 4 ((edge, 3), []) = .abort :=
  ⟨by decide +kernel, rfl⟩

end Verif
