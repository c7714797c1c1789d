import Verif.SpecBal
/-
Iterators that need not end.  `It` (Basic.lean) is a finite list of events; here an iterator is any stream of answers, and the loops
that consume it are bounded by `fuel`, running out of which is `diverge`.  What is still inside the iterator when it is dropped is not
modelled here (there may be infinitely much of it); `It` does that.
-/
namespace Verif
variable {A σ : Type}

/-- An iterator that may never end: what the `k`-th call of `next()` does (`none`: it returns `None`, and is not called again by a
`for` loop). -/
abbrev Stream (A : Type) := Nat → Option (Ev A)

/-- One call of `next()`; the state counts the calls so far. -/
def Stream.next (g : Stream A) : M Nat (Option A) := fun k =>
  match g k with
  | none => .ok none (k + 1)
  | some (.item a) => .ok (some a) (k + 1)
  | some .panic => .panic (k + 1)

/-- `for item in it { push(item) }` where the iterator may not end. -/
def feed (push : A → M (σ × List A) Unit) (g : Stream A) : Nat → M ((σ × Nat) × List A) Unit
  | 0 => M.diverge
  | fuel + 1 => do
    match (← M.onFst (M.onSnd g.next)) with
    | none => pure ()
    | some a =>
      M.atFst (push a)
      feed push g fuel

/-- What the containers' `push` does with an owned argument: there is room, or the argument is dropped and the call panics. -/
def PushContract (R : σ → List A → Prop) (cap : Nat) (dp : A → Bool) (push : A → M (σ × List A) Unit) : Prop :=
  ∀ s l, R s l → ∀ a log, Ref (RelLog R) (push a (s, log)) (if l.length < cap then .ok () (l ++ [a], log) else Spec.panicDropping dp [a] l log)

/-- The first `n` items of a stream, from call `k` on, all there. -/
def Stream.Gives (g : Stream A) (k : Nat) (xs : List A) : Prop := ∀ i (h : i < xs.length), g (k + i) = some (.item xs[i])

theorem Stream.Gives.head {g : Stream A} {k : Nat} {x : A} {xs : List A} (h : g.Gives k (x :: xs)) : g k = some (.item x) :=
  h 0 (by simp)
theorem Stream.Gives.tail {g : Stream A} {k : Nat} {x : A} {xs : List A} (h : g.Gives k (x :: xs)) : g.Gives (k + 1) xs := by
  intro i hi
  have := h (i + 1) (by simpa using hi)
  rw [show k + 1 + i = k + (i + 1) by omega, this]
  simp

variable {R : σ → List A → Prop} {cap : Nat} {dp : A → Bool} {push : A → M (σ × List A) Unit}

theorem feed_step_item {g : Stream A} {k : Nat} {a : A} (hg : g k = some (.item a)) (f : Nat) (s : σ) (log : List A) :
    feed push g (f + 1) ((s, k), log) = (M.atFst (push a) ((s, k + 1), log)).andThen fun _ t => feed push g f t := by
  simp only [feed, M.bind_run, M.onFst_run, M.onSnd_run, Stream.next, hg, Out.mapState_ok, Out.andThen_ok]

theorem feed_prefix (hp : PushContract R cap dp push) {g : Stream A} (xs : List A) : ∀ {s l}, R s l → ∀ (k : Nat) (log : List A) (f : Nat),
    g.Gives k xs → l.length + xs.length ≤ cap →
    ∃ s', R s' (l ++ xs) ∧ feed push g (xs.length + f) ((s, k), log) = feed push g f ((s', k + xs.length), log) := by
  induction xs with
  | nil => intro s l h k log f _ _; exact ⟨s, by simpa using h, by simp⟩
  | cons x xs ih =>
    intro s l h k log f hg hl
    simp only [List.length_cons] at hl
    have hx := hp s l h x log
    rw [if_pos (by omega)] at hx
    obtain ⟨⟨s', log'⟩, e, h', rfl⟩ := hx.of_ok rfl
    obtain ⟨s'', h'', e''⟩ := ih h' (k + 1) log' f hg.tail (by simp; omega)
    refine ⟨s'', by simpa using h'', ?_⟩
    rw [List.length_cons, show xs.length + 1 + f = (xs.length + f) + 1 by omega, feed_step_item hg.head]
    simp only [M.atFst, e, Out.mapState_ok, Out.andThen_ok]
    rw [e'', show k + 1 + xs.length = k + (xs.length + 1) by omega]

/-- The stream gives `xs` and ends. -/
theorem feed_end (hp : PushContract R cap dp push) {g : Stream A} {s : σ} {l : List A} (h : R s l) (xs log : List A) (k f : Nat)
    (hg : g.Gives k xs) (he : g (k + xs.length) = none) (hl : l.length + xs.length ≤ cap) :
    ∃ s', R s' (l ++ xs) ∧ feed push g (xs.length + (f + 1)) ((s, k), log) = .ok () ((s', k + xs.length + 1), log) := by
  obtain ⟨s', h', e⟩ := feed_prefix hp xs h k log (f + 1) hg hl
  refine ⟨s', h', ?_⟩
  rw [e]
  simp only [feed, M.bind_run, M.onFst_run, M.onSnd_run, Stream.next, he, Out.mapState_ok, Out.andThen_ok]
  rfl

/-- The stream gives `xs` and panics. -/
theorem feed_panic (hp : PushContract R cap dp push) {g : Stream A} {s : σ} {l : List A} (h : R s l) (xs log : List A) (k f : Nat)
    (hg : g.Gives k xs) (he : g (k + xs.length) = some .panic) (hl : l.length + xs.length ≤ cap) :
    ∃ s', R s' (l ++ xs) ∧ feed push g (xs.length + (f + 1)) ((s, k), log) = .panic ((s', k + xs.length + 1), log) := by
  obtain ⟨s', h', e⟩ := feed_prefix hp xs h k log (f + 1) hg hl
  refine ⟨s', h', ?_⟩
  rw [e]
  simp only [feed, M.bind_run, M.onFst_run, M.onSnd_run, Stream.next, he]
  rfl

/-- The stream gives `xs`, which fill the container, and one more. -/
theorem feed_over (hp : PushContract R cap dp push) {g : Stream A} {s : σ} {l : List A} (h : R s l) (xs log : List A) (a : A) (k f : Nat)
    (hg : g.Gives k xs) (he : g (k + xs.length) = some (.item a)) (hl : l.length + xs.length = cap) :
    (dp a = false → ∃ s', R s' (l ++ xs) ∧ feed push g (xs.length + (f + 1)) ((s, k), log) = .panic ((s', k + xs.length + 1), log ++ [a])) ∧
    (dp a = true → feed push g (xs.length + (f + 1)) ((s, k), log) = .abort) := by
  obtain ⟨s', h', e⟩ := feed_prefix hp xs h k log (f + 1) hg (by omega)
  rw [e, feed_step_item he]
  have hx := hp s' _ h' a log
  rw [if_neg (by simp; omega)] at hx
  constructor
  · intro hd
    obtain ⟨⟨s'', log'⟩, e, h'', rfl⟩ := hx.of_panic (t := (l ++ xs, log ++ [a])) (by simp [Spec.panicDropping, hd])
    exact ⟨s'', h'', by simp only [M.atFst, e]; rfl⟩
  · intro hd
    have e := hx.of_abort (by simp [Spec.panicDropping, hd])
    simp only [M.atFst, e]; rfl

/-- Every stream either ends, panics, or gives one item more than fit. -/
theorem Stream.cases (g : Stream A) (k n : Nat) : ∃ xs, g.Gives k xs ∧ xs.length ≤ n ∧
    (g (k + xs.length) = none ∨ g (k + xs.length) = some .panic ∨ (xs.length = n ∧ ∃ a, g (k + xs.length) = some (.item a))) := by
  induction n generalizing k with
  | zero =>
    refine ⟨[], fun i hi => absurd hi (by simp), Nat.le_refl _, ?_⟩
    cases h : g k with
    | none => exact .inl (by simp)
    | some e => cases e with
      | panic => exact .inr (.inl (by simp))
      | item a => exact .inr (.inr ⟨rfl, a, by simp⟩)
  | succ n ih =>
    cases h : g k with
    | none => exact ⟨[], fun i hi => absurd hi (by simp), by simp, .inl (by simpa using h)⟩
    | some e => cases e with
      | panic => exact ⟨[], fun i hi => absurd hi (by simp), by simp, .inr (.inl (by simpa using h))⟩
      | item a =>
        obtain ⟨xs, h1, h2, h3⟩ := ih (k + 1)
        refine ⟨a :: xs, ?_, by simpa using h2, ?_⟩
        · intro i hi
          cases i with
          | zero => simpa using h
          | succ i => rw [show k + (i + 1) = k + 1 + i by omega, h1 i (by simpa using hi)]; simp
        · rw [List.length_cons, show k + (xs.length + 1) = k + 1 + xs.length by omega]
          rcases h3 with h3 | h3 | ⟨h3, h4⟩
          · exact .inl h3
          · exact .inr (.inl h3)
          · exact .inr (.inr ⟨by omega, h4⟩)

/-- What an iterator that may not end can do to a container with room for `cap` items, holding `l`: `o` is the outcome of `extend`. -/
structure EndlessSafe (R : σ → List A → Prop) (cap : Nat) (dp : A → Bool) (l log : List A) (g : Stream A) (o : Out ((σ × Nat) × List A) Unit) : Prop where
  /-- It gives all of `xs`, which fit, and ends: they are appended. -/
  ends : ∀ xs : List A, g.Gives 0 xs → g xs.length = none → l.length + xs.length ≤ cap →
    ∃ s, o = .ok () ((s, xs.length + 1), log) ∧ R s (l ++ xs)
  /-- It gives all of `xs`, which fit, and panics: they are appended, and the panic goes on. -/
  panics : ∀ xs : List A, g.Gives 0 xs → g xs.length = some .panic → l.length + xs.length ≤ cap →
    ∃ s, o = .panic ((s, xs.length + 1), log) ∧ R s (l ++ xs)
  /-- It gives more than fits: the call panics after asking for one item too many, which is destroyed; the rest is never asked for. -/
  overflows : ∀ (xs : List A) (a : A), g.Gives 0 xs → g xs.length = some (.item a) → l.length + xs.length = cap → dp a = false →
    ∃ s, o = .panic ((s, xs.length + 1), log ++ [a]) ∧ R s (l ++ xs)
  /-- In any case the loop ends, touches no invalid memory, and asks for at most one item more than there is room for. -/
  safe : o = .abort ∨ ∃ s k log', (o = .ok () ((s, k), log') ∨ o = .panic ((s, k), log')) ∧ k ≤ cap - l.length + 1 ∧ ∃ xs, R s (l ++ xs)

theorem EndlessSafe.imp {R' : σ → List A → Prop} {l log : List A} {g : Stream A} {o : Out ((σ × Nat) × List A) Unit} (h : EndlessSafe R cap dp l log g o)
    (hR : ∀ s l, R s l → R' s l) : EndlessSafe R' cap dp l log g o where
  ends xs h1 h2 h3 := (h.ends xs h1 h2 h3).imp fun _ h => ⟨h.1, hR _ _ h.2⟩
  panics xs h1 h2 h3 := (h.panics xs h1 h2 h3).imp fun _ h => ⟨h.1, hR _ _ h.2⟩
  overflows xs a h1 h2 h3 h4 := (h.overflows xs a h1 h2 h3 h4).imp fun _ h => ⟨h.1, hR _ _ h.2⟩
  safe := h.safe.imp id fun ⟨s, k, lg, h1, h2, xs, h3⟩ => ⟨s, k, lg, h1, h2, xs, hR _ _ h3⟩

theorem feed_safe (hp : PushContract R cap dp push) (g : Stream A) {s : σ} {l : List A} (h : R s l) (hl : l.length ≤ cap) (log : List A) (fuel : Nat)
    (hf : cap - l.length < fuel) : EndlessSafe R cap dp l log g (feed push g fuel ((s, 0), log)) := by
  have fuelEq : ∀ n, n ≤ cap - l.length → ∃ f, fuel = n + (f + 1) := fun n hn => ⟨fuel - n - 1, by omega⟩
  constructor
  · intro xs hg he hx
    obtain ⟨f, rfl⟩ := fuelEq xs.length (by omega)
    obtain ⟨s', h', e⟩ := feed_end hp h xs log 0 f hg (by simpa using he) hx
    exact ⟨s', by simpa using e, h'⟩
  · intro xs hg he hx
    obtain ⟨f, rfl⟩ := fuelEq xs.length (by omega)
    obtain ⟨s', h', e⟩ := feed_panic hp h xs log 0 f hg (by simpa using he) hx
    exact ⟨s', by simpa using e, h'⟩
  · intro xs a hg he hx hd
    obtain ⟨f, rfl⟩ := fuelEq xs.length (by omega)
    obtain ⟨s', h', e⟩ := (feed_over hp h xs log a 0 f hg (by simpa using he) hx).1 hd
    exact ⟨s', by simpa using e, h'⟩
  · obtain ⟨xs, hg, hx, hc⟩ := Stream.cases g 0 (cap - l.length)
    obtain ⟨f, rfl⟩ := fuelEq xs.length hx
    rcases hc with hc | hc | ⟨hc, a, ha⟩
    · obtain ⟨s', h', e⟩ := feed_end hp h xs log 0 f hg hc (by omega)
      exact .inr ⟨s', _, _, .inl e, by omega, xs, h'⟩
    · obtain ⟨s', h', e⟩ := feed_panic hp h xs log 0 f hg hc (by omega)
      exact .inr ⟨s', _, _, .inr e, by omega, xs, h'⟩
    · have ho := feed_over hp h xs log a 0 f hg ha (by omega)
      cases hd : dp a with
      | true => exact .inl (ho.2 hd)
      | false =>
        obtain ⟨s', h', e⟩ := ho.1 hd
        exact .inr ⟨s', _, _, .inr e, by omega, xs, h'⟩

end Verif
