import Verif.Vc
/-! # Binary search

`insert_ordered` looks for its place with the standard library's `binary_search` (Chunk, through `Deref`) or with the one of the crate `array_ops`
(RingBuffer, through `Index` of a slice). Neither is code of this repository; here are the two algorithms that the standard library has shipped, of
which `array_ops` uses the first. They are parametrised by how an item is read. -/
namespace Verif
namespace Search
variable {σ A : Type}

/-- Read the item at `i` and compare it with the value that is looked for: `f x` is how `x` compares to it, `none` if the comparison panics. The second
component of the state counts the comparisons. -/
def probe (read : Nat → M σ A) (f : A → Option Ordering) (i : Nat) : M (σ × Nat) Ordering := do
  let x ← M.onFst (read i)
  fun s => match f x with
    | some o => .ok o (s.1, s.2 + 1)
    | none => .panic (s.1, s.2 + 1)

/-- `while size > 1 { let half = size / 2; let mid = base + half; base = if f(mid) == Greater { base } else { mid }; size -= half; }`. -/
def halvingLoop (read : Nat → M σ A) (f : A → Option Ordering) : Nat → Nat → Nat → M (σ × Nat) Nat
  | 0, _, _ => M.diverge
  | fuel + 1, base, size =>
    if size > 1 then do
      let o ← probe read f (base + size / 2)
      halvingLoop read f fuel (if o = .gt then base else base + size / 2) (size - size / 2)
    else pure base

/-- `binary_search_by` of the standard library before 1.52 and since 1.83, and of `array_ops`. -/
def halving (read : Nat → M σ A) (f : A → Option Ordering) (n : Nat) : M (σ × Nat) (Except Nat Nat) :=
  if n = 0 then pure (.error 0)
  else do
    let base ← halvingLoop read f (n + 1) 0 n
    match (← probe read f base) with
    | .eq => return .ok base
    | .lt => return .error (base + 1)
    | .gt => return .error base

/-- `while left < right { let mid = left + (right - left) / 2; match f(mid) { Less => left = mid + 1, Greater => right = mid, Equal => return Ok(mid) } } Err(left)`:
`binary_search_by` of the standard library from 1.52 to 1.82. -/
def bisectLoop (read : Nat → M σ A) (f : A → Option Ordering) : Nat → Nat → Nat → M (σ × Nat) (Except Nat Nat)
  | 0, _, _ => M.diverge
  | fuel + 1, left, right =>
    if left < right then do
      let mid := left + (right - left) / 2
      match (← probe read f mid) with
      | .lt => bisectLoop read f fuel (mid + 1) right
      | .gt => bisectLoop read f fuel left mid
      | .eq => return .ok mid
    else pure (.error left)
def bisect (read : Nat → M σ A) (f : A → Option Ordering) (n : Nat) : M (σ × Nat) (Except Nat Nat) := bisectLoop read f (n + 1) 0 n

/-- The two algorithms. -/
inductive Algo where
  | halving | bisect
def Algo.run : Algo → (Nat → M σ A) → (A → Option Ordering) → Nat → M (σ × Nat) (Except Nat Nat)
  | .halving => Search.halving
  | .bisect => Search.bisect

/-- The items come in the order: first those before the value, then those equal to it, then those after it. -/
def Ordered (f : A → Option Ordering) (l : List A) : Prop :=
  l.Pairwise (fun x y => (f x = some .gt → f y = some .gt) ∧ (f y = some .lt → f x = some .lt))
/-- The documented answer of `binary_search_by`: where an item equal to the value is, or, if the items come in the order, the place where it belongs. In
any case the answer is within the list. -/
def Found (f : A → Option Ordering) (l : List A) : Except Nat Nat → Prop
  | .ok i => ∃ x, l[i]? = some x ∧ f x = some .eq
  | .error i => i ≤ l.length ∧ (Ordered f l → (∀ x ∈ l.take i, f x = some .lt) ∧ ∀ x ∈ l.drop i, f x = some .gt)
/-- At most `⌈log₂ n⌉ + 1` comparisons. -/
def Few (k n : Nat) : Prop := k = 0 ∨ 2 ^ (k - 1) < 2 * n

theorem Found.le {f : A → Option Ordering} {l : List A} {i : Nat} : (Found f l (.ok i) → i ≤ l.length) ∧ (Found f l (.error i) → i ≤ l.length) := by
  refine ⟨fun ⟨x, h, _⟩ => ?_, fun h => h.1⟩
  exact Nat.le_of_lt (List.getElem?_eq_some_iff.1 h).1

section
variable {read : Nat → M σ A} {f : A → Option Ordering} {l : List A} {s : σ}

theorem probe_eq (hr : ∀ i x, l[i]? = some x → read i s = .ok x s) {i : Nat} {x : A} (hx : l[i]? = some x) (k : Nat) :
    probe read f i (s, k) = match f x with | some o => .ok o (s, k + 1) | none => .panic (s, k + 1) := by
  show (M.onFst (read i) (s, k)).andThen _ = _
  simp only [M.onFst, hr i x hx]
  rfl
theorem Ordered.gt {i j : Nat} {x y : A} (h : Ordered f l) (hi : l[i]? = some x) (hj : l[j]? = some y) (hij : i ≤ j) (hx : f x = some .gt) : f y = some .gt := by
  obtain ⟨h1, rfl⟩ := List.getElem?_eq_some_iff.1 hi
  obtain ⟨h2, rfl⟩ := List.getElem?_eq_some_iff.1 hj
  rcases Nat.lt_or_eq_of_le hij with h' | h'
  · exact (List.pairwise_iff_getElem.1 h i j h1 h2 h').1 hx
  · subst h'; exact hx
theorem Ordered.lt {i j : Nat} {x y : A} (h : Ordered f l) (hi : l[i]? = some x) (hj : l[j]? = some y) (hij : i ≤ j) (hy : f y = some .lt) : f x = some .lt := by
  obtain ⟨h1, rfl⟩ := List.getElem?_eq_some_iff.1 hi
  obtain ⟨h2, rfl⟩ := List.getElem?_eq_some_iff.1 hj
  rcases Nat.lt_or_eq_of_le hij with h' | h'
  · exact (List.pairwise_iff_getElem.1 h i j h1 h2 h').2 hy
  · subst h'; exact hy

/-- What a search does: it answers correctly, or panics because a comparison does; it reads only, and makes few comparisons. -/
def Meets (f : A → Option Ordering) (l : List A) (s : σ) (k : Nat) (x : Out (σ × Nat) (Except Nat Nat)) : Prop :=
  (∃ r c, x = .ok r (s, k + c) ∧ Few c l.length ∧ Found f l r) ∨ (∃ c y, x = .panic (s, k + c) ∧ Few c l.length ∧ y ∈ l ∧ f y = none)

theorem halvingLoop_spec (hr : ∀ i x, l[i]? = some x → read i s = .ok x s) (fuel base size k : Nat) (hf : size < fuel) (h0 : 0 < size) (h1 : base + size ≤ l.length)
    (hb : base = 0 ∨ ∃ x, l[base]? = some x ∧ f x ≠ some .gt) (ha : Ordered f l → ∀ j x, base + size ≤ j → l[j]? = some x → f x = some .gt) :
    (∃ b c, halvingLoop read f fuel base size (s, k) = .ok b (s, k + c) ∧ 2 ^ c < 2 * size ∧ b < l.length ∧ (b = 0 ∨ ∃ x, l[b]? = some x ∧ f x ≠ some .gt) ∧
      (Ordered f l → ∀ j x, b + 1 ≤ j → l[j]? = some x → f x = some .gt)) ∨
    (∃ c y, halvingLoop read f fuel base size (s, k) = .panic (s, k + c) ∧ 0 < c ∧ 2 ^ c < 2 * size ∧ y ∈ l ∧ f y = none) := by
  induction fuel generalizing base size k with
  | zero => omega
  | succ fuel ih =>
    unfold halvingLoop
    by_cases hs : size > 1
    · rw [if_pos hs]
      have hm : base + size / 2 < l.length := by omega
      obtain ⟨x, hx⟩ : ∃ x, l[base + size / 2]? = some x := ⟨_, List.getElem?_eq_getElem hm⟩
      simp only [M.bind_run, probe_eq hr hx]
      have step : ∀ c, 2 ^ c < 2 * (size - size / 2) → 2 ^ (c + 1) < 2 * size := by
        intro c hc
        rw [Nat.pow_succ]
        cases c with
        | zero => simp; omega
        | succ c => rw [Nat.pow_succ] at hc ⊢; omega
      cases ho : f x with
      | none =>
        right
        exact ⟨1, x, rfl, by omega, by simp; omega, List.mem_of_getElem? hx, ho⟩
      | some o =>
        simp only [Out.andThen_ok]
        have key : (∃ b c, halvingLoop read f fuel (if o = .gt then base else base + size / 2) (size - size / 2) (s, k + 1) = .ok b (s, (k + 1) + c) ∧
            2 ^ c < 2 * (size - size / 2) ∧ b < l.length ∧ (b = 0 ∨ ∃ x, l[b]? = some x ∧ f x ≠ some .gt) ∧
              (Ordered f l → ∀ j x, b + 1 ≤ j → l[j]? = some x → f x = some .gt)) ∨
            (∃ c y, halvingLoop read f fuel (if o = .gt then base else base + size / 2) (size - size / 2) (s, k + 1) = .panic (s, (k + 1) + c) ∧ 0 < c ∧
              2 ^ c < 2 * (size - size / 2) ∧ y ∈ l ∧ f y = none) := by
          by_cases hg : o = .gt
          · rw [if_pos hg]
            refine ih base _ _ (by omega) (by omega) (by omega) hb ?_
            intro hord j y hj hy
            exact hord.gt hx hy (by omega) (by rw [ho, hg])
          · rw [if_neg hg]
            refine ih _ _ _ (by omega) (by omega) (by omega) (.inr ⟨x, hx, by rw [ho]; simpa using hg⟩) ?_
            intro hord j y hj hy
            exact ha hord j y (by omega) hy
        rcases key with ⟨b, c, e, hc, h2, h3, h4⟩ | ⟨c, y, e, h5, hc, h2, h3⟩
        · exact .inl ⟨b, c + 1, by rw [e]; congr 2; omega, step c hc, h2, h3, h4⟩
        · exact .inr ⟨c + 1, y, by rw [e]; congr 2; omega, by omega, step c hc, h2, h3⟩
    · rw [if_neg hs]
      left
      refine ⟨base, 0, rfl, by simp; omega, by omega, hb, ?_⟩
      intro hord j x hj hx
      exact ha hord j x (by omega) hx

theorem halving_spec (hr : ∀ i x, l[i]? = some x → read i s = .ok x s) (k : Nat) : Meets f l s k (halving read f l.length (s, k)) := by
  unfold halving
  by_cases hn : l.length = 0
  · rw [if_pos hn]
    have : l = [] := List.length_eq_zero_iff.1 hn
    subst this
    exact .inl ⟨_, 0, rfl, .inl rfl, by simp [Found]⟩
  · rw [if_neg hn]
    simp only [M.bind_run]
    rcases halvingLoop_spec (f := f) hr (l.length + 1) 0 l.length k (by omega) (by omega) (by omega) (.inl rfl)
      (fun _ j x hj hx => by have := (List.getElem?_eq_some_iff.1 hx).1; omega) with ⟨b, c, e, hc, h2, h3, h4⟩ | ⟨c, y, e, h5, hc, h2, h3⟩
    · simp only [e, Out.andThen_ok]
      obtain ⟨x, hx⟩ : ∃ x, l[b]? = some x := ⟨_, List.getElem?_eq_getElem h2⟩
      rw [probe_eq hr hx]
      have few : Few (c + 1) l.length := .inr (by simpa using hc)
      cases ho : f x with
      | none => exact .inr ⟨c + 1, x, rfl, few, List.mem_of_getElem? hx, ho⟩
      | some o =>
        left
        have after : Ordered f l → ∀ y ∈ l.drop (b + 1), f y = some .gt := by
          intro hord y hy
          obtain ⟨j, hj, rfl⟩ := List.mem_drop_iff_getElem.1 hy
          exact h4 hord (b + 1 + j) _ (by omega) (List.getElem?_eq_getElem (by omega))
        cases o with
        | eq => exact ⟨_, c + 1, rfl, few, x, hx, ho⟩
        | lt =>
          refine ⟨_, c + 1, rfl, few, by omega, fun hord => ⟨?_, after hord⟩⟩
          intro y hy
          obtain ⟨j, hj, rfl⟩ := List.mem_take_iff_getElem.1 hy
          exact hord.lt (List.getElem?_eq_getElem (by omega)) hx (by omega) ho
        | gt =>
          rcases h3 with rfl | ⟨x', hx', hne⟩
          · refine ⟨_, c + 1, rfl, few, by omega, fun hord => ⟨by simp, ?_⟩⟩
            intro y hy
            obtain ⟨j, hj, rfl⟩ := List.mem_drop_iff_getElem.1 hy
            exact hord.gt hx (List.getElem?_eq_getElem (by omega)) (by omega) ho
          · rw [hx] at hx'; cases hx'; exact absurd ho hne
    · rw [e]
      exact .inr ⟨c, y, rfl, .inr (by
        have : 2 ^ (c - 1) ≤ 2 ^ c := Nat.pow_le_pow_right (by omega) (by omega)
        omega), h2, h3⟩

theorem bisectLoop_spec (hr : ∀ i x, l[i]? = some x → read i s = .ok x s) (fuel left right k : Nat) (hf : right - left < fuel) (h0 : left ≤ right) (h1 : right ≤ l.length)
    (hb : Ordered f l → ∀ j x, j < left → l[j]? = some x → f x = some .lt) (ha : Ordered f l → ∀ j x, right ≤ j → l[j]? = some x → f x = some .gt) :
    (∃ r c, bisectLoop read f fuel left right (s, k) = .ok r (s, k + c) ∧ (c = 0 ∨ 2 ^ (c - 1) ≤ right - left) ∧ Found f l r) ∨
    (∃ c y, bisectLoop read f fuel left right (s, k) = .panic (s, k + c) ∧ 0 < c ∧ 2 ^ (c - 1) ≤ right - left ∧ y ∈ l ∧ f y = none) := by
  induction fuel generalizing left right k with
  | zero => omega
  | succ fuel ih =>
    unfold bisectLoop
    by_cases hs : left < right
    · rw [if_pos hs]
      have hm : left + (right - left) / 2 < l.length := by omega
      obtain ⟨x, hx⟩ : ∃ x, l[left + (right - left) / 2]? = some x := ⟨_, List.getElem?_eq_getElem hm⟩
      simp only [M.bind_run, probe_eq hr hx]
      have step : ∀ c n, (c = 0 ∨ 2 ^ (c - 1) ≤ n) → n ≤ (right - left) / 2 → 2 ^ (c + 1 - 1) ≤ right - left := by
        intro c n hc hn
        rcases hc with rfl | hc
        · simp; omega
        · cases c with
          | zero => simp; omega
          | succ c => simp only [Nat.add_sub_cancel, Nat.pow_succ] at hc ⊢; omega
      cases ho : f x with
      | none => exact .inr ⟨1, x, rfl, by omega, by simp; omega, List.mem_of_getElem? hx, ho⟩
      | some o =>
        simp only [Out.andThen_ok]
        cases o with
        | eq => exact .inl ⟨_, 1, rfl, .inr (by simp; omega), x, hx, ho⟩
        | lt =>
          rcases ih (left + (right - left) / 2 + 1) right (k + 1) (by omega) (by omega) h1
            (fun hord j y hj hy => hord.lt hy hx (by omega) ho) ha with ⟨r, c, e, hc, h2⟩ | ⟨c, y, e, h5, hc, h2⟩
          · exact .inl ⟨r, c + 1, by simp only [e]; congr 2; omega, .inr (step c _ hc (by omega)), h2⟩
          · exact .inr ⟨c + 1, y, by simp only [e]; congr 2; omega, by omega, step c _ (.inr hc) (by omega), h2⟩
        | gt =>
          rcases ih left (left + (right - left) / 2) (k + 1) (by omega) (by omega) (by omega) hb
            (fun hord j y hj hy => hord.gt hx hy (by omega) ho) with ⟨r, c, e, hc, h2⟩ | ⟨c, y, e, h5, hc, h2⟩
          · exact .inl ⟨r, c + 1, by simp only [e]; congr 2; omega, .inr (step c _ hc (by omega)), h2⟩
          · exact .inr ⟨c + 1, y, by simp only [e]; congr 2; omega, by omega, step c _ (.inr hc) (by omega), h2⟩
    · rw [if_neg hs]
      left
      refine ⟨_, 0, rfl, .inl rfl, by omega, fun hord => ⟨?_, ?_⟩⟩
      · intro y hy
        obtain ⟨j, hj, rfl⟩ := List.mem_take_iff_getElem.1 hy
        exact hb hord j _ (by omega) (List.getElem?_eq_getElem (by omega))
      · intro y hy
        obtain ⟨j, hj, rfl⟩ := List.mem_drop_iff_getElem.1 hy
        exact ha hord (left + j) _ (by omega) (List.getElem?_eq_getElem (by omega))

/-- Both algorithms, on whatever items and comparisons (also inconsistent ones), if reading an item gives it and changes nothing. -/
theorem run_spec (a : Algo) (hr : ∀ i x, l[i]? = some x → read i s = .ok x s) (k : Nat) : Meets f l s k (a.run read f l.length (s, k)) := by
  cases a with
  | halving => exact halving_spec hr k
  | bisect =>
    rcases bisectLoop_spec (f := f) hr (l.length + 1) 0 l.length k (by omega) (by omega) (by omega)
      (fun _ j x hj hx => by omega) (fun _ j x hj hx => by have := (List.getElem?_eq_some_iff.1 hx).1; omega) with ⟨r, c, e, hc, h2⟩ | ⟨c, y, e, h5, hc, h2, h3⟩
    · refine .inl ⟨r, c, e, ?_, h2⟩
      rcases hc with rfl | hc
      · exact .inl rfl
      · right; have := Nat.pos_of_ne_zero (n := 2 ^ (c - 1)) (by simp); omega
    · refine .inr ⟨c, y, e, ?_, h2, h3⟩
      right; have := Nat.pos_of_ne_zero (n := 2 ^ (c - 1)) (by simp); omega

/-! ### The search does not care where the items are -/
variable {τ : Type} {read' : Nat → M τ A} {t : τ} {n : Nat}
/-- The same answer, the same number of comparisons, in another state. -/
def At (s : σ) {β : Type} (x : Out (τ × Nat) β) : Out (σ × Nat) β := x.mapState (fun p => (s, p.2))

theorem probe_at {i : Nat} (h : read i s = .ok x s) (h' : read' i t = .ok x t) (k : Nat) : probe read f i (s, k) = At s (probe read' f i (t, k)) := by
  have e1 : probe read f i (s, k) = match f x with | some o => .ok o (s, k + 1) | none => .panic (s, k + 1) := by
    show (M.onFst (read i) (s, k)).andThen _ = _
    simp only [M.onFst, h]; rfl
  have e2 : probe read' f i (t, k) = match f x with | some o => .ok o (t, k + 1) | none => .panic (t, k + 1) := by
    show (M.onFst (read' i) (t, k)).andThen _ = _
    simp only [M.onFst, h']; rfl
  rw [e1, e2]
  cases f x <;> rfl
theorem probe_cases {i : Nat} (h' : read' i t = .ok x t) (k : Nat) :
    (∃ o, f x = some o ∧ probe read' f i (t, k) = .ok o (t, k + 1)) ∨ probe read' f i (t, k) = .panic (t, k + 1) := by
  have e2 : probe read' f i (t, k) = match f x with | some o => .ok o (t, k + 1) | none => .panic (t, k + 1) := by
    show (M.onFst (read' i) (t, k)).andThen _ = _
    simp only [M.onFst, h']; rfl
  rw [e2]
  cases f x with
  | none => exact .inr rfl
  | some o => exact .inl ⟨o, rfl, rfl⟩

theorem halvingLoop_at (h : ∀ i < n, ∃ x, read i s = .ok x s ∧ read' i t = .ok x t) (fuel base size k : Nat) (hb : base + size ≤ n) :
    halvingLoop read f fuel base size (s, k) = At s (halvingLoop read' f fuel base size (t, k)) ∧
      ∀ b p, halvingLoop read' f fuel base size (t, k) = .ok b p → p.1 = t ∧ (0 < size → b < n) := by
  induction fuel generalizing base size k with
  | zero => exact ⟨rfl, fun b p e => by cases e⟩
  | succ fuel ih =>
    unfold halvingLoop
    by_cases hs : size > 1
    · rw [if_pos hs, if_pos hs]
      obtain ⟨x, h1, h2⟩ := h (base + size / 2) (by omega)
      simp only [M.bind_run, probe_at (f := f) h1 h2]
      rcases probe_cases (f := f) h2 k with ⟨o, _, e⟩ | e
      · simp only [e, At, Out.mapState, Out.andThen_ok]
        have := ih (if o = .gt then base else base + size / 2) (size - size / 2) (k + 1) (by split <;> omega)
        exact ⟨this.1, fun b p e => ⟨(this.2 b p e).1, fun _ => (this.2 b p e).2 (by omega)⟩⟩
      · simp only [e, At, Out.mapState]
        exact ⟨rfl, fun b p e => by cases e⟩
    · rw [if_neg hs, if_neg hs]
      exact ⟨rfl, fun b p e => by cases e; exact ⟨rfl, fun _ => by omega⟩⟩
theorem bisectLoop_at (h : ∀ i < n, ∃ x, read i s = .ok x s ∧ read' i t = .ok x t) (fuel left right k : Nat) (hb : right ≤ n) :
    bisectLoop read f fuel left right (s, k) = At s (bisectLoop read' f fuel left right (t, k)) := by
  induction fuel generalizing left right k with
  | zero => rfl
  | succ fuel ih =>
    unfold bisectLoop
    by_cases hs : left < right
    · rw [if_pos hs, if_pos hs]
      obtain ⟨x, h1, h2⟩ := h (left + (right - left) / 2) (by omega)
      simp only [M.bind_run, probe_at (f := f) h1 h2]
      rcases probe_cases (f := f) h2 k with ⟨o, _, e⟩ | e
      · simp only [e, At, Out.mapState, Out.andThen_ok]
        cases o with
        | lt => exact ih _ _ _ hb
        | gt => exact ih _ _ _ (by omega)
        | eq => rfl
      · simp only [e, At, Out.mapState]; rfl
    · rw [if_neg hs, if_neg hs]; rfl
theorem run_at (a : Algo) (h : ∀ i < n, ∃ x, read i s = .ok x s ∧ read' i t = .ok x t) (k : Nat) : a.run read f n (s, k) = At s (a.run read' f n (t, k)) := by
  cases a with
  | bisect => exact bisectLoop_at h _ _ _ _ (Nat.le_refl _)
  | halving =>
    simp only [Algo.run, halving]
    by_cases hn : n = 0
    · rw [if_pos hn, if_pos hn]; rfl
    · rw [if_neg hn, if_neg hn]
      obtain ⟨e1, e2⟩ := halvingLoop_at (f := f) h (n + 1) 0 n k (by omega)
      simp only [M.bind_run, e1]
      cases hl : halvingLoop read' f (n + 1) 0 n (t, k) with
      | ok b p =>
        obtain ⟨p1, p2⟩ := p
        obtain ⟨rfl, hb⟩ := e2 b _ hl
        obtain ⟨x, h1, h2⟩ := h b (hb (by omega))
        simp only [At, Out.mapState, Out.andThen_ok]
        have e3 := probe_at (f := f) h1 h2 p2
        rw [e3]
        rcases probe_cases (f := f) h2 p2 with ⟨o, _, e⟩ | e
        · rw [e]; cases o <;> rfl
        · rw [e]; rfl
      | _ => rfl
end

/-- Reading from a list; outside it, that is undefined behaviour (`get_unchecked`). -/
def readList (l : List A) (i : Nat) : M σ A := match l[i]? with | some x => pure x | none => M.ub
/-- The answer of the search for `v` in `l`; `none` if a comparison panics. -/
def Algo.answer (a : Algo) (cmp : A → A → Option Ordering) (l : List A) (v : A) : Option (Except Nat Nat) :=
  match a.run (σ := Unit) (readList l) (fun x => cmp x v) l.length ((), 0) with
  | .ok r _ => some r
  | _ => none
theorem readList_eq {l : List A} {s : σ} (i : Nat) (x : A) (h : l[i]? = some x) : readList l i s = .ok x s := by simp [readList, h]

/-- `run` in whatever state, in terms of `answer`. -/
theorem run_answer (a : Algo) {read : Nat → M σ A} {l : List A} {s : σ} (cmp : A → A → Option Ordering) (v : A) (hr : ∀ i x, l[i]? = some x → read i s = .ok x s) :
    ∃ c, Few c l.length ∧ match a.answer cmp l v with
      | some r => a.run read (fun x => cmp x v) l.length (s, 0) = .ok r (s, c) ∧ Found (fun x => cmp x v) l r
      | none => a.run read (fun x => cmp x v) l.length (s, 0) = .panic (s, c) ∧ ∃ x ∈ l, cmp x v = none := by
  have key : a.run read (fun x => cmp x v) l.length (s, 0) = At s (a.run (σ := Unit) (readList l) (fun x => cmp x v) l.length ((), 0)) :=
    run_at a (fun i hi => ⟨l[i], hr i _ (List.getElem?_eq_getElem hi), readList_eq i _ (List.getElem?_eq_getElem hi)⟩) 0
  unfold Algo.answer
  rcases run_spec (f := fun x => cmp x v) (l := l) (s := ()) a readList_eq 0 with ⟨r, c, e, hc, hf⟩ | ⟨c, y, e, hc, hy, hn⟩
  · exact ⟨c, hc, by rw [key, e]; exact ⟨by simp [At, Out.mapState], hf⟩⟩
  · exact ⟨c, hc, by rw [key, e]; exact ⟨by simp [At, Out.mapState], y, hy, hn⟩⟩

/-- A value of an `Ord` type that keeps its contract: a total preorder. -/
structure Lawful (cmp : A → A → Ordering) : Prop where
  swap : ∀ x y, cmp y x = (cmp x y).swap
  trans : ∀ x y z, cmp x y ≠ .gt → cmp y z ≠ .gt → cmp x z ≠ .gt

theorem Lawful.ordered {cmp : A → A → Ordering} (hc : Lawful cmp) {l : List A} (hs : l.Pairwise (fun x y => cmp x y ≠ .gt)) (v : A) : Ordered (fun x => some (cmp x v)) l := by
  refine hs.imp ?_
  intro x y hxy
  simp only [Option.some.injEq]
  constructor
  · intro h
    cases h' : cmp y v with
    | gt => rfl
    | _ => exact absurd h (hc.trans x y v hxy (by rw [h']; decide))
  · intro h
    cases h' : cmp x v with
    | lt => rfl
    | _ => exact absurd (by rw [hc.swap, h]; rfl) (hc.trans v x y (by rw [hc.swap, h']; decide) hxy)
end Search
end Verif
