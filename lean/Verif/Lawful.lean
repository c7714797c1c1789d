import Verif.Cmp
/-
The contracts of `Eq`, `Ord` and `Hash` in the standard library's documentation, as one statement about an equality, an ordering and what
is fed to a hasher; and that sequences inherit them from their items.
-/
namespace Verif
variable {A B H : Type}

/-- `eq` is an equivalence, `cmp` a total order with `cmp a b == Equal` exactly when `a == b`, and equal values hash equally. -/
structure Lawful (eq : A → A → Bool) (cmp : A → A → Ordering) (hash : A → List (Feed H)) : Prop where
  refl : ∀ a, eq a a = true
  symm : ∀ a b, eq a b = true → eq b a = true
  trans : ∀ a b c, eq a b = true → eq b c = true → eq a c = true
  cmp_eq : ∀ a b, cmp a b = .eq ↔ eq a b = true
  cmp_swap : ∀ a b, cmp b a = (cmp a b).swap
  cmp_trans : ∀ a b c, cmp a b ≠ .gt → cmp b c ≠ .gt → cmp a c ≠ .gt
  hash_eq : ∀ a b, eq a b = true → hash a = hash b

namespace Lawful
variable {eq : A → A → Bool} {cmp : A → A → Ordering} {hash : A → List (Feed H)}

theorem lt_of_lt_eq (L : Lawful eq cmp hash) {a b c : A} (h1 : cmp a b = .lt) (h2 : cmp b c = .eq) : cmp a c = .lt := by
  have h3 := L.cmp_trans a b c (by simp [h1]) (by simp [h2])
  cases h : cmp a c
  · rfl
  · exfalso
    have h4 := L.trans _ _ _ ((L.cmp_eq _ _).1 h) (L.symm _ _ ((L.cmp_eq _ _).1 h2))
    rw [(L.cmp_eq _ _).2 h4] at h1; cases h1
  · exact absurd h h3

theorem lt_of_eq_lt (L : Lawful eq cmp hash) {a b c : A} (h1 : cmp a b = .eq) (h2 : cmp b c = .lt) : cmp a c = .lt := by
  have h3 := L.cmp_trans a b c (by simp [h1]) (by simp [h2])
  cases h : cmp a c
  · rfl
  · exfalso
    have h4 := L.trans _ _ _ (L.symm _ _ ((L.cmp_eq _ _).1 h1)) ((L.cmp_eq _ _).1 h)
    rw [(L.cmp_eq _ _).2 h4] at h2; cases h2
  · exact absurd h h3

theorem lt_of_lt_lt (L : Lawful eq cmp hash) {a b c : A} (h1 : cmp a b = .lt) (h2 : cmp b c = .lt) : cmp a c = .lt := by
  have h3 := L.cmp_trans a b c (by simp [h1]) (by simp [h2])
  cases h : cmp a c
  · rfl
  · exfalso
    have h4 : cmp c a = .eq := by rw [L.cmp_swap, h]; rfl
    rw [L.cmp_swap c b, L.lt_of_eq_lt h4 h1] at h2
    cases h2
  · exact absurd h h3

theorem eq_of_eq_eq (L : Lawful eq cmp hash) {a b c : A} (h1 : cmp a b = .eq) (h2 : cmp b c = .eq) : cmp a c = .eq :=
  (L.cmp_eq _ _).2 (L.trans _ _ _ ((L.cmp_eq _ _).1 h1) ((L.cmp_eq _ _).1 h2))

theorem seq_refl (L : Lawful eq cmp hash) (l : List A) : seqEq eq l l = true := by
  induction l with
  | nil => rfl
  | cons a r ih => simp [seqEq, L.refl, ih]

theorem seq_symm (L : Lawful eq cmp hash) (l k : List A) (h : seqEq eq l k = true) : seqEq eq k l = true := by
  induction l generalizing k with
  | nil => cases k <;> simp_all [seqEq]
  | cons a r ih =>
    cases k with
    | nil => simp [seqEq] at h
    | cons b s =>
      simp only [seqEq, Bool.and_eq_true] at h ⊢
      exact ⟨L.symm _ _ h.1, ih _ h.2⟩

theorem seq_trans (L : Lawful eq cmp hash) (l k m : List A) (h : seqEq eq l k = true) (h' : seqEq eq k m = true) : seqEq eq l m = true := by
  induction l generalizing k m with
  | nil => cases k <;> cases m <;> simp_all [seqEq]
  | cons a r ih =>
    cases k with
    | nil => simp [seqEq] at h
    | cons b s =>
      cases m with
      | nil => simp [seqEq] at h'
      | cons d t =>
        simp only [seqEq, Bool.and_eq_true] at h h' ⊢
        exact ⟨L.trans _ _ _ h.1 h'.1, ih _ _ h.2 h'.2⟩

theorem seq_cmp_eq (L : Lawful eq cmp hash) (l k : List A) : seqCmp cmp l k = .eq ↔ seqEq eq l k = true := by
  rw [seqCmp_eq_iff, seqEq_iff]
  simp only [L.cmp_eq]

theorem seq_cmp_trans (L : Lawful eq cmp hash) (l k m : List A) (h : seqCmp cmp l k ≠ .gt) (h' : seqCmp cmp k m ≠ .gt) : seqCmp cmp l m ≠ .gt := by
  induction l generalizing k m with
  | nil => cases m <;> simp [seqCmp]
  | cons a r ih =>
    cases k with
    | nil => simp [seqCmp] at h
    | cons b s =>
      cases m with
      | nil => simp [seqCmp] at h'
      | cons d t =>
        simp only [seqCmp] at h h' ⊢
        cases h1 : cmp a b <;> rw [h1] at h <;> simp only [ne_eq, not_true_eq_false] at h <;>
          cases h2 : cmp b d <;> rw [h2] at h' <;> simp only [ne_eq, not_true_eq_false] at h'
        · rw [L.lt_of_lt_lt h1 h2]; simp
        · rw [L.lt_of_lt_eq h1 h2]; simp
        · rw [L.lt_of_eq_lt h1 h2]; simp
        · rw [L.eq_of_eq_eq h1 h2]; exact ih _ _ h h'

theorem seq_hash (L : Lawful eq cmp hash) (l k : List A) (h : seqEq eq l k = true) : hashItems hash l = hashItems hash k := by
  induction l generalizing k with
  | nil => cases k <;> simp_all [seqEq]
  | cons a r ih =>
    cases k with
    | nil => simp [seqEq] at h
    | cons b s =>
      simp only [seqEq, Bool.and_eq_true] at h
      have := ih _ h.2
      simp only [hashItems, List.flatMap_cons] at this ⊢
      rw [L.hash_eq _ _ h.1, this]

/-- Whatever shows a sequence of lawful items is lawful. -/
theorem lift (L : Lawful eq cmp hash) (show' : B → List A) :
    Lawful (fun a b => seqEq eq (show' a) (show' b)) (fun a b => seqCmp cmp (show' a) (show' b)) (fun a => hashItems hash (show' a)) where
  refl _ := L.seq_refl _
  symm _ _ := L.seq_symm _ _
  trans _ _ _ := L.seq_trans _ _ _
  cmp_eq _ _ := L.seq_cmp_eq _ _
  cmp_swap _ _ := seqCmp_swap _ L.cmp_swap _ _
  cmp_trans _ _ _ := L.seq_cmp_trans _ _ _
  hash_eq _ _ := L.seq_hash _ _

end Lawful

/-- The first position at which two sequences have items that are not `Equal`, and what the comparison says there; past the end of one of
them the shorter comes first. -/
theorem seqPartialCmp_none_iff (cmp : A → A → Option Ordering) (l k : List A) :
    seqPartialCmp cmp l k = none ↔ ∃ i : Nat, (∀ j, j < i → ∃ a b, l[j]? = some a ∧ k[j]? = some b ∧ cmp a b = some .eq) ∧
      ∃ a b, l[i]? = some a ∧ k[i]? = some b ∧ cmp a b = none := by
  induction l generalizing k with
  | nil => cases k <;> simp [seqPartialCmp]
  | cons a r ih =>
    cases k with
    | nil => simp [seqPartialCmp]
    | cons b s =>
      simp only [seqPartialCmp]
      constructor
      · intro h
        split at h
        · rename_i hab
          obtain ⟨i, h1, h2⟩ := (ih s).1 h
          refine ⟨i + 1, ?_, by simpa using h2⟩
          intro j hj
          cases j with
          | zero => exact ⟨a, b, rfl, rfl, hab⟩
          | succ j => simpa using h1 j (by omega)
        · exact ⟨0, by simp, a, b, rfl, rfl, h⟩
      · rintro ⟨i, h1, h2⟩
        cases i with
        | zero =>
          obtain ⟨x, y, e1, e2, e3⟩ := h2
          simp at e1 e2; subst e1 e2
          rw [e3]
        | succ i =>
          obtain ⟨x, y, hx, hy, hxy⟩ := h1 0 (by omega)
          simp at hx hy; subst hx hy
          rw [hxy]
          exact (ih s).2 ⟨i, fun j hj => by simpa using h1 (j + 1) (by omega), by simpa using h2⟩

/-- The documented answer of a lexicographic `partial_cmp`: go to the first position where the items are not `Equal` or one of the sequences has ended. The
answer is what the comparison says there, no answer if it says nothing; past the end of one of them, the shorter comes first. -/
def PartialLex (f : A → A → Option Ordering) (l k : List A) (o : Option Ordering) : Prop :=
  ∃ i : Nat, (∀ j, j < i → ∃ a b, l[j]? = some a ∧ k[j]? = some b ∧ f a b = some .eq) ∧
    match l[i]?, k[i]? with
    | some a, some b => f a b = o ∧ o ≠ some .eq
    | some _, none => o = some .gt
    | none, some _ => o = some .lt
    | none, none => o = some .eq

theorem seqPartialCmp_lex (f : A → A → Option Ordering) (l k : List A) : PartialLex f l k (seqPartialCmp f l k) := by
  induction l generalizing k with
  | nil => cases k <;> exact ⟨0, by simp, by simp [seqPartialCmp]⟩
  | cons a r ih =>
    cases k with
    | nil => exact ⟨0, by simp, by simp [seqPartialCmp]⟩
    | cons b s =>
      by_cases h : f a b = some .eq
      · obtain ⟨i, h1, h2⟩ := ih s
        have e : seqPartialCmp f (a :: r) (b :: s) = seqPartialCmp f r s := by simp [seqPartialCmp, h]
        rw [e]
        refine ⟨i + 1, fun j hj => ?_, by simpa using h2⟩
        cases j with
        | zero => exact ⟨a, b, rfl, rfl, h⟩
        | succ j => simpa using h1 j (by omega)
      · refine ⟨0, by simp, ?_⟩
        have e : seqPartialCmp f (a :: r) (b :: s) = f a b := by
          cases ho : f a b with
          | none => simp [seqPartialCmp, ho]
          | some o => cases o <;> simp_all [seqPartialCmp]
        rw [e]
        exact ⟨rfl, h⟩
/-- There is only one such answer. -/
theorem PartialLex.unique {f : A → A → Option Ordering} {l k : List A} {o o' : Option Ordering} (h : PartialLex f l k o) (h' : PartialLex f l k o') : o = o' := by
  obtain ⟨i, h1, h2⟩ := h
  obtain ⟨i', h1', h2'⟩ := h'
  have stop : ∀ {i i' : Nat} {o : Option Ordering}, (∀ j, j < i' → ∃ a b, l[j]? = some a ∧ k[j]? = some b ∧ f a b = some .eq) →
      (match l[i]?, k[i]? with
        | some a, some b => f a b = o ∧ o ≠ some .eq
        | some _, none => o = some .gt
        | none, some _ => o = some .lt
        | none, none => o = some .eq) → ¬ i < i' := by
    intro i i' o h1 h2 hlt
    obtain ⟨a, b, e1, e2, e3⟩ := h1 i hlt
    rw [e1, e2] at h2
    simp only at h2
    exact h2.2 (by rw [← h2.1, e3])
  have : i = i' := by have := stop h1' h2; have := stop h1 h2'; omega
  subst this
  cases hl : l[i]? <;> cases hk : k[i]? <;> rw [hl, hk] at h2 h2' <;> simp only at h2 h2'
  · rw [h2, h2']
  · rw [h2, h2']
  · rw [h2, h2']
  · rw [← h2.1, ← h2'.1]

end Verif
