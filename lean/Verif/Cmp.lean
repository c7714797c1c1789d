import Verif.Driver
/-
The standard library's comparisons and hashing of sequences, as the crate uses them, and their meaning.
(Modelled std code: `<[A] as PartialEq>::eq`, `Iterator::{eq, partial_cmp, cmp}`, `<[A] as Hash>::hash`.)
-/
namespace Verif
variable {A B H : Type}

/-- `<[A] as PartialEq<[B]>>::eq` and `Iterator::eq`: same length and equal items. -/
def seqEq (eq : A → B → Bool) : List A → List B → Bool
  | [], [] => true
  | a :: r, b :: s => eq a b && seqEq eq r s
  | _, _ => false

/-- `Iterator::cmp`: lexicographic. -/
def seqCmp (cmp : A → A → Ordering) : List A → List A → Ordering
  | [], [] => .eq
  | [], _ :: _ => .lt
  | _ :: _, [] => .gt
  | a :: r, b :: s => match cmp a b with
    | .eq => seqCmp cmp r s
    | o => o

/-- `Iterator::partial_cmp`: lexicographic, undecided at the first incomparable pair. -/
def seqPartialCmp (cmp : A → A → Option Ordering) : List A → List A → Option Ordering
  | [], [] => some .eq
  | [], _ :: _ => some .lt
  | _ :: _, [] => some .gt
  | a :: r, b :: s => match cmp a b with
    | some .eq => seqPartialCmp cmp r s
    | o => o

/-- What a `Hasher` receives: the calls made on it. -/
inductive Feed (H : Type) where
  | len (n : Nat)
  | word (h : H)
deriving DecidableEq

/-- `for item in seq { item.hash(hasher) }`. -/
def hashItems (hash : A → List (Feed H)) (l : List A) : List (Feed H) := l.flatMap hash

/-- `<[A] as Hash>::hash`: the length, then the items. -/
def hashSlice (hash : A → List (Feed H)) (l : List A) : List (Feed H) := .len l.length :: l.flatMap hash

/-- What a `Debug` implementation asks the `Formatter` for: text, a `debug_list` of items, a `debug_map` of entries.  How these are laid out
(`{:?}` or `{:#?}`) and how an item prints is up to the standard library and the item type. -/
inductive Fmt (A : Type) where
  | text (s : String)
  | list (l : List A)
  | map (l : List (Nat × A))
deriving DecidableEq

theorem seqEq_iff (eq : A → B → Bool) (l : List A) (k : List B) :
    seqEq eq l k = true ↔ l.length = k.length ∧ ∀ (i : Nat) a b, l[i]? = some a → k[i]? = some b → eq a b = true := by
  induction l generalizing k with
  | nil => cases k <;> simp [seqEq]
  | cons a r ih =>
    cases k with
    | nil => simp [seqEq]
    | cons b s =>
      simp only [seqEq, Bool.and_eq_true, ih, List.length_cons, Nat.add_right_cancel_iff]
      constructor
      · rintro ⟨h1, h2, h3⟩
        refine ⟨h2, ?_⟩
        intro i x y hx hy
        cases i with
        | zero => simp at hx hy; subst hx hy; exact h1
        | succ i => exact h3 i x y (by simpa using hx) (by simpa using hy)
      · rintro ⟨h2, h3⟩
        exact ⟨h3 0 a b rfl rfl, h2, fun i x y hx hy => h3 (i + 1) x y (by simpa using hx) (by simpa using hy)⟩

theorem seqEq_eq [DecidableEq A] (l k : List A) : seqEq (fun a b => decide (a = b)) l k = true ↔ l = k := by
  induction l generalizing k with
  | nil => cases k <;> simp [seqEq]
  | cons a r ih => cases k <;> simp [seqEq, ih]

theorem seqCmp_eq_iff (cmp : A → A → Ordering) (l k : List A) :
    seqCmp cmp l k = .eq ↔ l.length = k.length ∧ ∀ (i : Nat) a b, l[i]? = some a → k[i]? = some b → cmp a b = .eq := by
  induction l generalizing k with
  | nil => cases k <;> simp [seqCmp]
  | cons a r ih =>
    cases k with
    | nil => simp [seqCmp]
    | cons b s =>
      simp only [seqCmp, List.length_cons, Nat.add_right_cancel_iff]
      constructor
      · intro h
        split at h
        · rename_i hab
          obtain ⟨h2, h3⟩ := (ih s).1 h
          refine ⟨h2, ?_⟩
          intro i x y hx hy
          cases i with
          | zero => simp at hx hy; subst hx hy; exact hab
          | succ i => exact h3 i x y (by simpa using hx) (by simpa using hy)
        · exact absurd h (by assumption)
      · rintro ⟨h2, h3⟩
        rw [h3 0 a b rfl rfl]
        exact (ih s).2 ⟨h2, fun i x y hx hy => h3 (i + 1) x y (by simpa using hx) (by simpa using hy)⟩

/-- `l` comes before `k` in the lexicographic order given by `cmp`: at the first difference `l` ends, or has the
smaller item. -/
def LexBefore (cmp : A → A → Ordering) (l k : List A) : Prop :=
  ∃ i : Nat, (∀ j, j < i → ∃ a b, l[j]? = some a ∧ k[j]? = some b ∧ cmp a b = .eq) ∧
    ∃ b, k[i]? = some b ∧ (l[i]? = none ∨ ∃ a, l[i]? = some a ∧ cmp a b = .lt)

theorem seqCmp_lt_iff (cmp : A → A → Ordering) (l k : List A) : seqCmp cmp l k = .lt ↔ LexBefore cmp l k := by
  induction l generalizing k with
  | nil =>
    cases k with
    | nil => simp [seqCmp, LexBefore]
    | cons b s =>
      simp only [seqCmp, true_iff]
      exact ⟨0, by simp, b, rfl, .inl rfl⟩
  | cons a r ih =>
    cases k with
    | nil => simp [seqCmp, LexBefore]
    | cons b s =>
      simp only [seqCmp]
      constructor
      · intro h
        split at h
        · rename_i hab
          obtain ⟨i, h1, b', h2, h3⟩ := (ih s).1 h
          refine ⟨i + 1, ?_, b', by simpa using h2, by simpa using h3⟩
          intro j hj
          cases j with
          | zero => exact ⟨a, b, rfl, rfl, hab⟩
          | succ j => simpa using h1 j (by omega)
        · exact ⟨0, by simp, b, rfl, .inr ⟨a, rfl, h⟩⟩
      · rintro ⟨i, h1, b', h2, h3⟩
        cases i with
        | zero =>
          simp at h2 h3
          subst h2; rw [h3]
        | succ i =>
          obtain ⟨x, y, hx, hy, hxy⟩ := h1 0 (by omega)
          simp at hx hy; subst hx hy
          rw [hxy]
          refine (ih s).2 ⟨i, ?_, b', by simpa using h2, by simpa using h3⟩
          intro j hj
          simpa using h1 (j + 1) (by omega)

theorem seqPartialCmp_total (cmp : A → A → Ordering) (l k : List A) :
    seqPartialCmp (fun a b => some (cmp a b)) l k = some (seqCmp cmp l k) := by
  induction l generalizing k with
  | nil => cases k <;> rfl
  | cons a r ih =>
    cases k with
    | nil => rfl
    | cons b s =>
      simp only [seqPartialCmp, seqCmp, ih]
      cases cmp a b <;> rfl

theorem seqCmp_swap (cmp : A → A → Ordering) (hc : ∀ a b, cmp b a = (cmp a b).swap) (l k : List A) :
    seqCmp cmp k l = (seqCmp cmp l k).swap := by
  induction l generalizing k with
  | nil => cases k <;> rfl
  | cons a r ih =>
    cases k with
    | nil => rfl
    | cons b s =>
      simp only [seqCmp]
      rw [hc a b]
      cases cmp a b <;> simp [ih, Ordering.swap]

end Verif
