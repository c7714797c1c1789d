import Verif.World
import Verif.Cmp
/-
A fuzz target as a program: it runs the code under test next to a standard collection (the guide) and asserts that they agree.
`none` means that the target fails: an assertion does not hold, a call panics that should not, or undefined behaviour, an abort or an
endless loop is reached.  `Vec` is a list, its operations panic (fail the target) when given a bad index.
-/
namespace Verif.Fuzz
variable {σ α A : Type}

/-- A call that is not expected to panic. -/
def must : Out σ α → Option (α × σ)
  | .ok a s => some (a, s)
  | _ => none
/-- fuzz/fuzz_targets/assert.rs:3-15 `assert_panic`: the call is expected to panic; afterwards the target goes on with what it left behind. -/
def assertPanic : Out σ α → Option σ
  | .panic s => some s
  | _ => none
/-- The target fails when the call it expects to panic does anything else. -/
theorem assertPanic_iff {o : Out σ α} {s : σ} : assertPanic o = some s ↔ o = .panic s := by
  cases o <;> simp [assertPanic]
/-- `assert!`, `assert_eq!`. -/
def check (b : Bool) : Option Unit := if b = true then some () else none

/-- `a + b` on `usize` in the target itself: overflow fails the target in debug builds and wraps in release builds. -/
def add (E : Env) (a b : Nat) : Option Nat := do return (← must (uadd E a b ())).1
/-- `a - b` on `usize` in the target itself. -/
def sub (E : Env) (a b : Nat) : Option Nat := do return (← must (usub E a b ())).1
/-- `||`: the right side is evaluated only if the left one is false. -/
def orElse (a : Bool) (b : Option Bool) : Option Bool := if a = true then some true else b

/-- `Vec::insert`. -/
def vecInsert (i : Nat) (v : A) (g : List A) : Option (List A) := if i ≤ g.length then some (g.take i ++ v :: g.drop i) else none
/-- `Vec::remove`. -/
def vecRemove (i : Nat) (g : List A) : Option (A × List A) := g[i]?.map fun a => (a, g.take i ++ g.drop (i + 1))
/-- `Vec::pop`. -/
def vecPop (g : List A) : Option A × List A := (g.getLast?, g.dropLast)
/-- `Vec::split_off` (also `drain(i..)`): what is cut off, and what stays. -/
def vecSplitOff (i : Nat) (g : List A) : Option (List A × List A) := if i ≤ g.length then some (g.drop i, g.take i) else none
/-- `drain(..i)`: what is taken out, and what stays. -/
def vecDrainFront (i : Nat) (g : List A) : Option (List A × List A) := if i ≤ g.length then some (g.take i, g.drop i) else none
/-- `guide[i] = value`. -/
def vecSet (i : Nat) (v : A) (g : List A) : Option (List A) := if i < g.length then some (g.set i v) else none
/-- `for value in values.into_iter().rev() { guide.insert(index, value) }`. -/
def vecInsertRev (i : Nat) (vs : List A) (g : List A) : Option (List A) := vs.reverse.foldlM (fun g v => vecInsert i v g) g

/-- Run a target over all its actions. -/
def runAll {Act : Type} (step : Act → σ → Option σ) : List Act → σ → Option σ
  | [], s => some s
  | a :: r, s => do runAll step r (← step a s)

theorem must_ok (a : α) (s : σ) : must (.ok a s) = some (a, s) := rfl
theorem assertPanic_panic (s : σ) : assertPanic (.panic s : Out σ α) = some s := rfl
theorem add_eq {E : Env} {a b : Nat} (h : a + b < E.W) : add E a b = some (a + b) := by simp [add, uadd, h, must]
theorem sub_eq {E : Env} {a b : Nat} (h : b ≤ a) : sub E a b = some (a - b) := by simp [sub, usub, h, must]
theorem orElse_true (b : Option Bool) : orElse true b = some true := rfl
theorem orElse_false (b : Option Bool) : orElse false b = b := rfl
theorem check_true : check true = some () := rfl

theorem vecInsertRev_eq (i : Nat) (vs g : List A) (h : i ≤ g.length) : vecInsertRev i vs g = some (g.take i ++ vs ++ g.drop i) := by
  unfold vecInsertRev
  induction vs with
  | nil => simp
  | cons v vs ih =>
    rw [List.reverse_cons, List.foldlM_append, ih]
    simp only [List.foldlM_cons, List.foldlM_nil, Option.bind_eq_bind, Option.bind_some, vecInsert]
    rw [if_pos (by simp; omega)]
    have h1 : (g.take i ++ vs ++ g.drop i).take i = g.take i := by
      rw [List.append_assoc, List.take_append, List.take_take]; simp [h]
    have h2 : (g.take i ++ vs ++ g.drop i).drop i = vs ++ g.drop i := by
      rw [List.append_assoc, List.drop_append]; simp [h]
    rw [h1, h2]; simp

theorem runAll_some {Act : Type} {step : Act → σ → Option σ} {I : σ → Prop} {P : Act → Prop}
    (h : ∀ a s, P a → I s → ∃ s', step a s = some s' ∧ I s') (as : List Act) (hp : ∀ a, a ∈ as → P a) : ∀ s, I s → ∃ s', runAll step as s = some s' ∧ I s' := by
  induction as with
  | nil => intro s hs; exact ⟨s, rfl, hs⟩
  | cons a as ih =>
    intro s hs
    obtain ⟨s', e, hs'⟩ := h a s (hp a (by simp)) hs
    obtain ⟨s'', e', hs''⟩ := ih (fun a ha => hp a (by simp [ha])) s' hs'
    exact ⟨s'', by simp [runAll, e, e'], hs''⟩

/-- Destructors of `u32` do nothing. -/
def nodrop : A → Bool := fun _ => false
theorem nodrop_total (a : A) : nodrop a = false := rfl
/-- What is asked of the standard library's `binary_search`: it returns an index into the slice, or one past it. -/
def SearchTotal (search : List A → A → Option (Except Nat Nat)) : Prop :=
  ∀ l v, ∃ i, i ≤ l.length ∧ (search l v = some (.ok i) ∨ search l v = some (.error i))

section same
variable [DecidableEq A]
/-- Equality of elements. -/
def same : A → A → Bool := fun a b => decide (a = b)
/-- Equality of optional elements. -/
def sameOpt (a b : Option A) : Bool := decide (a = b)
theorem seqEq_same (l : List A) : seqEq same l l = true := (seqEq_eq l l).2 rfl
theorem seqEq_same' (l k : List A) : seqEq same l k = decide (l = k) := by
  rw [Bool.eq_iff_iff]; exact (seqEq_eq l k).trans (by simp)
theorem same_self (a : A) : same a a = true := by simp [same]
theorem sameOpt_self (a : Option A) : sameOpt a a = true := by simp [sameOpt]
end same

/-- `Iterator::is_sorted`: each item compares `≤` with the next. -/
def isSorted (le : A → A → Bool) : List A → Bool
  | [] => true
  | a :: r => (match r with | [] => true | b :: _ => le a b) && isSorted le r
theorem isSorted_pairwise {le : A → A → Bool} (htr : ∀ x y z, le x y = true → le y z = true → le x z = true) (l : List A)
    (h : isSorted le l = true) : l.Pairwise (fun a b => le a b = true) := by
  induction l with
  | nil => exact .nil
  | cons a r ih =>
    simp only [isSorted, Bool.and_eq_true] at h
    have hr := ih h.2
    refine List.Pairwise.cons ?_ hr
    cases r with
    | nil => simp
    | cons b r =>
      intro x hx
      simp only [List.mem_cons] at hx
      rcases hx with rfl | hx
      · exact h.1
      · exact htr _ _ _ h.1 ((List.pairwise_cons.1 hr).1 x hx)

/-- Two sorted arrangements of the same items are the same list, if the order tells different items apart. -/
theorem sorted_unique {le : A → A → Prop} (ha : ∀ a b, le a b → le b a → a = b) {l : List A} : ∀ {k : List A}, l.Pairwise le → k.Pairwise le →
    l.Perm k → l = k := by
  induction l with
  | nil => intro k _ _ hp; exact (List.nil_perm.1 hp).symm
  | cons a l ih =>
    intro k h1 h2 hp
    cases k with
    | nil => exact absurd hp (by simp)
    | cons b k =>
      have hab : a = b := by
        have m1 : a ∈ b :: k := hp.subset (by simp)
        have m2 : b ∈ a :: l := hp.symm.subset (by simp)
        rcases List.mem_cons.1 m1 with h | h
        · exact h
        · rcases List.mem_cons.1 m2 with h' | h'
          · exact h'.symm
          · exact ha _ _ ((List.pairwise_cons.1 h1).1 _ h') ((List.pairwise_cons.1 h2).1 _ h)
      subst hab
      rw [ih (List.pairwise_cons.1 h1).2 (List.pairwise_cons.1 h2).2 (List.perm_cons a |>.1 hp)]

end Verif.Fuzz
