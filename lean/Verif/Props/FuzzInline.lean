import Verif.Fuzz
import Verif.Props.InlineOps
/-
C90: fuzz/fuzz_targets/inline_array.rs can never fail, whatever the input.
-/
namespace Verif.Inline
open Fuzz
section target
variable {A : Type} [DecidableEq A]

/-- fuzz/fuzz_targets/inline_array.rs:15-25.  `SplitOff` also says where in memory the cut-off part is put (in multiples of the alignment);
`move` stands for the compiler moving the array between two actions. -/
inductive Action (A : Type) where
  | push (v : A) | pop | set (i : Nat) (v : A) | insert (i : Nat) (v : A) | remove (i : Nat) | splitOff (k i : Nat) | drain | clear | move (k : Nat)

variable (E : Env) (L : Layout A)

/-- `chunk.drain().collect()` (src/inline_array/iter.rs:46-48). -/
def drainAll : Nat → M (Inline A) (List A)
  | 0 => M.diverge
  | f + 1 => do
    match (← iterNext E L) with
    | none => return []
    | some a => return a :: (← drainAll f)

/-- fuzz/fuzz_targets/inline_array.rs:32-85, the `match` in the loop.  The state is the array and the guide. -/
def act (a : Action A) (s : Inline A × List A) : Option (Inline A × List A) := do
  let (c, g) := s
  match a with
  | .push v =>
    if (← must (isFull E L c)).1 = true then return (← assertPanic (push E L v c), g)
    else return ((← must (push E L v c)).2, g ++ [v])
  | .pop =>
    let (x, c) ← must (pop E L c)
    check (sameOpt x (vecPop g).1)
    return (c, (vecPop g).2)
  | .set i v =>
    if i ≥ (← must (len E L c)).1 then return (← assertPanic (set E L i v c), g)
    else return ((← must (set E L i v c)).2, ← vecSet i v g)
  | .insert i v =>
    if (← orElse (decide (i > (← must (len E L c)).1)) (return (← must (isFull E L c)).1)) = true then
      return (← assertPanic (insert E L i v c), g)
    else return ((← must (insert E L i v c)).2, ← vecInsert i v g)
  | .remove i =>
    if i ≥ (← must (len E L c)).1 then
      let (x, c) ← must (remove E L i c)
      check (sameOpt none x)
      return (c, g)
    else
      let (x, c) ← must (remove E L i c)
      let (y, g) ← vecRemove i g
      check (sameOpt x (some y))
      return (c, g)
  | .splitOff k i =>
    if i > (← must (len E L c)).1 then return (← assertPanic (splitOff E L k i c), g)
    else
      let (off, c) ← must (splitOff E L k i c)
      let (goff, g) ← vecSplitOff i g
      check (← must (eqSlice E L same goff off)).1
      return (c, g)
  | .drain =>
    let (d, c) ← must (drainAll E L (cap E L + 1) c)
    check (seqEq same d g)
    return (c, [])
  | .clear => return ((← must (clear E L nodrop (c, []))).2.1, [])
  | .move k => return ((← must (moveTo L k c)).2, g)

/-- One turn of the loop: the action, then the assertions of lines 86-87. -/
def fuzzStep (a : Action A) (s : Inline A × List A) : Option (Inline A × List A) := do
  let (c, g) ← act E L a s
  check (← must (eqSlice E L same g c)).1
  check (decide (g.length ≤ cap E L))
  return (c, g)

/-- fuzz/fuzz_targets/inline_array.rs:27-89, the whole target, with the array first put at address `k` (in multiples of the alignment). -/
def fuzz (k : Nat) (actions : List (Action A)) : Option (Inline A × List A) := do
  let c := (← must (new E L k ())).1
  let g := (← must (items E L c)).1
  runAll (fuzzStep E L) actions (c, g)

/-! ### Proof -/
section proof
variable {E : Env} {L : Layout A} {c : Inline A} {l : List A}

theorem eqSlice_same (hv : L.Valid E) (h : Rep E L c l) (k : List A) : eqSlice E L same k c = .ok (decide (l = k)) c := by
  simp only [eqSlice, M.bind_run, items_eq hv h, Out.andThen_ok, M.pure_run, seqEq_same']

theorem drainAll_eq (hv : L.Valid E) (f : Nat) (h : Rep E L c l) (hf : l.length < f) : ∃ c', drainAll E L f c = .ok l c' ∧ Rep E L c' [] := by
  induction f generalizing c l with
  | zero => omega
  | succ f ih =>
    obtain ⟨c', e, h'⟩ := (iterNext_ref hv h).of_ok (a := l.head?) (t := l.tail) rfl
    cases l with
    | nil => exact ⟨c', by simp [drainAll, e], h'⟩
    | cons a r =>
      obtain ⟨c'', e', h''⟩ := ih h' (by simp at hf; simpa using hf)
      exact ⟨c'', by simp [drainAll, e, e'], h''⟩

theorem act_some (hv : L.Valid E) (a : Action A) (h : Rep E L c l) : ∃ c' l', act E L a (c, l) = some (c', l') ∧ Rep E L c' l' := by
  have hle := h.le
  cases a with
  | push v =>
    by_cases hf : l.length = cap E L
    · obtain ⟨c', e, h'⟩ := (push_ref hv h v).of_panic (t := l) (by simp [Spec.pushBack]; omega)
      exact ⟨c', l, by simp [act, isFull_eq hv h, must, hf, e, assertPanic], h'⟩
    · obtain ⟨c', e, h'⟩ := (push_ref hv h v).of_ok (a := ()) (t := l ++ [v]) (by simp [Spec.pushBack]; omega)
      exact ⟨c', _, by simp [act, isFull_eq hv h, must, hf, e], h'⟩
  | pop =>
    obtain ⟨c', e, h'⟩ := (pop_ref hv h).of_ok (a := l.getLast?) (t := l.dropLast) rfl
    exact ⟨c', l.dropLast, by simp [act, must, e, vecPop, check, sameOpt_self], h'⟩
  | set i v =>
    by_cases hi : i < l.length
    · obtain ⟨c', e, h'⟩ := (set_ref hv h i v).of_ok (a := l[i]) (t := l.set i v) (by simp [Spec.set, hi])
      exact ⟨c', _, by simp [act, len_eq hv h, must, Nat.not_le.2 hi, e, vecSet, hi], h'⟩
    · obtain ⟨c', e, h'⟩ := (set_ref hv h i v).of_panic (t := l) (by simp [Spec.set, hi])
      exact ⟨c', l, by simp [act, len_eq hv h, must, Nat.le_of_not_lt hi, e, assertPanic], h'⟩
  | insert i v =>
    by_cases hi : i ≤ l.length
    · by_cases hf : l.length = cap E L
      · obtain ⟨c', e, h'⟩ := (insert_ref hv h i v).of_panic (t := l) (by simp [Spec.insert]; omega)
        exact ⟨c', l, by simp [act, len_eq hv h, must, orElse, isFull_eq hv h, hf, e, assertPanic], h'⟩
      · obtain ⟨c', e, h'⟩ := (insert_ref hv h i v).of_ok (a := ()) (t := l.take i ++ v :: l.drop i) (by simp [Spec.insert]; omega)
        exact ⟨c', _, by simp [act, len_eq hv h, must, orElse, Nat.not_lt.2 hi, isFull_eq hv h, hf, e, vecInsert, hi], h'⟩
    · obtain ⟨c', e, h'⟩ := (insert_ref hv h i v).of_panic (t := l) (by simp [Spec.insert, hi])
      exact ⟨c', l, by simp [act, len_eq hv h, must, orElse, Nat.lt_of_not_le hi, e, assertPanic], h'⟩
  | remove i =>
    obtain ⟨c', e, h'⟩ := (remove_ref hv h i).of_ok (a := l[i]?) (t := l.take i ++ l.drop (i + 1)) rfl
    by_cases hi : i < l.length
    · exact ⟨c', _, by simp [act, len_eq hv h, must, Nat.not_le.2 hi, e, vecRemove, hi, check, sameOpt_self], h'⟩
    · have hi' : l.length ≤ i := by omega
      have e1 : l.take i ++ l.drop (i + 1) = l := by
        rw [List.take_of_length_le hi', List.drop_of_length_le (by omega)]; simp
      rw [e1] at h'
      exact ⟨c', l, by simp [act, len_eq hv h, must, hi', e, check, sameOpt_self], h'⟩
  | splitOff k i =>
    by_cases hi : i ≤ l.length
    · obtain ⟨o, c', e, ho, h'⟩ := (splitOff_ref hv h k i).of_ok (b := l.drop i) (t := l.take i) (by simp [Spec.splitOff, hi])
      refine ⟨c', l.take i, ?_, h'⟩
      simp [act, len_eq hv h, must, Nat.not_lt.2 hi, e, vecSplitOff, hi, check, eqSlice_same hv ho]
    · obtain ⟨c', e, h'⟩ := (splitOff_ref hv h k i).of_panic (t := l) (by simp [Spec.splitOff, hi])
      exact ⟨c', l, by simp [act, len_eq hv h, must, Nat.lt_of_not_le hi, e, assertPanic], h'⟩
  | drain =>
    obtain ⟨c', e, h'⟩ := drainAll_eq hv (cap E L + 1) h (by omega)
    exact ⟨c', [], by simp [act, e, must, check, seqEq_same], h'⟩
  | clear =>
    obtain ⟨⟨c', lg⟩, e, h', _⟩ := (clear_ref hv h nodrop []).of_ok (a := ()) (t := ([], l)) (by
      simp only [Spec.clear]; rw [Spec.dropping_total nodrop_total]; rfl)
    exact ⟨c', [], by simp [act, e, must], h'⟩
  | move k =>
    obtain ⟨c', e, h'⟩ := (moveTo_ref h k).of_ok (a := ()) (t := l) rfl
    exact ⟨c', l, by simp [act, e, must], h'⟩
end proof

/-- C90. The project's own fuzz target for `InlineArray` cannot fail: for every element and host layout that `new` accepts and every
sequence of actions that the fuzzer may come up with, no assertion of the target fails, the code panics exactly where the target expects
it to, and nothing is undefined. -/
theorem C90_fuzz_never_fails {E : Env} {L : Layout A} (hv : L.Valid E) (ha : Accepted E L) (k : Nat) (actions : List (Action A)) :
    ∃ s, fuzz E L k actions = some s ∧ View E L s.1 s.2 := by
  obtain ⟨c, e0, h⟩ := new_ok hv ha k
  obtain ⟨s, e, hr⟩ := runAll_some (step := fuzzStep E L) (I := fun s => Rep E L s.1 s.2) (P := fun _ : Action A => True) (fun a s _ hi => by
    obtain ⟨c', l', e, h'⟩ := act_some hv a hi
    exact ⟨(c', l'), by simp [fuzzStep, e, must, eqSlice_same hv h', check, h'.le], h'⟩) actions (fun _ _ => trivial) (c, []) h
  exact ⟨s, by simp [fuzz, e0, items_eq hv h, must, e], hr.view hv⟩

end target

section examples
/-- Actions on an array of capacity 4, some refused. -/
def someActions : List (Action Nat) :=
  [.push 1, .push 2, .insert 1 3, .insert 9 9, .push 4, .push 5, .set 0 7, .set 4 7, .move 3, .remove 2, .remove 8, .splitOff 5 2, .splitOff 5 3, .pop, .drain, .pop, .push 6, .clear]
example : words.Valid Chunk.dbg64 ∧ Accepted Chunk.dbg64 words := ⟨words_valid, by decide⟩
example : (fuzz Chunk.dbg64 words 2 (someActions.take 13)).map (·.2) = some [7, 3] := by decide +kernel
/-- The target fails for a host that `new` refuses. -/
example : fuzz Chunk.dbg64 (⟨8, 8, 4, 4, 8, 8, 8, none⟩ : Layout Nat) 0 [] = none := by decide +kernel
end examples
end Verif.Inline
