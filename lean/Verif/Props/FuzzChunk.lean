import Verif.Fuzz
import Verif.Props.ChunkBulk
/-
C90: fuzz/fuzz_targets/sized_chunk.rs can never fail, whatever the input.
-/
namespace Verif.Chunk
open Fuzz
section target
variable {A : Type} [DecidableEq A]

/-- fuzz/fuzz_targets/sized_chunk.rs:15-24. -/
inductive Construct (A : Type) where
  | empty | single (v : A) | pair (v w : A) | drainFrom (vec : Chunk A) | collectFrom (vec : Chunk A) (len : Nat)
  | fromFront (vec : Chunk A) (len : Nat) | fromBack (vec : Chunk A) (len : Nat)

/-- fuzz/fuzz_targets/sized_chunk.rs:26-44. -/
inductive Action (A : Type) where
  | pushFront (v : A) | pushBack (v : A) | popFront | popBack | dropLeft (i : Nat) | dropRight (i : Nat) | splitOff (i : Nat)
  | append (c : Construct A) | drainFromFront (c : Construct A) (n : Nat) | drainFromBack (c : Construct A) (n : Nat)
  | set (i : Nat) (v : A) | insert (i : Nat) (v : A) | insertFrom (vs : List A) (i : Nat) | insertOrdered (v : A) | remove (i : Nat)
  | drain | clear

variable (E : Env) (N : Nat) (search : List A → A → Option (Except Nat Nat))

/-- `chunk.drain().collect()` (iter.rs:56-62). -/
def drainAll : Nat → M (Chunk A) (List A)
  | 0 => M.diverge
  | f + 1 => do
    match (← iterNext E N) with
    | none => return []
    | some a => return a :: (← drainAll f)

/-- fuzz/fuzz_targets/sized_chunk.rs:46-113 `make`.  The values and chunks that go out of scope are not dropped (elements have no
destructor).  Simplification: in `CollectFrom` the source iterator, a chunk's `into_iter`, is represented by the items it yields (C18). -/
def Construct.make : Construct A → Option (Chunk A)
  | .empty => do
    let out := Chunk.new
    check (← must (isEmpty out)).1
    return out
  | .single v => do
    let out := (← must (unit N v ())).1
    check (← must (eqSlice E N same [v] out)).1
    return out
  | .pair v w => do
    let out := (← must (Chunk.pair N v w ())).1
    check (← must (eqSlice E N same [v, w] out)).1
    return out
  | .drainFrom vec => do
    let source := (← must (fromIter E N nodrop (It.ofList (← must (asSlice E N vec)).1) [])).1
    let (out, source) ← must (Chunk.drainFrom E N source)
    check (← must (isEmpty source)).1
    check (← must (eqChunk E N N same (out, vec))).1
    return out
  | .collectFrom vec len => do
    if (← must (isEmpty vec)).1 = true then return Chunk.new
    let len := len % (← must (Chunk.len E vec)).1
    let source := (← must (clone E N nodrop some (vec, []))).1
    let (out, rest) ← must (Chunk.collectFrom E N nodrop len (It.ofList (← must (asSlice E N source)).1, []))
    let (expected, vec) ← must (splitOff E N len vec)
    check (← must (eqSlice E N same rest.1.items expected)).1
    check (← must (eqChunk E N N same (out, vec))).1
    return out
  | .fromFront vec len => do
    if (← must (isEmpty vec)).1 = true then return Chunk.new
    let len := len % (← must (Chunk.len E vec)).1
    let source := (← must (fromIter E N nodrop (It.ofList (← must (asSlice E N vec)).1) [])).1
    let (out, source) ← must (Chunk.fromFront E N len source)
    let (remainder, vec) ← must (splitOff E N len vec)
    check (← must (eqChunk E N N same (source, remainder))).1
    check (← must (eqChunk E N N same (out, vec))).1
    return out
  | .fromBack vec len => do
    if (← must (isEmpty vec)).1 = true then return Chunk.new
    let len := len % (← must (Chunk.len E vec)).1
    let source := (← must (fromIter E N nodrop (It.ofList (← must (asSlice E N vec)).1) [])).1
    let (out, source) ← must (Chunk.fromBack E N len source)
    let (remainder, vec) ← must (splitOff E N (← sub E (← must (Chunk.len E vec)).1 len) vec)
    check (← must (eqChunk E N N same (out, remainder))).1
    check (← must (eqChunk E N N same (source, vec))).1
    return out

/-- fuzz/fuzz_targets/sized_chunk.rs:120-266, the `match` in the loop.  The state is the chunk and the guide. -/
def act (a : Action A) (s : Chunk A × List A) : Option (Chunk A × List A) := do
  let (c, g) := s
  match a with
  | .pushFront v =>
    if (← must (isFull N c)).1 = true then return (← assertPanic (pushFront E N v c), g)
    else return ((← must (pushFront E N v c)).2, ← vecInsert 0 v g)
  | .pushBack v =>
    if (← must (isFull N c)).1 = true then return (← assertPanic (pushBack E N v c), g)
    else return ((← must (pushBack E N v c)).2, g ++ [v])
  | .popFront =>
    if (← must (isEmpty c)).1 = true then return (← assertPanic (popFront E N c), g)
    else
      let (x, c) ← must (popFront E N c)
      let (y, g) ← vecRemove 0 g
      check (same x y)
      return (c, g)
  | .popBack =>
    if (← must (isEmpty c)).1 = true then return (← assertPanic (popBack E N c), g)
    else
      let (x, c) ← must (popBack E N c)
      let y ← (vecPop g).1
      check (same x y)
      return (c, (vecPop g).2)
  | .dropLeft i =>
    if i > (← must (len E c)).1 then return ((← assertPanic (dropLeft E N nodrop i (c, []))).1, g)
    else return ((← must (dropLeft E N nodrop i (c, []))).2.1, (← vecDrainFront i g).2)
  | .dropRight i =>
    if i > (← must (len E c)).1 then return ((← assertPanic (dropRight E N nodrop i (c, []))).1, g)
    else return ((← must (dropRight E N nodrop i (c, []))).2.1, (← vecSplitOff i g).2)
  | .splitOff i =>
    if i > (← must (len E c)).1 then return (← assertPanic (splitOff E N i c), g)
    else
      let (off, c) ← must (splitOff E N i c)
      let (goff, g) ← vecSplitOff i g
      check (← must (eqSlice E N same goff off)).1
      return (c, g)
  | .append cons =>
    let other ← cons.make E N
    let og := (← must (asSlice E N other)).1
    if (← add E (← must (len E other)).1 (← must (len E c)).1) > N then return ((← assertPanic (append E N (c, other))).1, g)
    else return ((← must (append E N (c, other))).2.1, g ++ og)
  | .drainFromFront cons n =>
    let other ← cons.make E N
    let og := (← must (asSlice E N other)).1
    if (← orElse (decide (n > (← must (len E other)).1)) (return decide ((← add E (← must (len E c)).1 n) > N))) = true then
      return ((← assertPanic (drainFromFront E N n (c, other))).1, g)
    else
      let (c, other) := (← must (drainFromFront E N n (c, other))).2
      let (moved, og) ← vecDrainFront n og
      check (← must (eqSlice E N same og other)).1
      return (c, g ++ moved)
  | .drainFromBack cons n =>
    let other ← cons.make E N
    let og := (← must (asSlice E N other)).1
    if (← orElse (decide (n > (← must (len E other)).1)) (return decide ((← add E (← must (len E c)).1 n) > N))) = true then
      return ((← assertPanic (drainFromBack E N n (c, other))).1, g)
    else
      let k ← sub E (← must (len E other)).1 n
      let (c, other) := (← must (drainFromBack E N n (c, other))).2
      let (moved, og) ← vecSplitOff k og
      check (← must (eqSlice E N same og other)).1
      return (c, moved ++ g)
  | .set i v =>
    if i ≥ (← must (len E c)).1 then return (← assertPanic (set E N i v c), g)
    else return ((← must (set E N i v c)).2, ← vecSet i v g)
  | .insert i v =>
    if (← orElse (decide (i > (← must (len E c)).1)) (return (← must (isFull N c)).1)) = true then
      return (← assertPanic (insert E N i v c), g)
    else return ((← must (insert E N i v c)).2, ← vecInsert i v g)
  | .insertFrom vs i =>
    if (← orElse (decide (i > (← must (len E c)).1)) (return decide ((← add E (← must (len E c)).1 vs.length) > N))) = true then
      return ((← assertPanic (insertFrom E N nodrop i ⟨vs.length, vs.length, It.ofList vs⟩ (c, []))).1, g)
    else
      return ((← must (insertFrom E N nodrop i ⟨vs.length, vs.length, It.ofList vs⟩ (c, []))).2.1, ← vecInsertRev i vs g)
  | .insertOrdered v =>
    if (← must (isFull N c)).1 = true then return (← assertPanic (insertOrdered E N search v c), g)
    else
      let c := (← must (insertOrdered E N search v c)).2
      match (← search g v) with
      | .ok i => return (c, ← vecInsert i v g)
      | .error i => return (c, ← vecInsert i v g)
  | .remove i =>
    if i ≥ (← must (len E c)).1 then return (← assertPanic (remove E N i c), g)
    else
      let (x, c) ← must (remove E N i c)
      let (y, g) ← vecRemove i g
      check (same x y)
      return (c, g)
  | .drain =>
    let (d, c) ← must (drainAll E N (N + 1) c)
    check (seqEq same d g)
    return (c, [])
  | .clear => return ((← must (clear E N nodrop (c, []))).2.1, [])

/-- One turn of the loop: the action, then the assertions of lines 267-268. -/
def fuzzStep (a : Action A) (s : Chunk A × List A) : Option (Chunk A × List A) := do
  let (c, g) ← act E N search a s
  check (← must (eqSlice E N same g c)).1
  check (decide (g.length ≤ N))
  return (c, g)

/-- fuzz/fuzz_targets/sized_chunk.rs:115-270, the whole target. -/
def fuzz (cons : Construct A) (actions : List (Action A)) : Option (Chunk A × List A) := do
  let c ← cons.make E N
  let g := (← must (asSlice E N c)).1
  runAll (fuzzStep E N search) actions (c, g)


/-! ### Proof -/
section proof
variable {E : Env} {N : Nat} {search : List A → A → Option (Except Nat Nat)} {c d : Chunk A} {l k : List A}

theorem eqSlice_same (h : Rep N c l) (k : List A) : eqSlice E N same k c = .ok (decide (l = k)) c := by
  simp only [eqSlice, M.bind_run, asSlice_eq (E := E) h, Out.andThen_ok, M.pure_run]
  congr 1
  rw [Bool.eq_iff_iff]; exact (seqEq_eq l k).trans (by simp)
theorem eqChunk_same (h : Rep N c l) (h' : Rep N d k) : eqChunk E N N same (c, d) = .ok (decide (l = k)) (c, d) :=
  C20_eq_chunk (h.view E) (h'.view E)

/-- What a fuzzer-made construct contains. -/
def Construct.Valid (E : Env) (N : Nat) : Construct A → Prop
  | .empty | .single _ | .pair _ _ => True
  | .drainFrom vec | .collectFrom vec _ | .fromFront vec _ | .fromBack vec _ => ∃ l, View E N vec l
/-- What a fuzzer-made action contains. -/
def Action.Valid (E : Env) (N : Nat) : Action A → Prop
  | .append cons | .drainFromFront cons _ | .drainFromBack cons _ => cons.Valid E N
  | .insertFrom vs _ => N + vs.length < E.W
  | _ => True

omit [DecidableEq A] in
theorem fromIter_all (hN : N < E.W) (xs : List A) (hl : xs.length ≤ N) :
    ∃ c, fromIter E N nodrop (It.ofList xs) [] = .ok c [] ∧ Rep N c xs := by
  obtain ⟨c, s, e, h1, h2⟩ := (fromIter_ref (E := E) (N := N) hN nodrop (It.ofList xs) []).of_ok (b := xs) (t := [])
    (by simp only [Spec.fromIter]; rw [specExtend_ok xs (by simpa using hl)]; simp)
  subst h2
  exact ⟨c, e, h1⟩

theorem make_some (hN : 2 * N < E.W) (h2 : 2 ≤ N) (cons : Construct A) (hv : cons.Valid E N) :
    ∃ c l, cons.make E N = some c ∧ Rep N c l := by
  have hW : N < E.W := by omega
  cases cons with
  | empty => exact ⟨_, [], by simp [Construct.make, isEmpty_eq (N := N) (c := Chunk.new) (l := []) Rep.new, must, check], Rep.new⟩
  | single v =>
    obtain ⟨c, _, e, h, _⟩ := (unit_ref (N := N) v).of_ok (b := [v]) (t := ()) (by simp [Spec.unit]; omega)
    exact ⟨c, [v], by simp [Construct.make, e, must, check, eqSlice_same (E := E) h], h⟩
  | pair v w =>
    obtain ⟨c, _, e, h, _⟩ := (pair_ref (N := N) v w).of_ok (b := [v, w]) (t := ()) (by simp [Spec.pair, h2])
    exact ⟨c, [v, w], by simp [Construct.make, e, must, check, eqSlice_same (E := E) h], h⟩
  | drainFrom vec =>
    obtain ⟨l, hv⟩ := hv
    have hr := hv.rep hN
    obtain ⟨s, es, hs⟩ := fromIter_all hW l hr.length_le
    obtain ⟨o, s', e, ho, hs'⟩ := (drainFrom_ref (E := E) hW hs).of_ok rfl
    refine ⟨o, l, ?_, ho⟩
    simp [Construct.make, asSlice_eq (E := E) hr, must, es, e, check, isEmpty_eq hs', eqChunk_same (E := E) ho hr]
  | collectFrom vec n =>
    obtain ⟨l, hv⟩ := hv
    have hr := hv.rep hN
    by_cases hl : l = []
    · subst hl
      exact ⟨_, [], by simp [Construct.make, isEmpty_eq hr, must], Rep.new⟩
    have hn : n % l.length < l.length := Nat.mod_lt _ (List.length_pos_iff.2 hl)
    have hle := hr.length_le
    obtain ⟨s, t, es, ⟨hs, _⟩, ht, _⟩ := (clone_ref (E := E) hW nodrop some hr []).of_ok (b := l) (t := (l, [])) (by
      simp [Spec.clone, bornOf_all (cl := some) (l := l) (cs := l) rfl])
    obtain ⟨o, t', e, ho, ht'⟩ := (collectFrom_ref (E := E) (N := N) hW nodrop (n % l.length) (It.ofList l) []).of_ok
      (b := l.take (n % l.length)) (t := ((It.ofList l).drop (n % l.length), [])) (by
        simp only [Spec.collectFrom, It.items_ofList]; rw [if_pos (by omega), if_pos (by omega)])
    obtain ⟨r, v', er, hr', hv'⟩ := (splitOff_ref (E := E) hW hr (n % l.length)).of_ok (b := l.drop (n % l.length)) (t := l.take (n % l.length)) (by
      simp [Spec.splitOff]; omega)
    subst ht'
    refine ⟨o, _, ?_, ho⟩
    simp [Construct.make, isEmpty_eq hr, must, hl, len_eq (E := E) hr, es, asSlice_eq (E := E) hs, e, er, It.drop_ofList, It.items_ofList, check, eqSlice_same (E := E) hr', eqChunk_same (E := E) ho hv']
  | fromFront vec n =>
    obtain ⟨l, hv⟩ := hv
    have hr := hv.rep hN
    by_cases hl : l = []
    · subst hl
      exact ⟨_, [], by simp [Construct.make, isEmpty_eq hr, must], Rep.new⟩
    have hn : n % l.length < l.length := Nat.mod_lt _ (List.length_pos_iff.2 hl)
    obtain ⟨s, es, hs⟩ := fromIter_all hW l hr.length_le
    obtain ⟨o, s', e, ho, hs'⟩ := (fromFront_ref (E := E) hW hs (n % l.length) (Or.inr (by omega))).of_ok (b := l.take (n % l.length)) (t := l.drop (n % l.length)) (by
      simp [Spec.fromFront]; omega)
    obtain ⟨r, v', er, hr', hv'⟩ := (splitOff_ref (E := E) hW hr (n % l.length)).of_ok (b := l.drop (n % l.length)) (t := l.take (n % l.length)) (by
      simp [Spec.splitOff]; omega)
    refine ⟨o, _, ?_, ho⟩
    simp [Construct.make, isEmpty_eq hr, must, hl, len_eq (E := E) hr, es, asSlice_eq (E := E) hr, e, er, check, eqChunk_same (E := E) hs' hr', eqChunk_same (E := E) ho hv']
  | fromBack vec n =>
    obtain ⟨l, hv⟩ := hv
    have hr := hv.rep hN
    by_cases hl : l = []
    · subst hl
      exact ⟨_, [], by simp [Construct.make, isEmpty_eq hr, must], Rep.new⟩
    have hn : n % l.length < l.length := Nat.mod_lt _ (List.length_pos_iff.2 hl)
    obtain ⟨s, es, hs⟩ := fromIter_all hW l hr.length_le
    obtain ⟨o, s', e, ho, hs'⟩ := (fromBack_ref (E := E) hs (n % l.length) (Or.inr (by omega))).of_ok
      (b := l.drop (l.length - n % l.length)) (t := l.take (l.length - n % l.length)) (by simp [Spec.fromBack]; omega)
    obtain ⟨r, v', er, hr', hv'⟩ := (splitOff_ref (E := E) hW hr (l.length - n % l.length)).of_ok
      (b := l.drop (l.length - n % l.length)) (t := l.take (l.length - n % l.length)) (by simp [Spec.splitOff])
    refine ⟨o, _, ?_, ho⟩
    simp [Construct.make, isEmpty_eq hr, must, hl, len_eq (E := E) hr, es, asSlice_eq (E := E) hr, e, er, check, sub_eq (E := E) (Nat.le_of_lt hn), eqChunk_same (E := E) hs' hv',
      eqChunk_same (E := E) ho hr']

omit [DecidableEq A] in
theorem drainAll_eq (hN : N < E.W) (f : Nat) (h : Rep N c l) (hf : l.length < f) : ∃ c', drainAll E N f c = .ok l c' ∧ Rep N c' [] := by
  induction f generalizing c l with
  | zero => omega
  | succ f ih =>
    obtain ⟨c', e, h'⟩ := (iterNext_ref (E := E) hN h).of_ok (a := l.head?) (t := l.tail) rfl
    cases l with
    | nil => exact ⟨c', by simp [drainAll, e], h'⟩
    | cons a r =>
      obtain ⟨c'', e', h''⟩ := ih h' (by simp at hf; simpa using hf)
      exact ⟨c'', by simp [drainAll, e, e'], h''⟩

theorem act_some (hN : 2 * N < E.W) (h2 : 2 ≤ N) (hs : SearchTotal search) (a : Action A) (ha : a.Valid E N) (h : Rep N c l) :
    ∃ c' l', act E N search a (c, l) = some (c', l') ∧ Rep N c' l' := by
  have hW : N < E.W := by omega
  have hle := h.length_le
  cases a with
  | pushFront v =>
    by_cases hf : l.length = N
    · obtain ⟨c', e, h'⟩ := (pushFront_ref (E := E) h v).of_panic (t := l) (by simp [Spec.pushFront]; omega)
      exact ⟨c', l, by simp [act, isFull_eq h, must, hf, e, assertPanic], h'⟩
    · obtain ⟨c', e, h'⟩ := (pushFront_ref (E := E) h v).of_ok (a := ()) (t := v :: l) (by simp [Spec.pushFront]; omega)
      exact ⟨c', _, by simp [act, isFull_eq h, must, hf, e, vecInsert], h'⟩
  | pushBack v =>
    by_cases hf : l.length = N
    · obtain ⟨c', e, h'⟩ := (pushBack_ref (E := E) hW h v).of_panic (t := l) (by simp [Spec.pushBack]; omega)
      exact ⟨c', l, by simp [act, isFull_eq h, must, hf, e, assertPanic], h'⟩
    · obtain ⟨c', e, h'⟩ := (pushBack_ref (E := E) hW h v).of_ok (a := ()) (t := l ++ [v]) (by simp [Spec.pushBack]; omega)
      exact ⟨c', _, by simp [act, isFull_eq h, must, hf, e], h'⟩
  | popFront =>
    cases l with
    | nil =>
      obtain ⟨c', e, h'⟩ := (popFront_ref (E := E) hW h).of_panic (t := []) (by simp [Spec.popFront])
      exact ⟨c', [], by simp [act, isEmpty_eq h, must, e, assertPanic], h'⟩
    | cons x r =>
      obtain ⟨c', e, h'⟩ := (popFront_ref (E := E) hW h).of_ok (a := x) (t := r) (by simp [Spec.popFront])
      exact ⟨c', r, by simp [act, isEmpty_eq h, must, e, vecRemove, check, same_self], h'⟩
  | popBack =>
    by_cases hl : l = []
    · subst hl
      obtain ⟨c', e, h'⟩ := (popBack_ref (E := E) h).of_panic (t := []) (by simp [Spec.popBack])
      exact ⟨c', [], by simp [act, isEmpty_eq h, must, e, assertPanic], h'⟩
    · have hg : l.getLast? = some (l.getLast hl) := List.getLast?_eq_some_getLast hl
      obtain ⟨c', e, h'⟩ := (popBack_ref (E := E) h).of_ok (a := l.getLast hl) (t := l.dropLast) (by simp [Spec.popBack, hg])
      exact ⟨c', l.dropLast, by simp [act, isEmpty_eq h, must, e, vecPop, hl, hg, check, same_self], h'⟩
  | dropLeft i =>
    by_cases hi : i ≤ l.length
    · obtain ⟨⟨c', lg⟩, e, h', _⟩ := (dropLeft_ref (E := E) hW nodrop i h []).of_ok (a := ()) (t := (l.drop i, l.take i)) (by
        simp only [Spec.dropLeft]; rw [if_pos hi, Spec.dropping_total nodrop_total]; rfl)
      refine ⟨c', l.drop i, ?_, h'⟩
      simp [act, len_eq (E := E) h, must, Nat.not_lt.2 hi, e, vecDrainFront, hi]
    · obtain ⟨⟨c', lg⟩, e, h', _⟩ := (dropLeft_ref (E := E) hW nodrop i h []).of_panic (t := (l, [])) (by simp [Spec.dropLeft, hi])
      exact ⟨c', l, by simp [act, len_eq (E := E) h, must, Nat.lt_of_not_le hi, e, assertPanic], h'⟩
  | dropRight i =>
    by_cases hi : i ≤ l.length
    · obtain ⟨⟨c', lg⟩, e, h', _⟩ := (dropRight_ref (E := E) hW nodrop i h []).of_ok (a := ()) (t := (l.take i, l.drop i)) (by
        simp only [Spec.dropRight]; rw [if_pos hi, Spec.dropping_total nodrop_total]; rfl)
      refine ⟨c', l.take i, ?_, h'⟩
      simp [act, len_eq (E := E) h, must, Nat.not_lt.2 hi, e, vecSplitOff, hi]
    · obtain ⟨⟨c', lg⟩, e, h', _⟩ := (dropRight_ref (E := E) hW nodrop i h []).of_panic (t := (l, [])) (by simp [Spec.dropRight, hi])
      exact ⟨c', l, by simp [act, len_eq (E := E) h, must, Nat.lt_of_not_le hi, e, assertPanic], h'⟩
  | splitOff i =>
    by_cases hi : i ≤ l.length
    · obtain ⟨o, c', e, ho, h'⟩ := (splitOff_ref (E := E) hW h i).of_ok (b := l.drop i) (t := l.take i) (by simp [Spec.splitOff, hi])
      refine ⟨c', l.take i, ?_, h'⟩
      simp [act, len_eq (E := E) h, must, Nat.not_lt.2 hi, e, vecSplitOff, hi, check, eqSlice_same (E := E) ho]
    · obtain ⟨c', e, h'⟩ := (splitOff_ref (E := E) hW h i).of_panic (t := l) (by simp [Spec.splitOff, hi])
      exact ⟨c', l, by simp [act, len_eq (E := E) h, must, Nat.lt_of_not_le hi, e, assertPanic], h'⟩
  | append cons =>
    obtain ⟨o, k, em, ho⟩ := make_some hN h2 cons ha
    have hk := ho.length_le
    have hadd : add E k.length l.length = some (k.length + l.length) := add_eq (by omega)
    by_cases hf : l.length + k.length ≤ N
    · obtain ⟨⟨c', o'⟩, e, h', _⟩ := (append_ref (E := E) hN h ho).of_ok (a := ()) (t := (l ++ k, [])) (by simp [Spec.append, hf])
      refine ⟨c', l ++ k, ?_, h'⟩
      simp [act, em, asSlice_eq (E := E) ho, len_eq (E := E) h, len_eq (E := E) ho, must, hadd, Nat.not_lt.2 (Nat.add_comm _ _ ▸ hf : k.length + l.length ≤ N), e]
    · obtain ⟨⟨c', o'⟩, e, h', _⟩ := (append_ref (E := E) hN h ho).of_panic (t := (l, k)) (by simp [Spec.append, hf])
      refine ⟨c', l, ?_, h'⟩
      simp [act, em, asSlice_eq (E := E) ho, len_eq (E := E) h, len_eq (E := E) ho, must, hadd, (by omega : N < k.length + l.length), e, assertPanic]
  | drainFromFront cons n =>
    obtain ⟨o, k, em, ho⟩ := make_some hN h2 cons ha
    have hk := ho.length_le
    by_cases hn : n ≤ k.length
    · have hadd : add E l.length n = some (l.length + n) := add_eq (by omega)
      by_cases hf : l.length + n ≤ N
      · obtain ⟨⟨c', o'⟩, e, h', ho'⟩ := (drainFromFront_ref (E := E) hN h ho n).of_ok (a := ()) (t := (l ++ k.take n, k.drop n)) (by
          simp [Spec.drainFromFront, hf, hn])
        refine ⟨c', l ++ k.take n, ?_, h'⟩
        simp [act, em, asSlice_eq (E := E) ho, len_eq (E := E) h, len_eq (E := E) ho, must, hadd, orElse, Nat.not_lt.2 hn, Nat.not_lt.2 hf, e, vecDrainFront, hn, check, eqSlice_same (E := E) ho']
      · obtain ⟨⟨c', o'⟩, e, h', ho'⟩ := (drainFromFront_ref (E := E) hN h ho n).of_panic (t := (l, k)) (by simp [Spec.drainFromFront, hf])
        refine ⟨c', l, ?_, h'⟩
        simp [act, em, asSlice_eq (E := E) ho, len_eq (E := E) h, len_eq (E := E) ho, must, hadd, orElse, Nat.lt_of_not_le hf, e, assertPanic]
    · obtain ⟨⟨c', o'⟩, e, h', ho'⟩ := (drainFromFront_ref (E := E) hN h ho n).of_panic (t := (l, k)) (by simp [Spec.drainFromFront, hn])
      refine ⟨c', l, ?_, h'⟩
      simp [act, em, asSlice_eq (E := E) ho, len_eq (E := E) ho, must, orElse, Nat.lt_of_not_le hn, e, assertPanic]
  | drainFromBack cons n =>
    obtain ⟨o, k, em, ho⟩ := make_some hN h2 cons ha
    have hk := ho.length_le
    by_cases hn : n ≤ k.length
    · have hadd : add E l.length n = some (l.length + n) := add_eq (by omega)
      by_cases hf : l.length + n ≤ N
      · obtain ⟨⟨c', o'⟩, e, h', ho'⟩ := (drainFromBack_ref (E := E) hN h ho n).of_ok (a := ())
          (t := (k.drop (k.length - n) ++ l, k.take (k.length - n))) (by simp [Spec.drainFromBack, hf, hn])
        refine ⟨c', k.drop (k.length - n) ++ l, ?_, h'⟩
        simp [act, em, asSlice_eq (E := E) ho, len_eq (E := E) h, len_eq (E := E) ho, must, hadd, orElse, Nat.not_lt.2 hn, Nat.not_lt.2 hf, e, sub_eq (E := E) hn, vecSplitOff, check,
          eqSlice_same (E := E) ho']
      · obtain ⟨⟨c', o'⟩, e, h', ho'⟩ := (drainFromBack_ref (E := E) hN h ho n).of_panic (t := (l, k)) (by simp [Spec.drainFromBack, hf])
        refine ⟨c', l, ?_, h'⟩
        simp [act, em, asSlice_eq (E := E) ho, len_eq (E := E) h, len_eq (E := E) ho, must, hadd, orElse, Nat.lt_of_not_le hf, e, assertPanic]
    · obtain ⟨⟨c', o'⟩, e, h', ho'⟩ := (drainFromBack_ref (E := E) hN h ho n).of_panic (t := (l, k)) (by simp [Spec.drainFromBack, hn])
      refine ⟨c', l, ?_, h'⟩
      simp [act, em, asSlice_eq (E := E) ho, len_eq (E := E) ho, must, orElse, Nat.lt_of_not_le hn, e, assertPanic]
  | set i v =>
    by_cases hi : i < l.length
    · obtain ⟨c', e, h'⟩ := (set_ref (E := E) h i v).of_ok (a := l[i]) (t := l.set i v) (by simp [Spec.set, hi])
      exact ⟨c', _, by simp [act, len_eq (E := E) h, must, Nat.not_le.2 hi, e, vecSet, hi], h'⟩
    · obtain ⟨c', e, h'⟩ := (set_ref (E := E) h i v).of_panic (t := l) (by simp [Spec.set, hi])
      exact ⟨c', l, by simp [act, len_eq (E := E) h, must, Nat.le_of_not_lt hi, e, assertPanic], h'⟩
  | insert i v =>
    by_cases hi : i ≤ l.length
    · by_cases hf : l.length = N
      · obtain ⟨c', e, h'⟩ := (insert_ref (E := E) hW h i v).of_panic (t := l) (by simp [Spec.insert]; omega)
        exact ⟨c', l, by simp [act, len_eq (E := E) h, must, orElse, isFull_eq h, hf, e, assertPanic], h'⟩
      · obtain ⟨c', e, h'⟩ := (insert_ref (E := E) hW h i v).of_ok (a := ()) (t := l.take i ++ v :: l.drop i) (by simp [Spec.insert]; omega)
        exact ⟨c', _, by simp [act, len_eq (E := E) h, must, orElse, Nat.not_lt.2 hi, isFull_eq h, hf, e, vecInsert, hi], h'⟩
    · obtain ⟨c', e, h'⟩ := (insert_ref (E := E) hW h i v).of_panic (t := l) (by simp [Spec.insert, hi])
      exact ⟨c', l, by simp [act, len_eq (E := E) h, must, orElse, Nat.lt_of_not_le hi, e, assertPanic], h'⟩
  | insertFrom vs i =>
    have hadd : add E l.length vs.length = some (l.length + vs.length) := add_eq (by simp only [Action.Valid] at ha; omega)
    have hr := insertFrom_ref (E := E) hN nodrop i vs.length (It.ofList vs) h [] (Or.inr ha)
    by_cases hi : i ≤ l.length
    · by_cases hf : l.length + vs.length ≤ N
      · obtain ⟨⟨c', lg⟩, e, h', _⟩ := hr.of_ok (a := ()) (t := (l.take i ++ vs ++ l.drop i, [])) (by
          simp [Spec.insertFrom, hf, hi, It.items_ofList, It.drop_ofList, It.owned_ofList])
        refine ⟨c', l.take i ++ vs ++ l.drop i, ?_, h'⟩
        simp [act, len_eq (E := E) h, must, orElse, Nat.not_lt.2 hi, Nat.not_lt.2 hf, hadd, e, vecInsertRev_eq i vs l hi]
      · obtain ⟨⟨c', lg⟩, e, h', _⟩ := hr.of_panic (t := (l, vs)) (by
          simp [Spec.insertFrom, hf, It.owned_ofList, Spec.panicDropping, nodrop])
        refine ⟨c', l, ?_, h'⟩
        simp [act, len_eq (E := E) h, must, orElse, Nat.lt_of_not_le hf, hadd, e, assertPanic]
    · obtain ⟨⟨c', lg⟩, e, h', _⟩ := hr.of_panic (t := (l, vs)) (by
          simp [Spec.insertFrom, hi, It.owned_ofList, Spec.panicDropping, nodrop])
      refine ⟨c', l, ?_, h'⟩
      simp [act, len_eq (E := E) h, must, orElse, Nat.lt_of_not_le hi, e, assertPanic]
  | insertOrdered v =>
    by_cases hf : l.length = N
    · obtain ⟨c', e, h'⟩ := (insertOrdered_ref (E := E) hW h search v).of_panic (t := l) (by simp [Spec.insertOrdered]; omega)
      exact ⟨c', l, by simp [act, isFull_eq h, must, hf, e, assertPanic], h'⟩
    · obtain ⟨i, hi, hsr⟩ := hs l v
      obtain ⟨c', e, h'⟩ := (insertOrdered_ref (E := E) hW h search v).of_ok (a := ()) (t := l.take i ++ v :: l.drop i) (by
        have : l.length < N := by omega
        rcases hsr with hsr | hsr <;> simp [Spec.insertOrdered, this, hsr, Spec.insert, hi])
      refine ⟨c', l.take i ++ v :: l.drop i, ?_, h'⟩
      rcases hsr with hsr | hsr <;> simp [act, isFull_eq h, must, hf, e, hsr, vecInsert, hi]
  | remove i =>
    by_cases hi : i < l.length
    · obtain ⟨c', e, h'⟩ := (remove_ref (E := E) hW h i).of_ok (a := l[i]) (t := l.take i ++ l.drop (i + 1)) (by simp [Spec.remove, hi])
      exact ⟨c', _, by simp [act, len_eq (E := E) h, must, Nat.not_le.2 hi, e, vecRemove, hi, check, same_self], h'⟩
    · obtain ⟨c', e, h'⟩ := (remove_ref (E := E) hW h i).of_panic (t := l) (by simp [Spec.remove, hi])
      exact ⟨c', l, by simp [act, len_eq (E := E) h, must, Nat.le_of_not_lt hi, e, assertPanic], h'⟩
  | drain =>
    obtain ⟨c', e, h'⟩ := drainAll_eq (E := E) hW (N + 1) h (by omega)
    exact ⟨c', [], by simp [act, e, must, check, seqEq_same], h'⟩
  | clear =>
    obtain ⟨⟨c', lg⟩, e, h', _⟩ := (clear_ref (E := E) nodrop h []).of_ok (a := ()) (t := ([], l)) (by
      simp only [Spec.clear]; rw [Spec.dropping_total nodrop_total]; rfl)
    exact ⟨c', [], by simp [act, e, must], h'⟩
end proof

/-- C90. The project's own fuzz target for `Chunk` cannot fail: for every construct and every sequence of actions that the fuzzer may
come up with, no assertion of the target fails, the code panics exactly where the target expects it to, and nothing is undefined. -/
theorem C90_fuzz_never_fails {E : Env} {N : Nat} {search : List A → A → Option (Except Nat Nat)} (hN : 2 * N < E.W) (h2 : 2 ≤ N)
    (hs : SearchTotal search) (cons : Construct A) (hc : cons.Valid E N) (actions : List (Action A)) (ha : ∀ a, a ∈ actions → a.Valid E N) :
    ∃ s, fuzz E N search cons actions = some s ∧ View E N s.1 s.2 := by
  obtain ⟨c, l, em, h⟩ := make_some hN h2 cons hc
  obtain ⟨s, e, hr⟩ := runAll_some (step := fuzzStep E N search) (I := fun s => Rep N s.1 s.2) (P := Action.Valid E N) (fun a s hv hi => by
    obtain ⟨c', l', e, h'⟩ := act_some hN h2 hs a hv hi
    exact ⟨(c', l'), by simp [fuzzStep, e, must, eqSlice_same (E := E) h', check, h'.length_le], h'⟩) actions ha (c, l) h
  exact ⟨s, by simp [fuzz, em, asSlice_eq (E := E) h, must, e], hr.view E⟩

end target
section examples
/-- A linear search for the place of a value in a sorted list. -/
def place (l : List Nat) (v : Nat) : Option (Except Nat Nat) :=
  let i := l.findIdx (fun x => decide (v ≤ x))
  if l[i]? = some v then some (.ok i) else some (.error i)
theorem place_total : Fuzz.SearchTotal place := fun l v => by
  refine ⟨l.findIdx (fun x => decide (v ≤ x)), List.findIdx_le_length, ?_⟩
  simp only [place]
  split
  · exact Or.inl rfl
  · exact Or.inr rfl
/-- A sequence with every kind of action: the hypotheses hold, calls succeed and calls panic. -/
def someActions : List (Action Nat) :=
  [.pushFront 0, .pushBack 3, .pushBack 4, .pushFront 4, .popFront, .insertOrdered 2, .insertOrdered 2, .splitOff 3, .splitOff 9, .popBack, .popBack, .insertFrom [7, 8] 1,
    .insertFrom [7, 8, 9] 1, .dropRight 1, .drainFromFront (.collectFrom edge 1) 1, .drainFromBack (.fromFront edge 3) 1, .set 0 5, .set 9 5, .remove 0, .remove 7,
    .append (.fromBack edge 1), .append (.pair 1 1), .dropLeft 1, .dropRight 1, .dropLeft 8, .insert 0 9, .insert 8 9, .popBack, .popBack, .popBack,
    .append (.drainFrom edge), .drain, .popFront, .append (.single 6), .clear]
example : ∀ a, a ∈ someActions → a.Valid Chunk.dbg64 3 := by
  have h : ∃ l, View Chunk.dbg64 3 edge l := ⟨[10, 20], by rfl⟩
  simp [someActions, Action.Valid, Construct.Valid, h]
  simp [Chunk.dbg64]
example : (fuzz Chunk.dbg64 3 place (.pair 1 2) someActions).map (·.2) = some [] := by decide +kernel
example : (fuzz Chunk.dbg64 3 place (.pair 1 2) (someActions.take 16)).map (·.2) = some [10, 1, 10] := by decide +kernel
/-- The target can fail: a search that proposes an index outside the slice makes `insert` panic where the target does not expect it, and
capacity 1 has no room for `Construct::Pair`. -/
example : fuzz Chunk.dbg64 3 (fun _ _ => some (.ok 3)) (.pair 1 2) [.insertOrdered 0] = none ∧ fuzz Chunk.dbg64 1 place (.pair 1 2) [] = none := ⟨rfl, rfl⟩
end examples

end Verif.Chunk
