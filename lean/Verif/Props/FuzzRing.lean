import Verif.Fuzz
import Verif.Props.RingBulk
import Verif.Props.RingSlices
import Verif.Props.FuzzChunk
/-
C90: fuzz/fuzz_targets/ring_buffer.rs can never fail, whatever the input.
-/
namespace Verif.Ring
open Fuzz
section target
variable {A : Type} [DecidableEq A]

/-- fuzz/fuzz_targets/ring_buffer.rs:16-26. -/
inductive Construct (A : Type) where
  | empty | single (v : A) | pair (v w : A) | drainFrom (vec : Ring A) | collectFrom (vec : Ring A) (len : Nat)
  | fromFront (vec : Ring A) (len : Nat) | fromBack (vec : Ring A) (len : Nat) | fromIter (vec : Ring A)

/-- fuzz/fuzz_targets/ring_buffer.rs:28-47. -/
inductive Action (A : Type) where
  | pushFront (v : A) | pushBack (v : A) | popFront | popBack | dropLeft (i : Nat) | dropRight (i : Nat) | splitOff (i : Nat)
  | append (c : Construct A) | drainFromFront (c : Construct A) (n : Nat) | drainFromBack (c : Construct A) (n : Nat)
  | set (i : Nat) (v : A) | insert (i : Nat) (v : A) | insertFrom (vs : List A) (i : Nat) | insertOrdered (v : A) | remove (i : Nat)
  | drain | clear

variable (E : Env) (N : Nat) (search gsearch : List A → A → Option (Except Nat Nat)) (le : A → A → Bool)

/-- `chunk.drain().collect()` (src/ring_buffer/iter.rs:140-142, `Drain::next` is `pop_front`). -/
def drainAll : Nat → M (Ring A) (List A)
  | 0 => M.diverge
  | f + 1 => do
    match (← popFront E N) with
    | none => return []
    | some a => return a :: (← drainAll f)

/-- `ArrayMut::set` of array-ops, `self.get_mut(index).map(|r| mem::replace(r, value))`, over src/ring_buffer/mod.rs:101-107. -/
def arraySet (i : Nat) (v : A) : M (Ring A) (Option A) := do
  match (← getMut E N i) with
  | none => return none
  | some p => return some (← swapAt N p v)

/-- fuzz/fuzz_targets/ring_buffer.rs:49-121 `make`.  The values and buffers that go out of scope are not dropped (elements have no
destructor).  Simplification: in `CollectFrom` and `FromIter` the source iterator, a buffer's `into_iter`, is represented by the items
it yields (C18). -/
def Construct.make : Construct A → Option (Ring A)
  | .empty => do
    let out := (← must (new E N ())).1
    check (← must (isEmpty out)).1
    return out
  | .single v => do
    let out := (← must (unit E N v ())).1
    check (← must (eqPrim E N same [v] out)).1
    return out
  | .pair v w => do
    let out := (← must (Ring.pair E N v w ())).1
    check (← must (eqPrim E N same [v, w] out)).1
    return out
  | .drainFrom vec => do
    let source := (← must (Ring.fromIter E N nodrop (It.ofList (← must (items E N vec)).1) [])).1
    let (out, source) ← must (Ring.drainFrom E N nodrop (source, []))
    check (← must (isEmpty source.1)).1
    check (← must (eqRing E N same (out, vec))).1
    return out
  | .collectFrom vec len => do
    if (← must (isEmpty vec)).1 = true then return (← must (new E N ())).1
    let len := len % (← must (getLen vec)).1
    let source := (← must (clone E N nodrop some (vec, []))).1
    let (out, rest) ← must (Ring.collectFrom E N nodrop len (It.ofList (← must (items E N source)).1, []))
    let (expected, vec) ← must (splitOff E N nodrop len (vec, []))
    check (← must (eqPrim E N same rest.1.items expected)).1
    check (← must (eqRing E N same (out, vec.1))).1
    return out
  | .fromFront vec len => do
    if (← must (isEmpty vec)).1 = true then return (← must (new E N ())).1
    let len := len % (← must (getLen vec)).1
    let source := (← must (Ring.fromIter E N nodrop (It.ofList (← must (items E N vec)).1) [])).1
    let (out, source) ← must (Ring.fromFront E N nodrop len (source, []))
    let (remainder, vec) ← must (splitOff E N nodrop len (vec, []))
    check (← must (eqRing E N same (source.1, remainder))).1
    check (← must (eqRing E N same (out, vec.1))).1
    return out
  | .fromBack vec len => do
    if (← must (isEmpty vec)).1 = true then return (← must (new E N ())).1
    let len := len % (← must (getLen vec)).1
    let source := (← must (Ring.fromIter E N nodrop (It.ofList (← must (items E N vec)).1) [])).1
    let (out, source) ← must (Ring.fromBack E N nodrop len (source, []))
    let (remainder, vec) ← must (splitOff E N nodrop (← sub E (← must (getLen vec)).1 len) (vec, []))
    check (← must (eqRing E N same (out, remainder))).1
    check (← must (eqRing E N same (source.1, vec.1))).1
    return out
  | .fromIter vec => do
    let source := (← must (clone E N nodrop some (vec, []))).1
    let out := (← must (Ring.fromIter E N nodrop (It.ofList (← must (items E N source)).1) [])).1
    check (← must (eqRing E N same (out, vec))).1
    return out

/-- fuzz/fuzz_targets/ring_buffer.rs:129-275, the `match` in the loop.  The state is the buffer and the guide; `search` is the search of
array-ops that `insert_ordered` uses, `gsearch` the standard library's `binary_search`. -/
def act (a : Action A) (s : Ring A × List A) : Option (Ring A × List A) := do
  let (c, g) := s
  match a with
  | .pushFront v =>
    if (← must (isFull N c)).1 = true then return (← assertPanic (pushFront E N v c), g)
    else return ((← must (pushFront E N v c)).2, ← vecInsert 0 v g)
  | .pushBack v =>
    if (← must (isFull N c)).1 = true then return (← assertPanic (pushBack E N v c), g)
    else return ((← must (pushBack E N v c)).2, g ++ [v])
  | .popFront =>
    let (x, c) ← must (popFront E N c)
    if g.isEmpty = true then
      check (sameOpt x none)
      return (c, g)
    else
      let (y, g) ← vecRemove 0 g
      check (sameOpt x (some y))
      return (c, g)
  | .popBack =>
    let (x, c) ← must (popBack E N c)
    check (sameOpt x (vecPop g).1)
    return (c, (vecPop g).2)
  | .dropLeft i =>
    if i > (← must (getLen c)).1 then return ((← assertPanic (dropLeft E N nodrop i (c, []))).1, g)
    else return ((← must (dropLeft E N nodrop i (c, []))).2.1, (← vecDrainFront i g).2)
  | .dropRight i =>
    if i > (← must (getLen c)).1 then return ((← assertPanic (dropRight E N nodrop i (c, []))).1, g)
    else return ((← must (dropRight E N nodrop i (c, []))).2.1, (← vecSplitOff i g).2)
  | .splitOff i =>
    if i > (← must (getLen c)).1 then return ((← assertPanic (splitOff E N nodrop i (c, []))).1, g)
    else
      let (off, c) ← must (splitOff E N nodrop i (c, []))
      let (goff, g) ← vecSplitOff i g
      check (← must (eqPrim E N same goff off)).1
      return (c.1, g)
  | .append cons =>
    let other ← cons.make E N
    let og := (← must (items E N other)).1
    if (← add E (← must (getLen other)).1 (← must (getLen c)).1) > N then return ((← assertPanic (append E N (c, other))).1, g)
    else return ((← must (append E N (c, other))).2.1, g ++ og)
  | .drainFromFront cons n =>
    let other ← cons.make E N
    let og := (← must (items E N other)).1
    if (← orElse (decide (n > (← must (getLen other)).1)) (return decide ((← add E (← must (getLen c)).1 n) > N))) = true then
      return ((← assertPanic (drainFromFront E N n (c, other))).1, g)
    else
      let (c, other) := (← must (drainFromFront E N n (c, other))).2
      let (moved, og) ← vecDrainFront n og
      check (← must (eqPrim E N same og other)).1
      return (c, g ++ moved)
  | .drainFromBack cons n =>
    let other ← cons.make E N
    let og := (← must (items E N other)).1
    if (← orElse (decide (n > (← must (getLen other)).1)) (return decide ((← add E (← must (getLen c)).1 n) > N))) = true then
      return ((← assertPanic (drainFromBack E N n (c, other))).1, g)
    else
      let k ← sub E (← must (getLen other)).1 n
      let (c, other) := (← must (drainFromBack E N n (c, other))).2
      let (moved, og) ← vecSplitOff k og
      check (← must (eqPrim E N same og other)).1
      return (c, moved ++ g)
  | .set i v =>
    if i ≥ (← must (getLen c)).1 then
      let (x, c) ← must (arraySet E N i v c)
      check (sameOpt none x)
      return (c, g)
    else return ((← must (arraySet E N i v c)).2, ← vecSet i v g)
  | .insert i v =>
    if (← orElse (decide (i > (← must (getLen c)).1)) (return (← must (isFull N c)).1)) = true then
      return (← assertPanic (insert E N i v c), g)
    else return ((← must (insert E N i v c)).2, ← vecInsert i v g)
  | .insertFrom vs i =>
    if (← orElse (decide (i > (← must (getLen c)).1)) (return decide ((← add E (← must (getLen c)).1 vs.length) > N))) = true then
      return ((← assertPanic (insertFrom E N nodrop i vs.length (It.ofList vs) (c, []))).1, g)
    else
      return ((← must (insertFrom E N nodrop i vs.length (It.ofList vs) (c, []))).2.1, ← vecInsertRev i vs g)
  | .insertOrdered v =>
    if isSorted le (← must (items E N c)).1 = true then
      if (← must (isFull N c)).1 = true then return (← assertPanic (insertOrdered E N search v c), g)
      else
        let c := (← must (insertOrdered E N search v c)).2
        match (← gsearch g v) with
        | .ok i => return (c, ← vecInsert i v g)
        | .error i => return (c, ← vecInsert i v g)
    else return (c, g)
  | .remove i =>
    if i ≥ (← must (getLen c)).1 then return (← assertPanic (remove E N i c), g)
    else
      let (x, c) ← must (remove E N i c)
      let (y, g) ← vecRemove i g
      check (same x y)
      return (c, g)
  | .drain =>
    let (d, c) ← must (drainAll E N (N + 1) c)
    check (seqEq same d g)
    return (c, [])
  | .clear => return ((← must (clear E N nodrop (c, []))).2.1, [])

/-- One turn of the loop: the action, then the assertions of lines 276-277. -/
def fuzzStep (a : Action A) (s : Ring A × List A) : Option (Ring A × List A) := do
  let (c, g) ← act E N search gsearch le a s
  check (← must (eqPrim E N same g c)).1
  check (decide (g.length ≤ N))
  return (c, g)

/-- fuzz/fuzz_targets/ring_buffer.rs:123-279, the whole target. -/
def fuzz (cons : Construct A) (actions : List (Action A)) : Option (Ring A × List A) := do
  let c ← cons.make E N
  let g := (← must (items E N c)).1
  runAll (fuzzStep E N search gsearch le) actions (c, g)

/-! ### Proof -/
section proof
variable {E : Env} {N : Nat} {search gsearch : List A → A → Option (Except Nat Nat)} {le : A → A → Bool} {c d : Ring A} {l k : List A}

theorem eqPrim_same (hW : 2 * N < E.W) (h : Rep N c l) (k : List A) : eqPrim E N same k c = .ok (decide (l = k)) c := by
  simp only [eqPrim, M.bind_run, getLen_eq h, items_eq hW h, Out.andThen_ok, M.pure_run, seqEq_same']
  congr 1
  by_cases e : l = k <;> simp [e]
theorem eqRing_same (hW : 2 * N < E.W) (h : Rep N c l) (h' : Rep N d k) : eqRing E N same (c, d) = .ok (decide (l = k)) (c, d) :=
  C43_eq_ring hW (h.view hW) (h'.view hW)
omit [DecidableEq A] in
theorem new_some {σ : Type} (hN : 0 < N) (s : σ) : ∃ c, (new E N s : Out σ (Ring A)) = .ok c s ∧ Rep N c [] := by
  have h := sat_new (E := E) (N := N) (A := A) (s := s) (Q := fun c t => t = s ∧ Rep N c []) (P := fun _ => False) (B := False) hN
    ⟨rfl, ⟨hN, rfl, Nat.zero_le _, by simp⟩⟩
  cases hx : (new E N s : Out σ (Ring A)) <;> rw [hx] at h <;> simp [Sat] at h
  obtain ⟨rfl, h⟩ := h
  exact ⟨_, rfl, h⟩

/-- What a fuzzer-made construct contains. -/
def Construct.Valid (E : Env) (N : Nat) : Construct A → Prop
  | .empty | .single _ | .pair _ _ => True
  | .drainFrom vec | .collectFrom vec _ | .fromFront vec _ | .fromBack vec _ | .fromIter vec => ∃ l, View E N vec l
/-- What a fuzzer-made action contains. -/
def Action.Valid (E : Env) (N : Nat) : Action A → Prop
  | .append cons | .drainFromFront cons _ | .drainFromBack cons _ => cons.Valid E N
  | .insertFrom vs _ => N + vs.length < E.W
  | _ => True

omit [DecidableEq A] in
theorem fromIter_all (h0 : 0 < N) (hW : 2 * N < E.W) (xs : List A) (hl : xs.length ≤ N) :
    ∃ c, fromIter E N nodrop (It.ofList xs) [] = .ok c [] ∧ Rep N c xs := by
  obtain ⟨c, s, e, h1, h2⟩ := (fromIter_ref (E := E) (N := N) h0 hW nodrop (It.ofList xs) []).of_ok (b := xs) (t := [])
    (by simp only [Spec.fromIter]; rw [Chunk.specExtend_ok xs (by simpa using hl)]; simp)
  subst h2
  exact ⟨c, e, h1⟩

theorem make_some (hN : 2 * N < E.W) (h2 : 2 ≤ N) (cons : Construct A) (hv : cons.Valid E N) :
    ∃ c l, cons.make E N = some c ∧ Rep N c l := by
  have hW := hN
  have h0 : 0 < N := by omega
  cases cons with
  | empty =>
    obtain ⟨c, e, h⟩ := new_some (A := A) (E := E) h0 ()
    exact ⟨c, [], by simp [Construct.make, e, isEmpty_eq h, must, check], h⟩
  | single v =>
    obtain ⟨c, _, e, h, _⟩ := (unit_ref (E := E) (N := N) v).of_ok (b := [v]) (t := ()) (by simp [Spec.unit]; omega)
    exact ⟨c, [v], by simp [Construct.make, e, must, check, eqPrim_same (E := E) hW h], h⟩
  | pair v w =>
    obtain ⟨c, _, e, h, _⟩ := (pair_ref (E := E) (N := N) v w).of_ok (b := [v, w]) (t := ()) (by simp [Spec.pair, h2])
    exact ⟨c, [v, w], by simp [Construct.make, e, must, check, eqPrim_same (E := E) hW h], h⟩
  | drainFrom vec =>
    obtain ⟨l, hv⟩ := hv
    have hr := hv.rep hW
    obtain ⟨s, es, hs⟩ := fromIter_all h0 hW l hr.le
    obtain ⟨o, ⟨s', lg⟩, e, ho, hs', _⟩ := (drainFrom_ref (E := E) h0 hW nodrop hs []).of_ok (b := l) (t := ([], [])) rfl
    refine ⟨o, l, ?_, ho⟩
    simp [Construct.make, items_eq (E := E) hW hr, must, es, e, check, isEmpty_eq hs', eqRing_same (E := E) hW ho hr]
  | collectFrom vec n =>
    obtain ⟨l, hv⟩ := hv
    have hr := hv.rep hW
    by_cases hl : l = []
    · subst hl
      obtain ⟨c, e, h⟩ := new_some (A := A) (E := E) h0 ()
      exact ⟨c, [], by simp [Construct.make, isEmpty_eq hr, must, e], h⟩
    have hn : n % l.length < l.length := Nat.mod_lt _ (List.length_pos_iff.2 hl)
    have hle := hr.le
    obtain ⟨s, t, es, ⟨hs, _⟩, ht, _⟩ := (clone_ref (E := E) h0 hW nodrop some hr []).of_ok (b := l) (t := (l, [])) (by
      simp [Spec.clone, Chunk.bornOf_all (cl := some) (l := l) (cs := l) rfl])
    obtain ⟨o, t', e, ho, ht'⟩ := (collectFrom_ref (E := E) (N := N) h0 hW nodrop (n % l.length) (It.ofList l) []).of_ok
      (b := l.take (n % l.length)) (t := ((It.ofList l).drop (n % l.length), [])) (by
        simp only [Spec.collectFrom, It.items_ofList]; rw [if_pos (by omega), if_pos (by omega)])
    obtain ⟨r, ⟨v', lg'⟩, er, hr', hv', _⟩ := (splitOff_ref (E := E) h0 hW nodrop (n % l.length) hr []).of_ok (b := l.drop (n % l.length)) (t := (l.take (n % l.length), [])) (by
      simp [Spec.splitOff, Nat.le_of_lt hn])
    subst ht'
    refine ⟨o, _, ?_, ho⟩
    simp [Construct.make, isEmpty_eq hr, must, hl, getLen_eq hr, es, items_eq (E := E) hW hs, e, er, It.drop_ofList, It.items_ofList, check, eqPrim_same (E := E) hW hr', eqRing_same (E := E) hW ho hv']
  | fromFront vec n =>
    obtain ⟨l, hv⟩ := hv
    have hr := hv.rep hW
    by_cases hl : l = []
    · subst hl
      obtain ⟨c, e, h⟩ := new_some (A := A) (E := E) h0 ()
      exact ⟨c, [], by simp [Construct.make, isEmpty_eq hr, must, e], h⟩
    have hn : n % l.length < l.length := Nat.mod_lt _ (List.length_pos_iff.2 hl)
    obtain ⟨s, es, hs⟩ := fromIter_all h0 hW l hr.le
    obtain ⟨o, ⟨s', lg⟩, e, ho, hs', _⟩ := (fromFront_ref (E := E) h0 hW nodrop (n % l.length) hs []).of_ok (b := l.take (n % l.length)) (t := (l.drop (n % l.length), [])) (by
      simp [Spec.fromFront, Nat.le_of_lt hn])
    obtain ⟨r, ⟨v', lg'⟩, er, hr', hv', _⟩ := (splitOff_ref (E := E) h0 hW nodrop (n % l.length) hr []).of_ok (b := l.drop (n % l.length)) (t := (l.take (n % l.length), [])) (by
      simp [Spec.splitOff, Nat.le_of_lt hn])
    refine ⟨o, _, ?_, ho⟩
    simp [Construct.make, isEmpty_eq hr, must, hl, getLen_eq hr, es, items_eq (E := E) hW hr, e, er, check, eqRing_same (E := E) hW hs' hr', eqRing_same (E := E) hW ho hv']
  | fromBack vec n =>
    obtain ⟨l, hv⟩ := hv
    have hr := hv.rep hW
    by_cases hl : l = []
    · subst hl
      obtain ⟨c, e, h⟩ := new_some (A := A) (E := E) h0 ()
      exact ⟨c, [], by simp [Construct.make, isEmpty_eq hr, must, e], h⟩
    have hn : n % l.length < l.length := Nat.mod_lt _ (List.length_pos_iff.2 hl)
    obtain ⟨s, es, hs⟩ := fromIter_all h0 hW l hr.le
    obtain ⟨o, ⟨s', lg⟩, e, ho, hs', _⟩ := (fromBack_ref (E := E) h0 hW nodrop (n % l.length) hs []).of_ok
      (b := l.drop (l.length - n % l.length)) (t := (l.take (l.length - n % l.length), [])) (by simp [Spec.fromBack, Nat.le_of_lt hn])
    obtain ⟨r, ⟨v', lg'⟩, er, hr', hv', _⟩ := (splitOff_ref (E := E) h0 hW nodrop (l.length - n % l.length) hr []).of_ok
      (b := l.drop (l.length - n % l.length)) (t := (l.take (l.length - n % l.length), [])) (by simp [Spec.splitOff])
    refine ⟨o, _, ?_, ho⟩
    simp [Construct.make, isEmpty_eq hr, must, hl, getLen_eq hr, es, items_eq (E := E) hW hr, e, er, check, sub_eq (E := E) (Nat.le_of_lt hn), eqRing_same (E := E) hW hs' hv',
      eqRing_same (E := E) hW ho hr']
  | fromIter vec =>
    obtain ⟨l, hv⟩ := hv
    have hr := hv.rep hW
    obtain ⟨s, t, es, ⟨hs, _⟩, ht, _⟩ := (clone_ref (E := E) h0 hW nodrop some hr []).of_ok (b := l) (t := (l, [])) (by
      simp [Spec.clone, Chunk.bornOf_all (cl := some) (l := l) (cs := l) rfl])
    obtain ⟨o, e, ho⟩ := fromIter_all (E := E) h0 hW l hr.le
    exact ⟨o, l, by simp [Construct.make, must, es, items_eq (E := E) hW hs, e, check, eqRing_same (E := E) hW ho hr], ho⟩

omit [DecidableEq A] in
theorem drainAll_eq (hN : 2 * N < E.W) (f : Nat) (h : Rep N c l) (hf : l.length < f) : ∃ c', drainAll E N f c = .ok l c' ∧ Rep N c' [] := by
  induction f generalizing c l with
  | zero => omega
  | succ f ih =>
    obtain ⟨c', e, h'⟩ := (popFront_ref (E := E) hN h).of_ok (a := l.head?) (t := l.tail) rfl
    cases l with
    | nil => exact ⟨c', by simp [drainAll, e], h'⟩
    | cons a r =>
      obtain ⟨c'', e', h''⟩ := ih h' (by simp at hf; simpa using hf)
      exact ⟨c'', by simp [drainAll, e, e'], h''⟩

theorem act_some (hN : 2 * N < E.W) (h2 : 2 ≤ N) (htr : ∀ x y z, le x y = true → le y z = true → le x z = true)
    (han : ∀ x y, le x y = true → le y x = true → x = y) (hs : Chunk.SearchContract (fun x y => le x y = true) search)
    (hg : Chunk.SearchContract (fun x y => le x y = true) gsearch) (a : Action A) (ha : a.Valid E N) (h : Rep N c l) :
    ∃ c' l', act E N search gsearch le a (c, l) = some (c', l') ∧ Rep N c' l' := by
  have hW := hN
  have h0 : 0 < N := by omega
  have hle := h.le
  cases a with
  | pushFront v =>
    by_cases hf : l.length = N
    · obtain ⟨c', e, h'⟩ := (pushFront_ref (E := E) hW h v).of_panic (t := l) (by simp [Spec.pushFront]; omega)
      exact ⟨c', l, by simp [act, isFull_eq h, must, hf, e, assertPanic], h'⟩
    · obtain ⟨c', e, h'⟩ := (pushFront_ref (E := E) hW h v).of_ok (a := ()) (t := v :: l) (by simp [Spec.pushFront]; omega)
      exact ⟨c', _, by simp [act, isFull_eq h, must, hf, e, vecInsert], h'⟩
  | pushBack v =>
    by_cases hf : l.length = N
    · obtain ⟨c', e, h'⟩ := (pushBack_ref (E := E) hW h v).of_panic (t := l) (by simp [Spec.pushBack]; omega)
      exact ⟨c', l, by simp [act, isFull_eq h, must, hf, e, assertPanic], h'⟩
    · obtain ⟨c', e, h'⟩ := (pushBack_ref (E := E) hW h v).of_ok (a := ()) (t := l ++ [v]) (by simp [Spec.pushBack]; omega)
      exact ⟨c', _, by simp [act, isFull_eq h, must, hf, e], h'⟩
  | popFront =>
    obtain ⟨c', e, h'⟩ := (popFront_ref (E := E) hW h).of_ok (a := l.head?) (t := l.tail) rfl
    cases l with
    | nil => exact ⟨c', [], by simp [act, must, e, check, sameOpt_self], h'⟩
    | cons x r => exact ⟨c', r, by simp [act, must, e, vecRemove, check, sameOpt_self], h'⟩
  | popBack =>
    obtain ⟨c', e, h'⟩ := (popBack_ref (E := E) hW h).of_ok (a := l.getLast?) (t := l.dropLast) rfl
    exact ⟨c', l.dropLast, by simp [act, must, e, vecPop, check, sameOpt_self], h'⟩
  | dropLeft i =>
    by_cases hi : i ≤ l.length
    · obtain ⟨⟨c', lg⟩, e, h', _⟩ := (dropLeft_ref (E := E) hW nodrop i h []).of_ok (a := ()) (t := (l.drop i, l.take i)) (by
        simp only [Spec.dropLeftSeq]; rw [if_pos hi, Spec.droppingSeq_total nodrop_total]; rfl)
      refine ⟨c', l.drop i, ?_, h'⟩
      simp [act, getLen_eq h, must, Nat.not_lt.2 hi, e, vecDrainFront, hi]
    · obtain ⟨⟨c', lg⟩, e, h', _⟩ := (dropLeft_ref (E := E) hW nodrop i h []).of_panic (t := (l, [])) (by simp [Spec.dropLeftSeq, hi])
      exact ⟨c', l, by simp [act, getLen_eq h, must, Nat.lt_of_not_le hi, e, assertPanic], h'⟩
  | dropRight i =>
    by_cases hi : i ≤ l.length
    · obtain ⟨⟨c', lg⟩, e, h', _⟩ := (dropRight_ref (E := E) hW nodrop i h []).of_ok (a := ()) (t := (l.take i, l.drop i)) (by
        simp only [Spec.dropRightSeq]; rw [if_pos hi, Spec.droppingSeq_total nodrop_total]; rfl)
      refine ⟨c', l.take i, ?_, h'⟩
      simp [act, getLen_eq h, must, Nat.not_lt.2 hi, e, vecSplitOff, hi]
    · obtain ⟨⟨c', lg⟩, e, h', _⟩ := (dropRight_ref (E := E) hW nodrop i h []).of_panic (t := (l, [])) (by simp [Spec.dropRightSeq, hi])
      exact ⟨c', l, by simp [act, getLen_eq h, must, Nat.lt_of_not_le hi, e, assertPanic], h'⟩
  | splitOff i =>
    by_cases hi : i ≤ l.length
    · obtain ⟨o, ⟨c', lg⟩, e, ho, h', _⟩ := (splitOff_ref (E := E) h0 hW nodrop i h []).of_ok (b := l.drop i) (t := (l.take i, [])) (by simp [Spec.splitOff, hi])
      refine ⟨c', l.take i, ?_, h'⟩
      simp [act, getLen_eq h, must, Nat.not_lt.2 hi, e, vecSplitOff, hi, check, eqPrim_same (E := E) hW ho]
    · obtain ⟨⟨c', lg⟩, e, h', _⟩ := (splitOff_ref (E := E) h0 hW nodrop i h []).of_panic (t := (l, [])) (by simp [Spec.splitOff, hi])
      exact ⟨c', l, by simp [act, getLen_eq h, must, Nat.lt_of_not_le hi, e, assertPanic], h'⟩
  | append cons =>
    obtain ⟨o, k, em, ho⟩ := make_some hN h2 cons ha
    have hk := ho.le
    have hadd : add E k.length l.length = some (k.length + l.length) := add_eq (by omega)
    by_cases hf : l.length + k.length ≤ N
    · obtain ⟨⟨c', o'⟩, e, h', _⟩ := (append_ref (E := E) hN h ho).of_ok (a := ()) (t := (l ++ k, [])) (by simp [Spec.append, hf])
      refine ⟨c', l ++ k, ?_, h'⟩
      simp [act, em, items_eq (E := E) hW ho, getLen_eq h, getLen_eq ho, must, hadd, Nat.not_lt.2 (Nat.add_comm _ _ ▸ hf : k.length + l.length ≤ N), e]
    · obtain ⟨⟨c', o'⟩, e, h', _⟩ := (append_ref (E := E) hN h ho).of_panic (t := (l, k)) (by simp [Spec.append, hf])
      refine ⟨c', l, ?_, h'⟩
      simp [act, em, items_eq (E := E) hW ho, getLen_eq h, getLen_eq ho, must, hadd, (by omega : N < k.length + l.length), e, assertPanic]
  | drainFromFront cons n =>
    obtain ⟨o, k, em, ho⟩ := make_some hN h2 cons ha
    have hk := ho.le
    by_cases hn : n ≤ k.length
    · have hadd : add E l.length n = some (l.length + n) := add_eq (by omega)
      by_cases hf : l.length + n ≤ N
      · obtain ⟨⟨c', o'⟩, e, h', ho'⟩ := (drainFromFront_ref (E := E) hN h ho n).of_ok (a := ()) (t := (l ++ k.take n, k.drop n)) (by
          simp [Spec.drainFromFront, hf, hn])
        refine ⟨c', l ++ k.take n, ?_, h'⟩
        simp [act, em, items_eq (E := E) hW ho, getLen_eq h, getLen_eq ho, must, hadd, orElse, Nat.not_lt.2 hn, Nat.not_lt.2 hf, e, vecDrainFront, hn, check, eqPrim_same (E := E) hW ho']
      · obtain ⟨⟨c', o'⟩, e, h', ho'⟩ := (drainFromFront_ref (E := E) hN h ho n).of_panic (t := (l, k)) (by simp [Spec.drainFromFront, hf])
        refine ⟨c', l, ?_, h'⟩
        simp [act, em, items_eq (E := E) hW ho, getLen_eq h, getLen_eq ho, must, hadd, orElse, Nat.lt_of_not_le hf, e, assertPanic]
    · obtain ⟨⟨c', o'⟩, e, h', ho'⟩ := (drainFromFront_ref (E := E) hN h ho n).of_panic (t := (l, k)) (by simp [Spec.drainFromFront, hn])
      refine ⟨c', l, ?_, h'⟩
      simp [act, em, items_eq (E := E) hW ho, getLen_eq ho, must, orElse, Nat.lt_of_not_le hn, e, assertPanic]
  | drainFromBack cons n =>
    obtain ⟨o, k, em, ho⟩ := make_some hN h2 cons ha
    have hk := ho.le
    by_cases hn : n ≤ k.length
    · have hadd : add E l.length n = some (l.length + n) := add_eq (by omega)
      by_cases hf : l.length + n ≤ N
      · obtain ⟨⟨c', o'⟩, e, h', ho'⟩ := (drainFromBack_ref (E := E) hN h ho n).of_ok (a := ())
          (t := (k.drop (k.length - n) ++ l, k.take (k.length - n))) (by simp [Spec.drainFromBack, hf, hn])
        refine ⟨c', k.drop (k.length - n) ++ l, ?_, h'⟩
        simp [act, em, items_eq (E := E) hW ho, getLen_eq h, getLen_eq ho, must, hadd, orElse, Nat.not_lt.2 hn, Nat.not_lt.2 hf, e, sub_eq (E := E) hn, vecSplitOff, check,
          eqPrim_same (E := E) hW ho']
      · obtain ⟨⟨c', o'⟩, e, h', ho'⟩ := (drainFromBack_ref (E := E) hN h ho n).of_panic (t := (l, k)) (by simp [Spec.drainFromBack, hf])
        refine ⟨c', l, ?_, h'⟩
        simp [act, em, items_eq (E := E) hW ho, getLen_eq h, getLen_eq ho, must, hadd, orElse, Nat.lt_of_not_le hf, e, assertPanic]
    · obtain ⟨⟨c', o'⟩, e, h', ho'⟩ := (drainFromBack_ref (E := E) hN h ho n).of_panic (t := (l, k)) (by simp [Spec.drainFromBack, hn])
      refine ⟨c', l, ?_, h'⟩
      simp [act, em, items_eq (E := E) hW ho, getLen_eq ho, must, orElse, Nat.lt_of_not_le hn, e, assertPanic]
  | set i v =>
    by_cases hi : i < l.length
    · obtain ⟨c', e, h'⟩ := swapAt_eq h hi v
      exact ⟨c', l.set i v, by simp [act, arraySet, getLen_eq h, must, Nat.not_le.2 hi, getMut_eq hW h, e, vecSet, hi], h'⟩
    · exact ⟨c, l, by simp [act, arraySet, getLen_eq h, must, Nat.le_of_not_lt hi, getMut_eq hW h, hi, check, sameOpt_self], h⟩
  | insert i v =>
    by_cases hi : i ≤ l.length
    · by_cases hf : l.length = N
      · obtain ⟨c', e, h'⟩ := (insert_ref (E := E) hW h i v).of_panic (t := l) (by simp [Spec.insert]; omega)
        exact ⟨c', l, by simp [act, getLen_eq h, must, orElse, isFull_eq h, hf, e, assertPanic], h'⟩
      · obtain ⟨c', e, h'⟩ := (insert_ref (E := E) hW h i v).of_ok (a := ()) (t := l.take i ++ v :: l.drop i) (by simp [Spec.insert]; omega)
        exact ⟨c', _, by simp [act, getLen_eq h, must, orElse, Nat.not_lt.2 hi, isFull_eq h, hf, e, vecInsert, hi], h'⟩
    · obtain ⟨c', e, h'⟩ := (insert_ref (E := E) hW h i v).of_panic (t := l) (by simp [Spec.insert, hi])
      exact ⟨c', l, by simp [act, getLen_eq h, must, orElse, Nat.lt_of_not_le hi, e, assertPanic], h'⟩
  | insertFrom vs i =>
    have hadd : add E l.length vs.length = some (l.length + vs.length) := add_eq (by simp only [Action.Valid] at ha; omega)
    have hr := insertFrom_ref (E := E) hW nodrop i vs.length (It.ofList vs) h [] (Or.inr ha)
    by_cases hi : i ≤ l.length
    · by_cases hf : l.length + vs.length ≤ N
      · obtain ⟨⟨c', lg⟩, e, h', _⟩ := hr.of_ok (a := ()) (t := (l.take i ++ vs ++ l.drop i, [])) (by
          unfold Spec.insertFromOrExtend
          by_cases hx : i = l.length
          · rw [if_pos ⟨hf, hx⟩, Chunk.specExtend_ok vs hf]; subst hx; simp
          · simp [Spec.insertFrom, hf, hi, hx, It.items_ofList, It.drop_ofList, It.owned_ofList])
        refine ⟨c', l.take i ++ vs ++ l.drop i, ?_, h'⟩
        simp [act, getLen_eq h, must, orElse, Nat.not_lt.2 hi, Nat.not_lt.2 hf, hadd, e, vecInsertRev_eq i vs l hi]
      · obtain ⟨⟨c', lg⟩, e, h', _⟩ := hr.of_panic (t := (l, vs)) (by
          simp [Spec.insertFromOrExtend, Spec.insertFrom, hf, It.owned_ofList, Spec.panicDropping, nodrop])
        refine ⟨c', l, ?_, h'⟩
        simp [act, getLen_eq h, must, orElse, Nat.lt_of_not_le hf, hadd, e, assertPanic]
    · obtain ⟨⟨c', lg⟩, e, h', _⟩ := hr.of_panic (t := (l, vs)) (by
          have : ¬ i = l.length := by omega
          simp [Spec.insertFromOrExtend, Spec.insertFrom, hi, this, It.owned_ofList, Spec.panicDropping, nodrop])
      refine ⟨c', l, ?_, h'⟩
      simp [act, getLen_eq h, must, orElse, Nat.lt_of_not_le hi, e, assertPanic]
  | insertOrdered v =>
    by_cases hso : isSorted le l = true
    · have hp := isSorted_pairwise htr l hso
      by_cases hf : l.length = N
      · obtain ⟨c', e, h'⟩ := (insertOrdered_ref (E := E) hW h search v).of_panic (t := l) (by simp [Spec.insertOrdered]; omega)
        exact ⟨c', l, by simp [act, items_eq (E := E) hW h, hso, isFull_eq h, must, hf, e, assertPanic], h'⟩
      · obtain ⟨i, hsr, hi, i1, i2⟩ := Verif.search_split htr hs l v hp
        obtain ⟨j, hgr, hj, j1, j2⟩ := Verif.search_split htr hg l v hp
        have hu : l.take i ++ v :: l.drop i = l.take j ++ v :: l.drop j := by
          have u1 := Verif.pairwise_insert (i := i) hp i1 i2
          have u2 := Verif.pairwise_insert (i := j) hp j1 j2
          simp only [List.append_assoc, List.singleton_append] at u1 u2
          refine sorted_unique han u1 u2 ?_
          refine (List.perm_middle.trans ?_).trans List.perm_middle.symm
          simp
        obtain ⟨c', e, h'⟩ := (insertOrdered_ref (E := E) hW h search v).of_ok (a := ()) (t := l.take i ++ v :: l.drop i) (by
          have : l.length < N := by omega
          rcases hsr with hsr | hsr <;> simp [Spec.insertOrdered, this, hsr, Spec.insert, hi])
        refine ⟨c', l.take j ++ v :: l.drop j, ?_, hu ▸ h'⟩
        rcases hgr with hgr | hgr <;> simp [act, items_eq (E := E) hW h, hso, isFull_eq h, must, hf, e, hgr, vecInsert, hj]
    · exact ⟨c, l, by simp [act, items_eq (E := E) hW h, must, hso], h⟩
  | remove i =>
    by_cases hi : i < l.length
    · obtain ⟨c', e, h'⟩ := (remove_ref (E := E) hW h i).of_ok (a := l[i]) (t := l.take i ++ l.drop (i + 1)) (by simp [Spec.remove, hi])
      exact ⟨c', _, by simp [act, getLen_eq h, must, Nat.not_le.2 hi, e, vecRemove, hi, check, same_self], h'⟩
    · obtain ⟨c', e, h'⟩ := (remove_ref (E := E) hW h i).of_panic (t := l) (by simp [Spec.remove, hi])
      exact ⟨c', l, by simp [act, getLen_eq h, must, Nat.le_of_not_lt hi, e, assertPanic], h'⟩
  | drain =>
    obtain ⟨c', e, h'⟩ := drainAll_eq (E := E) hW (N + 1) h (by omega)
    exact ⟨c', [], by simp [act, e, must, check, seqEq_same], h'⟩
  | clear =>
    obtain ⟨⟨c', lg⟩, e, h', _⟩ := (clear_ref (E := E) h0 hW nodrop h []).of_ok (a := ()) (t := ([], l)) (by
      simp only [Spec.clearSeq]; rw [Spec.droppingSeq_total nodrop_total]; rfl)
    exact ⟨c', [], by simp [act, e, must], h'⟩
end proof

/-- C90. The project's own fuzz target for `RingBuffer` cannot fail: for every construct and every sequence of actions that the fuzzer may
come up with, no assertion of the target fails, the code panics exactly where the target expects it to, and nothing is undefined.  The
order must be one in which only equal items are equivalent (as `u32`'s is). -/
theorem C90_fuzz_never_fails {E : Env} {N : Nat} {search gsearch : List A → A → Option (Except Nat Nat)} {le : A → A → Bool} (hN : 2 * N < E.W)
    (h2 : 2 ≤ N) (htr : ∀ x y z, le x y = true → le y z = true → le x z = true) (han : ∀ x y, le x y = true → le y x = true → x = y)
    (hs : Chunk.SearchContract (fun x y => le x y = true) search) (hg : Chunk.SearchContract (fun x y => le x y = true) gsearch)
    (cons : Construct A) (hc : cons.Valid E N) (actions : List (Action A)) (ha : ∀ a, a ∈ actions → a.Valid E N) :
    ∃ s, fuzz E N search gsearch le cons actions = some s ∧ View E N s.1 s.2 := by
  have hW := hN
  obtain ⟨c, l, em, h⟩ := make_some hN h2 cons hc
  obtain ⟨s, e, hr⟩ := runAll_some (step := fuzzStep E N search gsearch le) (I := fun s => Rep N s.1 s.2) (P := Action.Valid E N) (fun a s hv hi => by
    obtain ⟨c', l', e, h'⟩ := act_some hN h2 htr han hs hg a hv hi
    exact ⟨(c', l'), by simp [fuzzStep, e, must, eqPrim_same (E := E) hW h', check, h'.le], h'⟩) actions ha (c, l) h
  exact ⟨s, by simp [fuzz, em, items_eq (E := E) hW h, must, e], hr.view hW⟩

end target

section examples
open Chunk (dbg64)
theorem le_trans' : ∀ x y z : Nat, decide (x ≤ y) = true → decide (y ≤ z) = true → decide (x ≤ z) = true := by simp; omega
theorem le_antisymm' : ∀ x y : Nat, decide (x ≤ y) = true → decide (y ≤ x) = true → x = y := by simp; omega
theorem search_contract : Chunk.SearchContract (fun x y => decide (x ≤ y) = true) Chunk.linearSearch := by
  simpa using Chunk.linearSearch_contract
/-- A sequence with every kind of action: the hypotheses hold, calls succeed and calls panic. -/
def someActions : List (Action Nat) :=
  [.pushFront 0, .pushBack 3, .pushFront 4, .popFront, .insertOrdered 2, .insertOrdered 2, .splitOff 3, .splitOff 9, .popBack, .popBack, .insertFrom [7, 8] 1,
    .insertFrom [7, 8, 9] 1, .dropRight 1, .drainFromFront (.collectFrom seam 1) 1, .drainFromBack (.fromFront seam 3) 1, .insertOrdered 6, .set 0 5, .set 9 5,
    .remove 0, .remove 7, .append (.fromBack seam 1), .append (.pair 1 1), .dropLeft 1, .dropRight 1, .dropLeft 8, .insert 0 9, .insert 8 9, .popBack, .popBack,
    .popBack, .popFront, .append (.drainFrom seam), .drain, .popFront, .append (.single 6), .append (.fromIter seam), .clear]
example : ∀ a, a ∈ someActions → a.Valid dbg64 3 := by
  have h : ∃ l, View dbg64 3 seam l := ⟨[10, 20], ⟨rfl, by decide, by decide⟩⟩
  simp [someActions, Action.Valid, Construct.Valid, h]
  simp [dbg64]
example : (fuzz dbg64 3 Chunk.linearSearch Chunk.place (fun x y => decide (x ≤ y)) (.pair 1 2) (someActions.take 15)).map (·.2) = some [10, 1, 10] := by
  decide +kernel
/-- The target can fail: with an order that cannot tell 1 from 0, one search inserts before and the other after the equivalent item. -/
example : fuzz dbg64 3 (fun _ _ => some (.ok 0)) (fun _ _ => some (.error 1)) (fun _ _ => true) (.single 1) [.insertOrdered 0] = none := by decide +kernel
end examples
end Verif.Ring
