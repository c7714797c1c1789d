import Verif.Fuzz
import Verif.Props.SparseOps
/-
C90: fuzz/fuzz_targets/sparse_chunk.rs can never fail, whatever the input.
-/
namespace Verif.Sparse
open Fuzz
section target
variable {A : Type} [DecidableEq A]

/-- fuzz/fuzz_targets/sparse_chunk.rs:14-19. -/
inductive Construct (A : Type) where
  | empty | single (i : Nat) (v : A) | pair (i : Nat) (v : A) (j : Nat) (w : A)

/-- fuzz/fuzz_targets/sparse_chunk.rs:21-26. -/
inductive Action (A : Type) where
  | insert (i : Nat) (v : A) | remove (i : Nat) | pop

/-- `BTreeMap::insert`: the old value, and the map's entries. -/
def mapInsert (i : Nat) (v : A) (g : List (Nat × A)) : Option A × List (Nat × A) := (g.lookup i, (i, v) :: g.filter (fun e => e.1 != i))
/-- `BTreeMap::remove`. -/
def mapRemove (i : Nat) (g : List (Nat × A)) : Option A × List (Nat × A) := (g.lookup i, g.filter (fun e => e.1 != i))

variable (N : Nat)

/-- fuzz/fuzz_targets/sparse_chunk.rs:28-59 `make`. -/
def Construct.make : Construct A → Option (Sparse A)
  | .empty => do
    let out := new
    check (← must (isEmpty N out)).1
    return out
  | .single i v => do
    let i := i % N
    let out := (← must (unit N nodrop i v [])).1
    check (← must (eqMap N same (mapInsert i v []).2 out)).1
    return out
  | .pair i v j w => do
    let i := i % N
    let j := j % N
    let out := (← must (Sparse.pair N nodrop i v j w [])).1
    check (← must (eqMap N same (mapInsert j w (mapInsert i v []).2).2 out)).1
    return out

/-- fuzz/fuzz_targets/sparse_chunk.rs:67-89, the `match` in the loop.  The state is the chunk and the guide. -/
def act (a : Action A) (s : Sparse A × List (Nat × A)) : Option (Sparse A × List (Nat × A)) := do
  let (c, g) := s
  match a with
  | .insert i v =>
    if i ≥ N then return (← assertPanic (insert N i v c), g)
    else
      let (x, c) ← must (insert N i v c)
      let (y, g) := mapInsert i v g
      check (sameOpt x y)
      return (c, g)
  | .remove i =>
    if i ≥ N then return (← assertPanic (remove N i c), g)
    else
      let (x, c) ← must (remove N i c)
      let (y, g) := mapRemove i g
      check (sameOpt x y)
      return (c, g)
  | .pop =>
    match (← must (firstIndex N c)).1 with
    | some i =>
      let (x, c) ← must (pop N c)
      let (y, g) := mapRemove i g
      check (sameOpt x y)
      return (c, g)
    | none =>
      let (x, c) ← must (pop N c)
      check (sameOpt x none)
      return (c, g)

/-- One turn of the loop: the action, then the assertions of lines 90-91. -/
def fuzzStep (a : Action A) (s : Sparse A × List (Nat × A)) : Option (Sparse A × List (Nat × A)) := do
  let (c, g) ← act N a s
  check (← must (eqMap N same g c)).1
  check (decide (g.length ≤ N))
  return (c, g)

/-- fuzz/fuzz_targets/sparse_chunk.rs:61-93, the whole target. -/
def fuzz (cons : Construct A) (actions : List (Action A)) : Option (Sparse A × List (Nat × A)) := do
  let c ← cons.make N
  let g := (← must (entries N c)).1
  runAll (fuzzStep N) actions (c, g)

/-! ### Proof -/
section proof
variable {N : Nat} {c : Sparse A} {m : SMap A} {g : List (Nat × A)}

/-- The guide has the entries of the map, each once. -/
structure Guide (m : SMap A) (g : List (Nat × A)) : Prop where
  nodup : (g.map Prod.fst).Nodup
  find : ∀ i, g.lookup i = m i

omit [DecidableEq A] in
theorem lookup_filter_ne (i j : Nat) (g : List (Nat × A)) : (g.filter (fun e => e.1 != i)).lookup j = if j = i then none else g.lookup j := by
  induction g with
  | nil => simp
  | cons e g ih =>
    obtain ⟨k, a⟩ := e
    by_cases h : k = i
    · subst h
      have h1 : ((k, a) :: g).filter (fun e => e.1 != k) = g.filter (fun e => e.1 != k) := by simp
      rw [h1, ih]
      by_cases hj : j = k
      · simp [hj]
      · have hb : (j == k) = false := by simp [hj]
        rw [if_neg hj, if_neg hj, List.lookup_cons, hb]
    · have h1 : ((k, a) :: g).filter (fun e => e.1 != i) = (k, a) :: g.filter (fun e => e.1 != i) := by simp [h]
      rw [h1, List.lookup_cons, ih, List.lookup_cons]
      cases hb : (j == k)
      · rfl
      · have : j = k := by simpa using hb
        subst this; simp [h]

omit [DecidableEq A] in
theorem Guide.remove (h : Guide m g) (i : Nat) : Guide (m.upd i none) (mapRemove i g).2 where
  nodup := h.nodup.sublist ((List.filter_sublist).map _)
  find j := by
    show (g.filter (fun e => e.1 != i)).lookup j = _
    rw [lookup_filter_ne, h.find]; rfl
omit [DecidableEq A] in
theorem Guide.insert (h : Guide m g) (i : Nat) (v : A) : Guide (m.upd i (some v)) (mapInsert i v g).2 where
  nodup := by
    show (((i, v) :: g.filter (fun e => e.1 != i)).map Prod.fst).Nodup
    rw [List.map_cons, List.nodup_cons]
    refine ⟨?_, (h.remove i).nodup⟩
    simp
  find j := by
    show ((i, v) :: g.filter (fun e => e.1 != i)).lookup j = _
    rw [List.lookup_cons, lookup_filter_ne, h.find]
    by_cases hj : j = i
    · simp [hj, SMap.upd]
    · have hb : (j == i) = false := by simp [hj]
      simp [hb, hj, SMap.upd]
theorem Guide.eqMap (hr : Rep N c m) (h : Guide m g) : Sparse.eqMap N same g c = .ok true c ∧ g.length ≤ N := by
  obtain ⟨b, e, hb⟩ := C53_eq_std_map (N := N) (view_iff.2 hr) same g h.nodup
  have ht : b = true := hb.2 ⟨fun i => by
      constructor
      · intro hn hm
        obtain ⟨⟨k, a⟩, hp, rfl⟩ := List.mem_map.1 hm
        have := mem_lookup h.nodup hp
        rw [h.find, hn] at this; cases this
      · intro hm
        cases hx : m i with
        | none => rfl
        | some a => exact absurd (List.mem_map.2 ⟨_, lookup_mem (h.find i ▸ hx), rfl⟩) hm,
    fun i a a' hm hp => by
      have := mem_lookup h.nodup hp
      rw [h.find, hm] at this
      cases this; exact same_self a⟩
  subst ht
  refine ⟨e, ?_⟩
  rw [eqMap_eq hr] at e
  simp only [Out.ok.injEq, and_true, Bool.and_eq_true, decide_eq_true_eq] at e
  rw [← e.1, SMap.keys]
  exact Nat.le_trans (List.length_filter_le _ _) (by simp)

theorem make_some (hN : 0 < N) (cons : Construct A) : ∃ c m, cons.make N = some c ∧ Rep N c m := by
  have g0 : Guide (SMap.empty : SMap A) [] := ⟨by simp, fun _ => rfl⟩
  cases cons with
  | empty => exact ⟨new, _, by simp [Construct.make, must, isEmpty_eq (Rep.empty (N := N) (A := A) Mem.uninit), check, new, SMap.keys, SMap.empty], Rep.empty Mem.uninit⟩
  | single i v =>
    have hi := Nat.mod_lt i hN
    obtain ⟨c, _, e, h, _⟩ := (unit_ref (N := N) nodrop (i % N) v []).of_ok (b := SMap.empty.upd (i % N) (some v)) (t := []) (by simp [MSpec.unit, hi])
    exact ⟨c, _, by simp [Construct.make, e, must, check, ((g0.insert (i % N) v).eqMap h).1], h⟩
  | pair i v j w =>
    have hi := Nat.mod_lt i hN
    have hj := Nat.mod_lt j hN
    by_cases hij : i % N = j % N
    · obtain ⟨c, _, e, h, _⟩ := (pair_ref (N := N) nodrop (i % N) v (j % N) w []).of_ok (b := SMap.empty.upd (j % N) (some w)) (t := [v]) (by
        simp [MSpec.pair, Nat.not_le.2 hj, hij, nodrop])
      have hg : Guide (SMap.empty.upd (j % N) (some w)) (mapInsert (j % N) w (mapInsert (i % N) v []).2).2 := by
        have := (g0.insert (i % N) v).insert (j % N) w
        rw [hij] at this ⊢
        have e2 : (SMap.empty.upd (j % N) (some v)).upd (j % N) (some w) = SMap.empty.upd (j % N) (some w) := by
          funext k; simp only [SMap.upd]; split <;> rfl
        rwa [e2] at this
      exact ⟨c, _, by simp [Construct.make, e, must, check, (hg.eqMap h).1], h⟩
    · obtain ⟨c, _, e, h, _⟩ := (pair_ref (N := N) nodrop (i % N) v (j % N) w []).of_ok
        (b := (SMap.empty.upd (i % N) (some v)).upd (j % N) (some w)) (t := []) (by simp [MSpec.pair, Nat.not_le.2 hi, Nat.not_le.2 hj, hij])
      exact ⟨c, _, by simp [Construct.make, e, must, check, (((g0.insert (i % N) v).insert (j % N) w).eqMap h).1], h⟩

theorem act_some (a : Action A) (h : Rep N c m) (hg : Guide m g) : ∃ c' m' g', act N a (c, g) = some (c', g') ∧ Rep N c' m' ∧ Guide m' g' := by
  cases a with
  | insert i v =>
    by_cases hi : i < N
    · obtain ⟨c', e, h'⟩ := (insert_ref h i v).of_ok (a := m i) (t := m.upd i (some v)) (by simp [MSpec.insert, hi])
      exact ⟨c', _, _, by simp [act, Nat.not_le.2 hi, e, must, mapInsert, hg.find, check, sameOpt_self], h', hg.insert i v⟩
    · obtain ⟨c', e, h'⟩ := (insert_ref h i v).of_panic (t := m) (by simp [MSpec.insert, hi])
      exact ⟨c', m, g, by simp [act, Nat.le_of_not_lt hi, e, assertPanic], h', hg⟩
  | remove i =>
    by_cases hi : i < N
    · obtain ⟨c', e, h'⟩ := (remove_ref h i).of_ok (a := m i) (t := m.upd i none) (by simp [MSpec.remove, hi])
      exact ⟨c', _, _, by simp [act, Nat.not_le.2 hi, e, must, mapRemove, hg.find, check, sameOpt_self], h', hg.remove i⟩
    · obtain ⟨c', e, h'⟩ := (remove_ref h i).of_panic (t := m) (by simp [MSpec.remove, hi])
      exact ⟨c', m, g, by simp [act, Nat.le_of_not_lt hi, e, assertPanic], h', hg⟩
  | pop =>
    cases hf : m.first N with
    | none =>
      obtain ⟨c', e, h'⟩ := (pop_ref h).of_ok (a := none) (t := m) (by simp [MSpec.pop, hf])
      exact ⟨c', m, g, by simp [act, firstIndex_eq h, hf, must, e, check, sameOpt_self], h', hg⟩
    | some i =>
      obtain ⟨c', e, h'⟩ := (pop_ref h).of_ok (a := m i) (t := m.upd i none) (by simp [MSpec.pop, hf])
      exact ⟨c', _, _, by simp [act, firstIndex_eq h, hf, must, e, mapRemove, hg.find, check, sameOpt_self], h', hg.remove i⟩

omit [DecidableEq A] in
theorem guide_entries (h : Rep N c m) : Guide m (m.pairs N) := by
  have hk : (m.pairs N).map Prod.fst = m.keys N := by
    simp only [SMap.pairs, SMap.keys]
    induction List.range N with
    | nil => rfl
    | cons i r ih => cases hm : m i <;> simp [hm, ih]
  have hn : ((m.pairs N).map Prod.fst).Nodup := by rw [hk]; exact List.nodup_range.sublist (List.filter_sublist)
  refine ⟨hn, fun i => ?_⟩
  cases hm : m i with
  | none =>
    cases hl : (m.pairs N).lookup i with
    | none => rfl
    | some a =>
      have := lookup_mem hl
      simp [SMap.pairs, hm] at this
  | some a =>
    refine mem_lookup hn ?_
    simp only [SMap.pairs, List.mem_filterMap, List.mem_range]
    exact ⟨i, h.lt hm, by simp [hm]⟩
end proof

/-- C90. The project's own fuzz target for `SparseChunk` cannot fail: for every construct and every sequence of actions that the fuzzer
may come up with, no assertion of the target fails, the code panics exactly where the target expects it to, and nothing is undefined. -/
theorem C90_fuzz_never_fails {N : Nat} (hN : 0 < N) (cons : Construct A) (actions : List (Action A)) :
    ∃ s m, fuzz N cons actions = some s ∧ View N s.1 m ∧ ∀ i, s.2.lookup i = m i := by
  obtain ⟨c, m, em, h⟩ := make_some hN cons
  obtain ⟨s, e, m', hr, hg⟩ := runAll_some (step := fuzzStep N) (I := fun s => ∃ m, Rep N s.1 m ∧ Guide m s.2) (P := fun _ : Action A => True)
    (fun a s _ ⟨m, hr, hg⟩ => by
      obtain ⟨c', m', g', e, h', hg'⟩ := act_some a hr hg
      have := hg'.eqMap h'
      exact ⟨(c', g'), by simp [fuzzStep, e, must, this.1, check, this.2], m', h', hg'⟩) actions (fun _ _ => trivial) (c, m.pairs N)
    ⟨m, h, guide_entries h⟩
  exact ⟨s, m', by simp [fuzz, em, entries_eq h, must, e], view_iff.2 hr, hg.find⟩

end target

section examples
/-- Actions on a chunk of capacity 4, some refused. -/
def someActions : List (Action Nat) := [.insert 3 7, .insert 4 1, .remove 1, .insert 1 5, .pop, .remove 9, .insert 0 2, .insert 0 3, .remove 2]
example : (fuzz 4 (.pair 9 10 5 20) someActions).map (·.2) = some [(0, 3), (3, 7)] := by decide +kernel
/-- The target can fail: capacity 0 has no index to insert at. -/
example : fuzz 0 (.single 0 (1 : Nat)) [] = none := by decide +kernel
end examples
end Verif.Sparse
