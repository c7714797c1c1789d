import Verif.Props.SparseHistory
/-
Properties of single `SparseChunk` operations: C49, C50, C51, C52, C53, C54 (drains), C55.
-/
namespace Verif.Sparse
open Verif.Chunk (dbg64 rel64)
variable {A : Type} {E : Env} {N : Nat} {dp : A → Bool} {cl : A → Option A} {c c' : Sparse A} {m m' : SMap A}

/-- A chunk of capacity 4 with entries at 1 and 3, used in the examples. -/
def sample : Sparse Nat := ⟨fun j => decide (j = 1) || decide (j = 3), fun j => if j = 1 then some 20 else if j = 3 then some 10 else none⟩
/-- The map it stores. -/
def sampleMap : SMap Nat := fun j => if j = 1 then some 20 else if j = 3 then some 10 else none
theorem sample_view : View 4 sample sampleMap := by
  intro i
  by_cases h : i < 4
  · obtain rfl | rfl | rfl | rfl : i = 0 ∨ i = 1 ∨ i = 2 ∨ i = 3 := by omega
    all_goals rfl
  · have h1 : i ≠ 1 := by omega
    have h3 : i ≠ 3 := by omega
    simp [get, h, sampleMap, h1, h3]

/-! ### C49 -/

/-- C49. `indices()` lists exactly the indices at which `get` shows an element, in strictly ascending order; `iter()` lists the
elements found there, in the same order; `entries()` lists the pairs. -/
theorem C49_iterators_ascending (h : View N c m) :
    ∃ ks vs, indices N c = .ok ks c ∧ ks.Pairwise (· < ·) ∧ (∀ i, i ∈ ks ↔ m i ≠ none) ∧
      items N c = .ok vs c ∧ ks.map m = vs.map some ∧ entries N c = .ok (ks.zip vs) c := by
  have hr := h.rep
  refine ⟨_, _, indices_eq hr, ?_, ?_, items_eq hr, ?_, ?_⟩
  · exact List.Pairwise.sublist List.filter_sublist List.pairwise_lt_range
  · intro i
    rw [mem_keys]
    constructor
    · intro h he; rw [he] at h; exact absurd h.2 (by simp)
    · intro hne
      cases hm : m i with
      | none => exact absurd hm hne
      | some a => exact ⟨hr.lt hm, rfl⟩
  · rw [← keys_filterMap]
    have : ∀ i ∈ m.keys N, (m i).isSome = true := fun i hi => (mem_keys.1 hi).2
    generalize m.keys N = l at this
    induction l with
    | nil => rfl
    | cons i r ih =>
      obtain ⟨a, ha⟩ := Option.isSome_iff_exists.1 (this i (by simp))
      simp [ha, ih (fun j hj => this j (by simp [hj]))]
  · rw [entries_eq hr, ← keys_pairs, ← keys_filterMap]
    have : ∀ i ∈ m.keys N, (m i).isSome = true := fun i hi => (mem_keys.1 hi).2
    congr 1
    generalize m.keys N = l at this
    induction l with
    | nil => rfl
    | cons i r ih =>
      obtain ⟨a, ha⟩ := Option.isSome_iff_exists.1 (this i (by simp))
      simp [ha, ih (fun j hj => this j (by simp [hj]))]

/-- C49, `iter_mut()`: it hands out references to exactly the slots of the indices in use, ascending, each once. -/
theorem C49_iter_mut_ascending (h : View N c m) :
    ∃ ks, iterMutSlots N c = .ok ks c ∧ ks.Pairwise (· < ·) ∧ (∀ i, i ∈ ks ↔ m i ≠ none) := by
  obtain ⟨ks, vs, h1, h2, h3, _⟩ := C49_iterators_ascending h
  rw [indices_eq h.rep] at h1
  injection h1 with h1 _
  subst h1
  exact ⟨_, iterMutSlots_eq h.rep, h2, h3⟩

theorem get_overwrite (ks : List Nat) (vs : List A) (m : SMap A) (hn : ks.Nodup) (hl : vs.length = ks.length) (n : Nat)
    (hk : n < ks.length) (hv : n < vs.length) : SMap.overwrite ks vs m ks[n] = some vs[n] := by
  induction ks generalizing vs m n with
  | nil => simp at hk
  | cons k ks ih =>
    cases vs with
    | nil => simp at hv
    | cons v vs =>
      rw [List.nodup_cons] at hn
      rw [SMap.overwrite]
      cases n with
      | zero => simp only [List.getElem_cons_zero]; rw [overwrite_not_mem _ _ _ _ hn.1]; simp [SMap.upd]
      | succ n => simp only [List.getElem_cons_succ]; exact ih vs _ hn.2 (by simpa using hl) n (by simpa using hk) (by simpa using hv)

/-- C49, writing through `iter_mut()` (or `option_iter_mut()`): if the client writes `vs` through the references, in order, then
exactly the entries' values are replaced: the `n`-th index in use now holds the `n`-th value, no index is added or removed. -/
theorem C49_write_through (hW : N < E.W) (h : View N c m) (f : List A → List A) {ks : List Nat} {vs : List A} (hk : indices N c = .ok ks c)
    (hv : items N c = .ok vs c) (hf : (f vs).length = vs.length) :
    ∃ m' s s', mutate N f c = .ok () s ∧ mutateOpt N E f c = .ok () s' ∧ View N s m' ∧ View N s' m' ∧
      (∀ i, i ∉ ks → m' i = m i) ∧
      (∀ n, (h1 : n < ks.length) → (h2 : n < (f vs).length) → m' ks[n] = some (f vs)[n]) := by
  have hr := h.rep
  rw [indices_eq hr] at hk; injection hk with hk _; subst hk
  rw [items_eq hr] at hv; injection hv with hv _; subst hv
  have h1 := mutate_ref hr f
  have h2 := mutateOpt_ref (E := E) hr hW f
  unfold MSpec.mutate at h1 h2
  rw [if_pos hf] at h1 h2
  obtain ⟨s, e, hs⟩ := h1.of_ok rfl
  obtain ⟨s', e', hs'⟩ := h2.of_ok rfl
  refine ⟨_, s, s', e, e', hs.view, hs'.view, fun i hi => overwrite_not_mem _ _ _ _ hi, fun n a b => ?_⟩
  exact get_overwrite _ _ _ (keys_nodup m) (by rw [hf, vals_length]) n a b

theorem keys_cons {i : Nat} {r : List Nat} (hk : m.keys N = i :: r) : (m.upd i none).keys N = r := by
  have := filter_clear (N := N) (fun j => (m j).isSome) hk
  unfold SMap.keys
  rw [← this]
  apply List.filter_congr
  intro j _
  simp only [SMap.upd]; split <;> rfl

theorem vals_cons {i : Nat} {r : List Nat} (hk : m.keys N = i :: r) : ∃ a, m i = some a ∧ m.vals N = a :: (m.upd i none).vals N := by
  have hi : i ∈ m.keys N := by rw [hk]; simp
  obtain ⟨a, ha⟩ := Option.isSome_iff_exists.1 (mem_keys.1 hi).2
  refine ⟨a, ha, ?_⟩
  have hn := keys_nodup (N := N) m
  rw [hk, List.nodup_cons] at hn
  rw [← keys_filterMap, ← keys_filterMap, hk, keys_cons hk, List.filterMap_cons_some ha]
  congr 1
  apply filterMap_congr'
  intro j hj
  simp only [SMap.upd]; rw [if_neg (by rintro rfl; exact hn.1 hj)]

theorem drain_rep (h : View N c m) {vs : List A} (hv : items N c = .ok vs c) (k : Nat) :
    ∃ s, drainMany N k c = .ok ((List.range k).map (fun n => vs[n]?)) s ∧ items N s = .ok (vs.drop k) s ∧ ∃ m', Rep N s m' := by
  induction k generalizing c m vs with
  | zero => exact ⟨c, rfl, by simpa using hv, m, h.rep⟩
  | succ k ih =>
    have hr := h.rep
    rw [items_eq hr] at hv; injection hv with hv _; subst hv
    have hp := pop_ref hr
    unfold MSpec.pop SMap.first at hp
    have e : ∀ (x : Option A) (l : List A), (List.range (k + 1)).map (fun n => (x.toList ++ l)[n]?) = (x.toList ++ l)[0]? :: (List.range k).map (fun n => (x.toList ++ l)[n + 1]?) := by
      intro x l; rw [List.range_succ_eq_map]; simp
    cases hk : m.keys N with
    | nil =>
      rw [hk] at hp
      obtain ⟨s, e1, hs⟩ := hp.of_ok rfl
      have hv : m.vals N = [] := by rw [← keys_filterMap, hk]; rfl
      obtain ⟨s', e2, hs', hm'⟩ := ih hs.view (items_eq hs)
      rw [hv] at e2 hs' ⊢
      refine ⟨s', ?_, by simpa using hs', hm'⟩
      simp only [drainMany, M.bind_run, e1, Out.andThen_ok, e2, M.pure_run]
      rw [List.range_succ_eq_map]; simp
    | cons i r =>
      rw [hk] at hp
      simp only [List.head?_cons] at hp
      obtain ⟨a, ha, hva⟩ := vals_cons hk
      rw [ha] at hp
      obtain ⟨s, e1, hs⟩ := hp.of_ok rfl
      obtain ⟨s', e2, hs', hm'⟩ := ih hs.view (items_eq hs)
      refine ⟨s', ?_, by rw [hva]; simpa using hs', hm'⟩
      simp only [drainMany, M.bind_run, e1, Out.andThen_ok, e2, M.pure_run, hva]
      rw [List.range_succ_eq_map]; simp

/-- C49, `drain()`: `k` calls of `next()` hand out the first `k` elements by ascending index (then `None` for ever), and what is
left in the drain is the rest. -/
theorem C49_drain_ascending (h : View N c m) {vs : List A} (hv : items N c = .ok vs c) (k : Nat) :
    ∃ s, drainMany N k c = .ok ((List.range k).map (fun n => vs[n]?)) s ∧ items N s = .ok (vs.drop k) s := by
  obtain ⟨s, e, hs, _⟩ := drain_rep h hv k
  exact ⟨s, e, hs⟩

/-- C49, `Drain::size_hint` is the exact number of elements left. -/
theorem C49_drain_size_hint (h : View N c m) {vs : List A} (hv : items N c = .ok vs c) :
    drainSizeHint N c = .ok (vs.length, some vs.length) c := by
  rw [items_eq h.rep] at hv; injection hv with hv _; subst hv
  simp [drainSizeHint, len_eq h.rep, vals_length]

/-- C49, `Iter::size_hint` and `IterMut::size_hint` bracket the number of elements left, however many (`k`) have been taken. -/
theorem C49_iter_size_hint (h : View N c m) {vs : List A} (hv : items N c = .ok vs c) (k : Nat) :
    ∃ lo hi, iterSizeHint N = (lo, some hi) ∧ lo ≤ (vs.drop k).length ∧ (vs.drop k).length ≤ hi := by
  rw [items_eq h.rep] at hv; injection hv with hv _; subst hv
  refine ⟨_, _, rfl, Nat.zero_le _, ?_⟩
  rw [List.length_drop, vals_length]
  refine Nat.le_trans (Nat.sub_le ..) ?_
  unfold SMap.keys
  exact Nat.le_trans (List.length_filter_le ..) (by simp)

/-- C49 is not vacuous. -/
example : ∃ s, entries 4 sample = .ok [(1, 20), (3, 10)] s := ⟨_, rfl⟩
example : ∃ s, drainMany 4 3 sample = .ok [some 20, some 10, none] s := ⟨_, rfl⟩
example : ∃ s, (do mutate 4 (List.map (· + 1)); entries 4 : M (Sparse Nat) _) sample = .ok [(1, 21), (3, 11)] s := ⟨_, rfl⟩

/-! ### C50 -/

/-- C50. `pop()` on an empty chunk returns `None` and changes nothing; otherwise `first_index()` is the smallest index in use, and
`pop()` returns the element there and removes exactly that entry. -/
theorem C50_pop_smallest (h : View N c m) :
    ((∀ i, m i = none) → firstIndex N c = .ok none c ∧ Returns (View N) (pop N c) none m) ∧
    (∀ i a, m i = some a → (∀ j, j < i → m j = none) →
      firstIndex N c = .ok (some i) c ∧ Returns (View N) (pop N c) (some a) (fun j => if j = i then none else m j)) := by
  have hr := h.rep
  have hp := pop_ref hr
  rw [← view_eq_rep] at hp
  unfold MSpec.pop at hp
  refine ⟨fun he => ?_, fun i a hi hmin => ?_⟩
  · have : m.first N = none := by
      unfold SMap.first SMap.keys
      rw [List.head?_filter, List.find?_eq_none]; intro i _; simp [he i]
    refine ⟨by rw [firstIndex_eq hr, this], ?_⟩
    rw [this] at hp
    exact hp.of_ok rfl
  · have hN := hr.lt hi
    have : m.first N = some i := by
      unfold SMap.first SMap.keys
      rw [List.head?_filter, List.find?_eq_some_iff_append]
      refine ⟨by simp [hi], List.range i, _, range_split hN, ?_⟩
      intro j hj; simp at hj; simp [hmin j hj]
    refine ⟨by rw [firstIndex_eq hr, this], ?_⟩
    rw [this] at hp
    simp only [hi] at hp
    exact hp.of_ok rfl

/-- C50 is not vacuous: in `sample` the smallest index in use is 1. -/
example : sampleMap 1 = some 20 ∧ (∀ j, j < 1 → sampleMap j = none) := by
  refine ⟨rfl, fun j hj => ?_⟩
  have : j = 0 := by omega
  subst this; rfl
example : ∃ s, pop 4 sample = .ok (some 20) s := ⟨_, rfl⟩

/-! ### Insertion and removal (part of C46, spelled out) -/

/-- C46, spelled out for `insert` and `remove`: they panic exactly for indices `>= N`, leaving the chunk as it was; otherwise they
return what `get` showed at the index and change what `get` shows at that index only. -/
theorem C46_insert_remove (h : View N c m) (i : Nat) (v : A) :
    PanicsExactly (View N) m (insert N i v c) (N ≤ i) ∧ PanicsExactly (View N) m (remove N i c) (N ≤ i) ∧
    (i < N → Returns (View N) (insert N i v c) (m i) (fun j => if j = i then some v else m j) ∧
      Returns (View N) (remove N i c) (m i) (fun j => if j = i then none else m j)) := by
  have h1 := insert_ref h.rep i v
  have h2 := remove_ref h.rep i
  rw [← view_eq_rep] at h1 h2
  unfold MSpec.insert at h1
  unfold MSpec.remove at h2
  refine ⟨h1.panicsExactly (fun hc => if_neg (by omega)) (fun hc => ⟨_, _, if_pos (by omega)⟩),
    h2.panicsExactly (fun hc => if_neg (by omega)) (fun hc => ⟨_, _, if_pos (by omega)⟩), fun hi => ?_⟩
  rw [if_pos hi] at h1 h2
  exact ⟨h1.of_ok rfl, h2.of_ok rfl⟩

example : ∃ s, insert 4 1 7 sample = .ok (some 20) s := ⟨_, rfl⟩
example : ∃ s, remove 4 0 sample = .ok none s := ⟨_, rfl⟩

/-! ### C51 -/

/-- C51. `option_iter()` yields exactly `N` entries, the `i`-th being `get(i)`; `option_iter_mut()` yields exactly `N` entries, the
`i`-th referring to slot `i` if `get(i)` shows something and being `None` otherwise. -/
theorem C51_option_iter (hW : N < E.W) (h : View N c m) :
    optionItems N E c = .ok ((List.range N).map m) c ∧
    optionSlots N E c = .ok ((List.range N).map (fun i => if m i = none then none else some i)) c := by
  refine ⟨optionItems_eq h.rep hW, ?_⟩
  rw [optionSlots_eq h.rep hW]
  congr 1
  apply List.map_congr_left
  intro i _
  cases m i <;> simp

theorem above_upd (i : Nat) (m : SMap A) : (above i m).upd i none = above (i + 1) m := by
  funext j
  simp only [SMap.upd, above]
  by_cases h1 : j = i
  · subst h1; simp
  · by_cases h2 : j < i
    · rw [if_neg h1, if_pos h2, if_pos (by omega)]
    · rw [if_neg h1, if_neg h2, if_neg (by omega)]

/-- C51 and C54. `option_drain()`: `k` calls of `next()` hand out `get(0)`, ..., `get(k - 1)` (then `None` from the `N`-th on), and what
is left in the drain is exactly the entries with index `>= k`. -/
theorem C51_option_drain (hW : N < E.W) (h : View N c m) (k : Nat) :
    ∃ s, optionDrainMany N E k 0 c = .ok ((List.range k).map (fun i => if i < N then some (m i) else none)) s ∧
      View N s (fun i => if i < k then none else m i) := by
  have key : ∀ (k i : Nat) (c : Sparse A), i ≤ N → Rep N c (above i m) →
      ∃ s, optionDrainMany N E k i c = .ok ((List.range' i k).map (fun i => if i < N then some (m i) else none)) s ∧
        Rep N s (above (i + k) m) := by
    intro k
    induction k with
    | zero => intro i c _ hc; exact ⟨c, rfl, hc⟩
    | succ k ih =>
      intro i c hi hc
      by_cases hl : i < N
      · have hrm := remove_ref hc i
        unfold MSpec.remove at hrm
        rw [if_pos hl] at hrm
        obtain ⟨s, e, hs⟩ := hrm.of_ok rfl
        rw [above_upd] at hs
        obtain ⟨s', e', hs'⟩ := ih (i + 1) s (by omega) hs
        refine ⟨s', ?_, by rw [show i + (k + 1) = i + 1 + k by omega]; exact hs'⟩
        have ha : above i m i = m i := by simp [above]
        rw [ha] at e
        simp only [optionDrainMany, optionDrainNext, M.bind_run, hl, if_true, e, Out.andThen_ok,
          uadd_ok (show i + 1 < E.W by omega), M.pure_run, e', List.range'_succ, List.map_cons]
      · have hiN : i = N := by omega
        obtain ⟨s', e', hs'⟩ := ih i c hi hc
        refine ⟨s', ?_, ?_⟩
        · simp only [optionDrainMany, optionDrainNext, M.bind_run, hl, if_false, Out.andThen_ok, M.pure_run, e']
          congr 1
          rw [List.range'_succ, List.map_cons, if_neg hl]
          congr 1
          have hmap : ∀ a, N ≤ a → (List.range' a k).map (fun i => if i < N then some (m i) else none) = List.replicate k none := by
            intro a ha
            rw [List.eq_replicate_iff]
            refine ⟨by simp, ?_⟩
            intro b hb
            simp only [List.mem_map, List.mem_range'_1] at hb
            obtain ⟨x, hx, rfl⟩ := hb
            rw [if_neg (by omega)]
          rw [hmap i (by omega), hmap (i + 1) (by omega)]
        · have : above (i + (k + 1)) m = above (i + k) m := by
            funext j
            simp only [above]
            by_cases hj : j < i + k
            · rw [if_pos hj, if_pos (by omega)]
            · rw [if_neg hj]
              split
              · exact (h.rep.out j (by omega)).symm
              · rfl
          rw [this]; exact hs'
  have h0 : Rep N c (above 0 m) := by
    have : above 0 m = m := by funext j; simp [above]
    rw [this]; exact h.rep
  obtain ⟨s, e, hs⟩ := key k 0 c (by omega) h0
  rw [Nat.zero_add] at hs
  rw [← List.range_eq_range'] at e
  exact ⟨s, e, hs.view⟩

/-- C51, `size_hint` of the three option iterators after `i` items: exactly the `N - i` left. -/
theorem C51_size_hint {σ : Type} (s : σ) {i : Nat} (hi : i ≤ N) : optionSizeHint N E i s = .ok (N - i, some (N - i)) s := by
  simp [optionSizeHint, usub, hi]

theorem fill_ok (l : List (Option A)) (i : Nat) (s : SMap A × List A) (hm : ∀ j, i ≤ j → s.1 j = none)
    (hl : ∀ k v, l[k]? = some (some v) → i + k < N) :
    MSpec.fill N dp i (It.ofList l) s = .ok () (fun j => if i ≤ j then l[j - i]?.join else s.1 j, s.2) := by
  induction l generalizing i s with
  | nil =>
    simp only [It.ofList, List.map_nil, MSpec.fill]
    refine congrArg (Out.ok ()) (Prod.ext ?_ rfl)
    funext j
    simp only
    split
    · rename_i h; simp [hm j h]
    · rfl
  | cons o l ih =>
    have hl' : ∀ k v, l[k]? = some (some v) → i + 1 + k < N := by
      intro k v hk; have := hl (k + 1) v (by simpa using hk); omega
    cases o with
    | none =>
      have e : MSpec.fill N dp i (It.ofList (none :: l)) s = MSpec.fill N dp (i + 1) (It.ofList l) s := rfl
      rw [e, ih (i + 1) s (fun j hj => hm j (by omega)) hl']
      congr 2
      funext j
      by_cases h1 : i + 1 ≤ j
      · rw [if_pos h1, if_pos (by omega), show j - i = (j - (i + 1)) + 1 by omega, List.getElem?_cons_succ]
      · rw [if_neg h1]
        split
        · have : j = i := by omega
          subst this; simp [hm j (Nat.le_refl _)]
        · rfl
    | some v =>
      have hi : i < N := by have := hl 0 v (by simp); omega
      have e : MSpec.fill N dp i (It.ofList (some v :: l)) s = MSpec.fill N dp (i + 1) (It.ofList l) (s.1.upd i (some v), s.2) := by
        simp only [It.ofList, List.map_cons, MSpec.fill, hi, if_true]
      rw [e, ih (i + 1) _ (fun j hj => by simp only [SMap.upd]; rw [if_neg (by omega)]; exact hm j (by omega)) hl']
      congr 2
      funext j
      by_cases h1 : i + 1 ≤ j
      · rw [if_pos h1, if_pos (by omega), show j - i = (j - (i + 1)) + 1 by omega, List.getElem?_cons_succ]
      · rw [if_neg h1]
        simp only [SMap.upd]
        by_cases h2 : j = i
        · subst h2; simp
        · rw [if_neg h2, if_neg (by omega)]

theorem fill_fail (l : List (Option A)) (i : Nat) (s : SMap A × List A) (hl : ∃ k v, l[k]? = some (some v) ∧ N ≤ i + k) :
    ∀ u, MSpec.fill N dp i (It.ofList l) s ≠ .ok () u := by
  induction l generalizing i s with
  | nil => obtain ⟨k, v, h, _⟩ := hl; simp at h
  | cons o l ih =>
    obtain ⟨k, v, h, hk⟩ := hl
    cases o with
    | none =>
      have e : MSpec.fill N dp i (It.ofList (none :: l)) s = MSpec.fill N dp (i + 1) (It.ofList l) s := rfl
      rw [e]
      cases k with
      | zero => simp at h
      | succ k => exact ih (i + 1) s ⟨k, v, by simpa using h, by omega⟩
    | some w =>
      simp only [It.ofList, List.map_cons, MSpec.fill]
      split
      · rename_i hi
        cases k with
        | zero => omega
        | succ k => exact ih (i + 1) _ ⟨k, v, by simpa using h, by omega⟩
      · intro u; unfold MSpec.panicDropping; split <;> simp

/-- C51, collecting options: `from_iter` of the options `l` succeeds iff every element sits at a position below `N`, and then the chunk
shows at each index exactly the option at that position; nothing is dropped. -/
theorem C51_from_iter (l : List (Option A)) (log : List A) (hl : ∀ i v, l[i]? = some (some v) → i < N) :
    ∃ c, fromIter N dp (It.ofList l) log = .ok c log ∧ View N c (fun i => l[i]?.join) := by
  have h := fromIter_ref (N := N) dp (It.ofList l) log
  have e := fill_ok (N := N) (dp := dp) l 0 (SMap.empty, log) (fun _ _ => rfl) (fun k v hk => by have := hl k v hk; omega)
  have e' : MSpec.fromIter N dp (It.ofList l) log = .ok (fun i => l[i]?.join) log := by
    unfold MSpec.fromIter; rw [e]; simp
  obtain ⟨a, s, h1, h2, h3⟩ := h.of_ok e'
  subst h3
  exact ⟨a, h1, h2.view⟩

theorem owned_ofList {B : Type} (xs : List B) : (It.ofList xs).owned = xs := by
  induction xs with
  | nil => rfl
  | cons a r ih => simp only [It.ofList, List.map_cons, It.owned] at *; rw [ih]

/-- C51, collecting too much: if an element sits at a position `>= N`, `from_iter` panics and all elements of the iterator are dropped,
each exactly once. (If one of their destructors panics as well, the process aborts.) -/
theorem C51_from_iter_panics [DecidableEq A] (hd : ∀ a, dp a = false) (l : List (Option A)) (log : List A) {i : Nat} {v : A}
    (hv : l[i]? = some (some v)) (hi : N ≤ i) :
    ∃ dropped, fromIter N dp (It.ofList l) log = .panic (log ++ dropped) ∧ dropped.Perm (l.filterMap id) := by
  have h := fromIter_ref (N := N) dp (It.ofList l) log
  have hb := (specBalanced (N := N) (dp := dp) (cl := fun _ => none)).ctor (.fromIter (It.ofList l)) log
  have ht := (specTotal (N := N) (dp := dp) (cl := fun _ => none) hd).ctor (.fromIter (It.ofList l)) log
  have hf := fill_fail (N := N) (dp := dp) l 0 (SMap.empty, log) ⟨i, v, hv, by omega⟩
  simp only [specMachine] at hb ht
  have hlog : ∀ s : List A, MSpec.fromIter N dp (It.ofList l) log = .panic s → ∃ d, s = log ++ d := by
    have hfl : ∀ (it : It (Option A)) i s s', MSpec.fill N dp i it s = .panic s' → ∃ d, s'.2 = s.2 ++ d := by
      intro it
      induction it with
      | nil => intro i s s' h; cases h
      | cons e r ih =>
        intro i s s' h
        cases e with
        | panic =>
          simp only [MSpec.fill, MSpec.panicDropping, any_total hd] at h
          cases h; exact ⟨_, rfl⟩
        | item o =>
          cases o with
          | none => exact ih _ _ _ h
          | some v =>
            simp only [MSpec.fill] at h
            split at h
            · have := ih _ _ _ h; exact this
            · simp only [MSpec.panicDropping, any_total hd] at h
              cases h; exact ⟨_, rfl⟩
    intro s hs
    unfold MSpec.fromIter at hs
    cases hx : MSpec.fill N dp 0 (It.ofList l) (SMap.empty, log) with
    | ok u w => exact absurd hx (hf w)
    | panic w =>
      rw [hx] at hs
      simp only [any_total hd] at hs
      cases hs
      obtain ⟨d, hd'⟩ := hfl _ _ _ _ hx
      exact ⟨d ++ w.1.vals N, by rw [hd']; simp⟩
    | abort => rw [hx] at hs; cases hs
    | ub => rw [hx] at hs; cases hs
    | diverge => rw [hx] at hs; cases hs
  cases hx : MSpec.fromIter N dp (It.ofList l) log with
  | ok a s =>
    exfalso
    unfold MSpec.fromIter at hx
    cases hy : MSpec.fill N dp 0 (It.ofList l) (SMap.empty, log) with
    | ok u w => exact hf w hy
    | panic w => rw [hy] at hx; simp only [any_total hd] at hx; cases hx
    | abort => rw [hy] at hx; cases hx
    | ub => rw [hy] at hx; cases hx
    | diverge => rw [hy] at hx; cases hx
  | panic s =>
    obtain ⟨d, rfl⟩ := hlog s hx
    rw [hx] at hb
    obtain ⟨s', e, rfl⟩ := h.of_panic hx
    refine ⟨d, e, ?_⟩
    rw [List.perm_iff_count]
    intro a
    have := hb a
    have e2 : MSpec.owned (It.ofList l) = l.filterMap id := by
      unfold MSpec.owned
      congr 1
      exact owned_ofList l
    simp only [inputs, e2, List.count_append] at this
    omega
  | abort => rw [hx] at ht; exact ht.elim
  | ub => rw [hx] at ht; exact ht.elim
  | diverge => rw [hx] at ht; exact ht.elim

/-- C51, round trip: collecting what `option_iter` (or `option_drain`) yields makes a chunk showing the same map. -/
theorem C51_round_trip (hW : N < E.W) (h : View N c m) (log : List A) :
    ∃ l s c', optionItems N E c = .ok l s ∧ fromIter N dp (It.ofList l) log = .ok c' log ∧ View N c' m := by
  have h1 := (C51_option_iter hW h).1
  obtain ⟨c', e, hv⟩ := C51_from_iter (N := N) (dp := dp) ((List.range N).map m) log (by
    intro i v hi
    have : i < ((List.range N).map m).length := by
      apply Nat.lt_of_not_le; intro hle
      rw [List.getElem?_eq_none hle] at hi; cases hi
    simpa using this)
  refine ⟨_, _, c', h1, e, ?_⟩
  have : (fun i => (((List.range N).map m)[i]?).join) = m := by
    funext i
    by_cases hi : i < N
    · simp [hi]
    · rw [List.getElem?_eq_none (by simp; omega), h.out (by omega)]; rfl
  rwa [this] at hv

/-- C51 is not vacuous. -/
example : ∃ s, optionItems 4 dbg64 sample = .ok [none, some 20, none, some 10] s := ⟨_, rfl⟩
example : ∃ s, optionDrainMany 4 dbg64 2 0 sample = .ok [some none, some (some 20)] s := ⟨_, rfl⟩
example : ∃ s, (do let _ ← optionDrainMany 4 dbg64 2 0; entries 4 : M (Sparse Nat) _) sample = .ok [(3, 10)] s := ⟨_, rfl⟩
example : ([none, some 5, some 6] : List (Option Nat))[2]? = some (some 6) ∧ 2 ≤ 2 := ⟨rfl, Nat.le_refl _⟩
example : fromIter 2 (fun _ => false) (It.ofList [none, some 5, some 6]) [] = .panic [6, 5] := rfl

/-! ### C52, C53 -/

/-- C52. Comparing two chunks is comparing the maps they show: with `eq` comparing elements, `c == c'` iff at every index both show
nothing, or both show elements that are `eq`. -/
theorem C52_eq_is_map_equality (h : View N c m) (h' : View N c' m') (eq : A → A → Bool) :
    ∃ b, eqSparse N eq (c, c') = .ok b (c, c') ∧
      (b = true ↔ ∀ i, (m i = none ↔ m' i = none) ∧ ∀ a a', m i = some a → m' i = some a' → eq a a' = true) := by
  refine ⟨_, eqSparse_eq h.rep h'.rep eq, ?_⟩
  rw [List.all_eq_true]
  constructor
  · intro hh i
    by_cases hi : i < N
    · have := hh i (by simpa using hi)
      cases hm : m i <;> cases hm' : m' i <;> rw [hm, hm'] at this <;> simp_all [MSpec.sameOpt]
    · rw [h.out (by omega), h'.out (by omega)]; simp
  · intro hh i _
    obtain ⟨h1, h2⟩ := hh i
    cases hm : m i <;> cases hm' : m' i <;> simp_all [MSpec.sameOpt]

/-- C52, when the elements' comparison is equality: `c == c'` iff `get` agrees on every index. -/
theorem C52_eq_iff_same_map [DecidableEq A] (h : View N c m) (h' : View N c' m') :
    ∃ b, eqSparse N (fun a a' => decide (a = a')) (c, c') = .ok b (c, c') ∧ (b = true ↔ ∀ i, m i = m' i) := by
  obtain ⟨b, e, hb⟩ := C52_eq_is_map_equality h h' (fun a a' => decide (a = a'))
  refine ⟨b, e, hb.trans ⟨fun hh i => ?_, fun hh i => ?_⟩⟩
  · obtain ⟨h1, h2⟩ := hh i
    cases hm : m i <;> cases hm' : m' i <;> simp_all
  · rw [hh i]; simp; intro a a' h1 h2; simp_all

/-- C52 is not vacuous. -/
example : ∃ s, eqSparse 4 (fun a a' => decide (a = a')) (sample, sample) = .ok true s := ⟨_, rfl⟩
example : ∃ s, eqSparse 4 (fun a a' => decide (a = a')) (sample, (new : Sparse Nat)) = .ok false s := ⟨_, rfl⟩

theorem lookup_mem {l : List (Nat × A)} {i : Nat} {a : A} (h : l.lookup i = some a) : (i, a) ∈ l := by
  induction l with
  | nil => simp at h
  | cons p r ih =>
    obtain ⟨k, b⟩ := p
    rw [List.lookup_cons] at h
    by_cases hk : i = k
    · subst hk; simp at h; subst h; simp
    · have : (i == k) = false := by simpa using hk
      rw [this] at h
      exact List.mem_cons_of_mem _ (ih h)

theorem mem_lookup {l : List (Nat × A)} (hn : (l.map Prod.fst).Nodup) {i : Nat} {a : A} (h : (i, a) ∈ l) : l.lookup i = some a := by
  induction l with
  | nil => cases h
  | cons p r ih =>
    obtain ⟨k, b⟩ := p
    rw [List.map_cons, List.nodup_cons] at hn
    rw [List.lookup_cons]
    rcases List.mem_cons.1 h with h | h'
    · rw [Prod.mk.injEq] at h; rw [h.1, h.2]; simp
    · have : i ≠ k := by
        rintro rfl
        exact hn.1 (List.mem_map.2 ⟨_, h', rfl⟩)
      have : (i == k) = false := by simpa using this
      rw [this]
      exact ih hn.2 h'

/-- A list without repetitions all of whose members are in `l'`, and which is at least as long, has all the members of `l'`. -/
theorem pigeonhole {l l' : List Nat} (hn : l.Nodup) (hs : ∀ x ∈ l, x ∈ l') (hl : l'.length ≤ l.length) : ∀ x ∈ l', x ∈ l := by
  induction l generalizing l' with
  | nil =>
    intro x hx
    have : l' = [] := List.length_eq_zero_iff.1 (by simpa using hl)
    rw [this] at hx; cases hx
  | cons a r ih =>
    rw [List.nodup_cons] at hn
    intro x hx
    by_cases hxa : x = a
    · simp [hxa]
    · have ha : a ∈ l' := hs a (by simp)
      have hlen := List.length_erase_of_mem ha
      have := ih (l' := l'.erase a) hn.2 (fun y hy => (List.mem_erase_of_ne (by rintro rfl; exact hn.1 hy)).2 (hs y (by simp [hy])))
        (by rw [hlen]; simp at hl; omega) x ((List.mem_erase_of_ne hxa).2 hx)
      exact List.mem_cons_of_mem _ this

/-- C53. Comparing a chunk with a standard map (`BTreeMap` or `HashMap`), given by its entries `other` with pairwise different keys:
`c == other` iff the map has an entry at exactly the indices at which the chunk shows one, with equal elements -- although the
code only compares the lengths and looks up the chunk's own indices; keys `>= N` in `other` are covered. -/
theorem C53_eq_std_map (h : View N c m) (eq : A → A → Bool) (other : List (Nat × A)) (hn : (other.map Prod.fst).Nodup) :
    ∃ b, eqMap N eq other c = .ok b c ∧
      (b = true ↔ (∀ i, m i = none ↔ i ∉ other.map Prod.fst) ∧ ∀ i a a', m i = some a → (i, a') ∈ other → eq a a' = true) := by
  refine ⟨_, eqMap_eq h.rep eq other, ?_⟩
  have hr := h.rep
  have hkey : ∀ i, i ∈ other.map Prod.fst ↔ ∃ a, other.lookup i = some a := by
    intro i
    constructor
    · intro hi
      obtain ⟨⟨k, a⟩, hp, rfl⟩ := List.mem_map.1 hi
      exact ⟨a, mem_lookup hn hp⟩
    · rintro ⟨a, ha⟩
      exact List.mem_map.2 ⟨_, lookup_mem ha, rfl⟩
  rw [Bool.and_eq_true, decide_eq_true_eq, List.all_eq_true]
  constructor
  · rintro ⟨hl, hall⟩
    have hsub : ∀ i ∈ m.keys N, i ∈ other.map Prod.fst := by
      intro i hi
      have := hall i hi
      obtain ⟨a, ha⟩ := Option.isSome_iff_exists.1 (mem_keys.1 hi).2
      rw [hkey]
      cases ho : other.lookup i with
      | none => rw [ha, ho] at this; simp [MSpec.sameOpt] at this
      | some b => exact ⟨b, rfl⟩
    have hsup := pigeonhole (keys_nodup m) hsub (by simp; omega)
    refine ⟨fun i => ⟨fun hm hi => ?_, fun hi => ?_⟩, fun i a a' ha ho => ?_⟩
    · have := (mem_keys.1 (hsup i hi)).2
      rw [hm] at this; cases this
    · cases hm : m i with
      | none => rfl
      | some a => exact absurd (hsub i (mem_keys.2 ⟨hr.lt hm, by simp [hm]⟩)) hi
    · have := hall i (mem_keys.2 ⟨hr.lt ha, by simp [ha]⟩)
      rw [ha, mem_lookup hn ho] at this
      exact this
  · rintro ⟨h1, h2⟩
    have hsub : ∀ i ∈ m.keys N, i ∈ other.map Prod.fst := by
      intro i hi
      have := (mem_keys.1 hi).2
      apply Classical.byContradiction
      intro hno
      rw [(h1 i).2 hno] at this; cases this
    have hsup : ∀ i ∈ other.map Prod.fst, i ∈ m.keys N := by
      intro i hi
      cases hm : m i with
      | none => exact absurd hi ((h1 i).1 hm)
      | some a => exact mem_keys.2 ⟨hr.lt hm, by simp [hm]⟩
    refine ⟨?_, fun i hi => ?_⟩
    · have e1 : ((m.keys N).length ≤ (other.map Prod.fst).length) := List.Nodup.length_le_of_subset (keys_nodup m) hsub
      have e2 : ((other.map Prod.fst).length ≤ (m.keys N).length) := List.Nodup.length_le_of_subset hn hsup
      simp at e1 e2; omega
    · obtain ⟨a, ha⟩ := Option.isSome_iff_exists.1 (mem_keys.1 hi).2
      obtain ⟨a', ha'⟩ := (hkey i).1 (hsub i hi)
      rw [ha, ha']
      exact h2 i a a' ha (lookup_mem ha')

/-- C53 is not vacuous: an equal map, a map with one more key beyond the capacity, one with a different value. -/
example : (([(3, 10), (1, 20)] : List (Nat × Nat)).map Prod.fst).Nodup := by decide
example : ∃ s, eqMap 4 (fun a a' => decide (a = a')) [(3, 10), (1, 20)] sample = .ok true s := ⟨_, rfl⟩
example : ∃ s, eqMap 4 (fun a a' => decide (a = a')) [(3, 10), (1, 20), (9, 1)] sample = .ok false s := ⟨_, rfl⟩
example : ∃ s, eqMap 4 (fun a a' => decide (a = a')) [(3, 10), (9, 20)] sample = .ok false s := ⟨_, rfl⟩

/-! ### C54: partially consumed drains -/

/-- C54, an abandoned `Drain`: after `k` calls of `next()`, dropping the drain destroys exactly the elements not yet handed out, in
order, each once. -/
theorem C54_abandoned_drain (hd : ∀ a, dp a = false) (h : View N c m) {vs : List A} (hv : items N c = .ok vs c) (k : Nat) (log : List A) :
    ∃ s s', drainMany N k c = .ok ((List.range k).map (fun n => vs[n]?)) s ∧ drop N dp (s, log) = .ok () (s', log ++ vs.drop k) := by
  obtain ⟨s, e, hs, m', hm'⟩ := drain_rep h hv k
  rw [items_eq hm'] at hs
  injection hs with hs _
  refine ⟨s, s, e, ?_⟩
  rw [drop_eq hm']
  simp [seqDrop, any_total hd, hs]

/-- C54, an abandoned `OptionDrain`: after `k` calls of `next()`, dropping it destroys exactly the elements at indices `>= k`. -/
theorem C54_abandoned_option_drain (hd : ∀ a, dp a = false) (hW : N < E.W) (h : View N c m) (k : Nat) (log : List A) :
    ∃ r s s', optionDrainMany N E k 0 c = .ok r s ∧
      drop N dp (s, log) = .ok () (s', log ++ (List.range N).filterMap (fun i => if i < k then none else m i)) := by
  obtain ⟨s, e, hs⟩ := C51_option_drain hW h k
  refine ⟨_, s, s, e, ?_⟩
  rw [drop_eq hs.rep]
  simp only [seqDrop, any_total hd]
  rfl

example : ∃ s, (do let _ ← M.onFst (drainMany 4 1); drop 4 (fun _ => false) : M (Sparse Nat × List Nat) _) (sample, []) = .ok () (s, [10]) :=
  ⟨_, rfl⟩
example : ∃ s, (do let _ ← M.onFst (optionDrainMany 4 dbg64 2 0); drop 4 (fun _ => false) : M (Sparse Nat × List Nat) _) (sample, [])
    = .ok () (s, [10]) := ⟨_, rfl⟩

/-- C54, dropping a chunk runs the destructor of every element it shows, by ascending index, once; if one of them panics, the ones
after it are not dropped (they leak), and none is dropped twice. -/
theorem C54_drop (h : View N c m) {vs : List A} (hv : items N c = .ok vs c) (log : List A) :
    ((∀ a ∈ vs, dp a = false) → ∃ s, drop N dp (c, log) = .ok () (s, log ++ vs)) ∧
    (∀ p a r, vs = p ++ a :: r → (∀ x ∈ p, dp x = false) → dp a = true → ∃ s, drop N dp (c, log) = .panic (s, log ++ (p ++ [a]))) := by
  rw [items_eq h.rep] at hv; injection hv with hv _; subst hv
  refine ⟨fun hf => ⟨c, ?_⟩, fun p a r e hp ha => ⟨c, ?_⟩⟩
  · rw [drop_eq h.rep]
    have : (m.vals N).any dp = false := by rw [List.any_eq_false]; intro x hx; simp [hf x hx]
    simp [seqDrop, this]
  · rw [drop_eq h.rep, e]
    have hi : (p ++ a :: r).findIdx dp = p.length := by
      clear e
      induction p with
      | nil => simp [List.findIdx_cons, ha]
      | cons x p ih =>
        rw [List.cons_append, List.findIdx_cons, hp x (by simp), ih (fun y hy => hp y (by simp [hy]))]
        simp
    have ht : (p ++ a :: r).take (p.length + 1) = p ++ [a] := by
      rw [List.take_append, List.take_of_length_le (by omega)]; simp
    simp only [seqDrop, hi, ht]
    rw [if_pos (by simp [ha])]

example : ∃ s, drop 4 (fun a => a == 20) (sample, []) = .panic (s, [20]) := ⟨_, rfl⟩

/-! ### C55 -/

/-- C55. `clone()`: if cloning no element panics, the new chunk shows at every index the clone of what the source shows there, the
source is unchanged and nothing is dropped. -/
theorem C55_clone (h : View N c m) (log : List A) (hc : ∀ i a, m i = some a → (cl a).isSome = true) :
    ∃ c' s, clone N dp cl (c, log) = .ok c' (s, log) ∧ View N c' (fun i => (m i).bind cl) ∧ View N s m := by
  have hr := clone_ref dp cl h.rep log
  have hb : (Spec.bornOf cl (m.vals N)).length = (m.vals N).length := by
    have : ∀ a ∈ m.vals N, (cl a).isSome = true := by
      intro a ha
      simp only [SMap.vals, List.mem_filterMap] at ha
      obtain ⟨i, _, hi⟩ := ha
      exact hc i a hi
    generalize m.vals N = l at this
    induction l with
    | nil => rfl
    | cons a r ih =>
      obtain ⟨b, hb⟩ := Option.isSome_iff_exists.1 (this a (by simp))
      simp [Spec.bornOf, hb, ih (fun x hx => this x (by simp [hx]))]
  have e : MSpec.clone N dp cl (m, log) = .ok (fun i => (m i).bind cl) (m, log) := by
    simp only [MSpec.clone, hb, if_true]
  obtain ⟨a, ⟨s, lg⟩, h1, h2, h3, h4⟩ := hr.of_ok e
  dsimp only at h3 h4
  subst h4
  exact ⟨a, s, h1, h2.view, h3.view⟩

theorem bornOf_split (cl : A → Option A) (p : List A) (a : A) (r : List A) (hp : ∀ x ∈ p, (cl x).isSome = true) (ha : cl a = none) :
    Spec.bornOf cl (p ++ a :: r) = p.filterMap cl := by
  induction p with
  | nil => simp [Spec.bornOf, ha]
  | cons x p ih =>
    obtain ⟨b, hb⟩ := Option.isSome_iff_exists.1 (hp x (by simp))
    simp [Spec.bornOf, hb, ih (fun y hy => hp y (by simp [hy]))]

/-- C55, a panicking `Clone`: if cloning the element `a` panics after the elements `p` were cloned, the panic goes on, the source is
unchanged, and exactly the clones already made are dropped, each once (abort if one of their destructors panics too). -/
theorem C55_clone_panics (h : View N c m) (log : List A) {p : List A} {a : A} {r : List A} (hv : items N c = .ok (p ++ a :: r) c)
    (hp : ∀ x ∈ p, (cl x).isSome = true) (ha : cl a = none) (hd : ∀ x ∈ p.filterMap cl, dp x = false) :
    ∃ s, clone N dp cl (c, log) = .panic (s, log ++ p.filterMap cl) ∧ View N s m := by
  rw [items_eq h.rep] at hv; injection hv with hv _
  have hr := clone_ref dp cl h.rep log
  have hb := bornOf_split cl p a r hp ha
  have hlen : ¬ (p.filterMap cl).length = (p ++ a :: r).length := by
    have := List.length_filterMap_le cl p
    simp; omega
  have e : MSpec.clone N dp cl (m, log) = .panic (m, log ++ p.filterMap cl) := by
    have hany : (p.filterMap cl).any dp = false := by rw [List.any_eq_false]; intro x hx; simp [hd x hx]
    simp only [MSpec.clone, hv, hb, hlen, if_false, MSpec.panicDropping, hany]
    simp
  obtain ⟨⟨s, lg⟩, h1, h2, h3⟩ := hr.of_panic e
  dsimp only at h2 h3
  subst h3
  exact ⟨s, h1, h2.view⟩

/-- C55 is not vacuous: cloning `sample` where the second element's clone panics. -/
example : ∃ s, clone 4 (fun _ => false) (fun a => if a = 10 then none else some (a + 1)) (sample, []) = .panic (s, [21]) := ⟨_, rfl⟩
example : ∃ s c', clone 4 (fun _ => false) (fun a => some (a + 1)) (sample, []) = .ok c' (s, []) ∧
    ∃ s, entries 4 c' = .ok [(1, 21), (3, 11)] s := ⟨_, _, rfl, _, rfl⟩
end Verif.Sparse
