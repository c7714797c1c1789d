import Verif.SpecMap
import Verif.Sparse.Model
/-
The representation relation between the model of `SparseChunk` and maps, and the loops over bitmaps.
-/
namespace Verif
namespace Sparse
variable {A σ : Type} {N : Nat}

/-- `c` stores the map `m`. -/
structure Rep (N : Nat) (c : Sparse A) (m : SMap A) : Prop where
  map : ∀ i, i < N → c.map i = (m i).isSome
  mem : ∀ i a, i < N → m i = some a → c.mem i = some a
  out : ∀ i, N ≤ i → m i = none

theorem Rep.lt {c : Sparse A} {m : SMap A} (h : Rep N c m) {i : Nat} {a : A} (e : m i = some a) : i < N := by
  apply Nat.lt_of_not_le; intro hle; rw [h.out i hle] at e; cases e

/-! ### Loops over bitmaps -/

/-- The set indices from `pos` on. -/
def idxFrom (N : Nat) (b : Bitmap) (pos : Nat) : List Nat := (List.range N).filter (fun i => decide (pos ≤ i) && b i)

theorem idxFrom_zero (b : Bitmap) : idxFrom N b 0 = (List.range N).filter b := by
  unfold idxFrom; apply List.filter_congr; simp

theorem idxFrom_length (b : Bitmap) (pos : Nat) : (idxFrom N b pos).length ≤ N := by
  have := List.length_filter_le (fun i => decide (pos ≤ i) && b i) (List.range N)
  simpa [idxFrom] using this

theorem idxFrom_cons (b : Bitmap) (pos : Nat) :
    idxFrom N b pos = [] ∨ ∃ i, pos ≤ i ∧ i < N ∧ b i = true ∧ idxFrom N b pos = i :: idxFrom N b (i + 1) := by
  induction N with
  | zero => left; rfl
  | succ n ih =>
    have hs : ∀ p, idxFrom (n + 1) b p = idxFrom n b p ++ (if (decide (p ≤ n) && b n) = true then [n] else []) := by
      intro p; unfold idxFrom; rw [List.range_succ, List.filter_append]
      simp only [List.filter_cons, List.filter_nil]
    rcases ih with h | ⟨i, h1, h2, h3, h4⟩
    · rw [hs pos, h]
      by_cases hc : (decide (pos ≤ n) && b n) = true
      · right
        simp only [Bool.and_eq_true, decide_eq_true_eq] at hc
        refine ⟨n, hc.1, by omega, hc.2, ?_⟩
        have : idxFrom (n + 1) b (n + 1) = [] := by
          unfold idxFrom; rw [List.filter_eq_nil_iff]
          intro x hx; simp at hx; simp; omega
        rw [this]; simp [hc]
      · left; simp [hc]
    · right
      refine ⟨i, h1, by omega, h3, ?_⟩
      rw [hs pos, hs (i + 1), h4]
      have : (decide (pos ≤ n) && b n) = (decide (i + 1 ≤ n) && b n) := by
        have h5 : pos ≤ n := by omega
        have h6 : i + 1 ≤ n := by omega
        simp [h5, h6]
      rw [this]; rfl

theorem bmNext_eq (b : Bitmap) (pos : Nat) : bmNext N b pos = (idxFrom N b pos).head? := by
  unfold bmNext idxFrom; rw [List.head?_filter]

/-- Run `body` on each index. -/
def each (body : Nat → M σ Unit) : List Nat → M σ Unit
  | [] => pure ()
  | i :: r => do
    body i
    each body r

/-- Run `test` on each index until it fails. -/
def eachTest (test : Nat → M σ Bool) : List Nat → M σ Bool
  | [] => pure true
  | i :: r => do
    if (← test i) = true then eachTest test r else return false

theorem forBits_from (b : Bitmap) (body : Nat → M σ Unit) (f pos : Nat) (hf : (idxFrom N b pos).length < f) :
    forBits N b body f pos = each body (idxFrom N b pos) := by
  induction f generalizing pos with
  | zero => omega
  | succ f ih =>
    unfold forBits
    rw [bmNext_eq]
    rcases idxFrom_cons (N := N) b pos with h | ⟨i, h1, h2, h3, h4⟩
    · rw [h]; rfl
    · rw [h4] at hf ⊢
      simp only [List.head?_cons, each]
      rw [ih (i + 1) (by simpa using hf)]

theorem forBits_eq (b : Bitmap) (body : Nat → M σ Unit) :
    forBits N b body (N + 1) 0 = each body ((List.range N).filter b) := by
  rw [forBits_from b body _ _ (Nat.lt_succ_of_le (idxFrom_length b 0)), idxFrom_zero]

theorem allBits_from (b : Bitmap) (test : Nat → M σ Bool) (f pos : Nat) (hf : (idxFrom N b pos).length < f) :
    allBits N b test f pos = eachTest test (idxFrom N b pos) := by
  induction f generalizing pos with
  | zero => omega
  | succ f ih =>
    unfold allBits
    rw [bmNext_eq]
    rcases idxFrom_cons (N := N) b pos with h | ⟨i, h1, h2, h3, h4⟩
    · rw [h]; rfl
    · rw [h4] at hf ⊢
      simp only [List.head?_cons, eachTest]
      rw [ih (i + 1) (by simpa using hf)]

theorem allBits_eq (b : Bitmap) (test : Nat → M σ Bool) :
    allBits N b test (N + 1) 0 = eachTest test ((List.range N).filter b) := by
  rw [allBits_from b test _ _ (Nat.lt_succ_of_le (idxFrom_length b 0)), idxFrom_zero]

/-! ### Maps -/

theorem filterMap_congr' {α β : Type} {f g : α → Option β} {l : List α} (h : ∀ x ∈ l, f x = g x) : l.filterMap f = l.filterMap g := by
  induction l with
  | nil => rfl
  | cons a r ih =>
    rw [List.filterMap_cons, List.filterMap_cons, h a (by simp), ih (fun x hx => h x (by simp [hx]))]


theorem keys_eq {c : Sparse A} {m : SMap A} (h : Rep N c m) : (List.range N).filter c.map = m.keys N := by
  unfold SMap.keys
  apply List.filter_congr
  intro i hi
  exact h.map i (by simpa using hi)

theorem mem_keys {m : SMap A} {i : Nat} : i ∈ m.keys N ↔ i < N ∧ (m i).isSome = true := by
  simp [SMap.keys]

theorem keys_nodup (m : SMap A) : (m.keys N).Nodup := List.nodup_range.sublist List.filter_sublist

theorem keys_filterMap (m : SMap A) : (m.keys N).filterMap m = m.vals N := by
  unfold SMap.keys SMap.vals
  rw [List.filterMap_filter]
  apply filterMap_congr'
  intro i _
  cases m i <;> simp

theorem keys_pairs (m : SMap A) : (m.keys N).filterMap (fun i => (m i).map (fun a => (i, a))) = m.pairs N := by
  unfold SMap.keys SMap.pairs
  rw [List.filterMap_filter]
  apply filterMap_congr'
  intro i _
  cases m i <;> simp

theorem filterMap_length_of {f : Nat → Option A} {l : List Nat} (h : ∀ i ∈ l, (f i).isSome = true) :
    (l.filterMap f).length = l.length := by
  induction l with
  | nil => rfl
  | cons a r ih =>
    obtain ⟨x, hx⟩ := Option.isSome_iff_exists.1 (h a (by simp))
    simp [hx, ih (fun i hi => h i (by simp [hi]))]

theorem vals_length (m : SMap A) : (m.vals N).length = (m.keys N).length := by
  rw [← keys_filterMap]
  exact filterMap_length_of (fun i hi => (mem_keys.1 hi).2)

theorem keys_length_le (m : SMap A) : (m.keys N).length ≤ N := by
  have := List.length_filter_le (fun i => (m i).isSome) (List.range N)
  simpa [SMap.keys] using this

/-! ### Rep after updates -/

theorem Rep.empty (mem : Mem A) : Rep N ⟨bmEmpty, mem⟩ SMap.empty :=
  ⟨fun _ _ => rfl, fun _ _ _ h => by simp [SMap.empty] at h, fun _ _ => rfl⟩

theorem Rep.insert {c : Sparse A} {m : SMap A} (h : Rep N c m) {i : Nat} (hi : i < N) (v : A) :
    Rep N ⟨fun j => if j = i then true else c.map j, c.mem.put i v⟩ (m.upd i (some v)) := by
  refine ⟨fun j hj => ?_, fun j a hj e => ?_, fun j hj => ?_⟩
  · simp only [SMap.upd]; split
    · rfl
    · exact h.map j hj
  · simp only [SMap.upd, Mem.put] at *; split at e
    · rename_i hji; simp [hji]; simpa using e
    · rename_i hji; simp [hji]; exact h.mem j a hj e
  · simp only [SMap.upd]; rw [if_neg (by omega)]; exact h.out j hj

theorem Rep.remove {c : Sparse A} {m : SMap A} (h : Rep N c m) (i : Nat) :
    Rep N ⟨fun j => if j = i then false else c.map j, c.mem⟩ (m.upd i none) := by
  refine ⟨fun j hj => ?_, fun j a hj e => ?_, fun j hj => ?_⟩
  · simp only [SMap.upd]; split
    · rfl
    · exact h.map j hj
  · simp only [SMap.upd] at e; split at e
    · cases e
    · exact h.mem j a hj e
  · simp only [SMap.upd]; split
    · rfl
    · exact h.out j hj

theorem Rep.put {c : Sparse A} {m : SMap A} (h : Rep N c m) {i : Nat} {a : A} (hi : m i = some a) (v : A) :
    Rep N ⟨c.map, c.mem.put i v⟩ (m.upd i (some v)) := by
  refine ⟨fun j hj => ?_, fun j b hj e => ?_, fun j hj => ?_⟩
  · simp only [SMap.upd]; split
    · rename_i hji; subst hji; rw [h.map j hj, hi]; rfl
    · exact h.map j hj
  · simp only [SMap.upd, Mem.put] at *; split at e
    · rename_i hji; simp [hji]; simpa using e
    · rename_i hji; simp [hji]; exact h.mem j b hj e
  · simp only [SMap.upd]
    have := h.lt hi
    rw [if_neg (by omega)]; exact h.out j hj

/-! ### Operations on one chunk -/

section
variable {c : Sparse A} {m : SMap A}

theorem forceRead_eq (h : Rep N c m) {i : Nat} {a : A} (e : m i = some a) : forceRead N i c = .ok a c := by
  have hi := h.lt e
  have hn : ¬ N ≤ i := by omega
  simp [forceRead, getMem, hn, memRead, hi, h.mem i a hi e]

theorem forceWrite_eq {i : Nat} (hi : i < N) (v : A) (c : Sparse A) : forceWrite N i v c = .ok () { c with mem := c.mem.put i v } := by
  have hn : ¬ N ≤ i := by omega
  simp [forceWrite, getMem, setMem, hn, memWrite, hi]

theorem mapSet_eq {i : Nat} (hi : i < N) (v : Bool) (c : Sparse A) :
    mapSet N i v c = .ok (c.map i) { c with map := fun j => if j = i then v else c.map j } := by
  simp only [mapSet, getMap, bmSet, hi, if_true, M.bind_run, Out.andThen_ok]
  rfl

theorem len_eq (h : Rep N c m) : len N c = .ok (m.keys N).length c := by
  simp [len, getMap, bmLen, keys_eq h]
theorem isEmpty_eq (h : Rep N c m) : isEmpty N c = .ok (decide ((m.keys N).length = 0)) c := by
  simp only [isEmpty, getMap, bmLen, M.bind_run, Out.andThen_ok, M.pure_run, keys_eq h]
theorem isFull_eq (h : Rep N c m) : isFull N c = .ok (decide ((m.keys N).length = N)) c := by
  simp [isFull, len_eq h]

theorem insert_ref (h : Rep N c m) (i : Nat) (v : A) : Ref (Rep N) (insert N i v c) (MSpec.insert N i v m) := by
  unfold insert MSpec.insert
  by_cases hi : i < N
  · have hn : ¬ N ≤ i := by omega
    rw [if_pos hi]
    cases hm : m i with
    | none =>
      have hb : c.map i = false := by rw [h.map i hi, hm]; rfl
      refine Ref.of_eq (s := ⟨fun j => if j = i then true else c.map j, c.mem.put i v⟩) ?_ rfl (h.insert hi v)
      simp [hn, mapSet_eq hi, hb, forceWrite_eq hi]
    | some a =>
      have hb : c.map i = true := by rw [h.map i hi, hm]; rfl
      refine Ref.of_eq (s := ⟨fun j => if j = i then true else c.map j, c.mem.put i v⟩) ?_ rfl (h.insert hi v)
      have hr : forceRead N i (⟨fun j => if j = i then true else c.map j, c.mem⟩ : Sparse A)
          = .ok a ⟨fun j => if j = i then true else c.map j, c.mem⟩ := by
        simp [forceRead, getMem, hn, memRead, hi, h.mem i a hi hm]
      simp only [M.bind_run, M.panicIf_run, ge_iff_le, hn, if_false, mapSet_eq hi, hb, Out.andThen_ok, M.ite_run, if_true, replaceAt, hr, forceWrite_eq hi, M.pure_run]
  · have hn : N ≤ i := by omega
    rw [if_neg hi]
    simp [hn]
    exact ⟨_, rfl, h⟩

theorem remove_ref (h : Rep N c m) (i : Nat) : Ref (Rep N) (remove N i c) (MSpec.remove N i m) := by
  unfold remove MSpec.remove
  by_cases hi : i < N
  · have hn : ¬ N ≤ i := by omega
    rw [if_pos hi]
    cases hm : m i with
    | none =>
      have hb : c.map i = false := by rw [h.map i hi, hm]; rfl
      refine Ref.of_eq (s := ⟨fun j => if j = i then false else c.map j, c.mem⟩) ?_ rfl (h.remove i)
      simp [hn, mapSet_eq hi, hb]
    | some a =>
      have hb : c.map i = true := by rw [h.map i hi, hm]; rfl
      refine Ref.of_eq (s := ⟨fun j => if j = i then false else c.map j, c.mem⟩) ?_ rfl (h.remove i)
      have hr : forceRead N i (⟨fun j => if j = i then false else c.map j, c.mem⟩ : Sparse A)
          = .ok a ⟨fun j => if j = i then false else c.map j, c.mem⟩ := by
        simp [forceRead, getMem, hn, memRead, hi, h.mem i a hi hm]
      simp only [M.bind_run, M.panicIf_run, ge_iff_le, hn, if_false, mapSet_eq hi, hb, Out.andThen_ok, M.ite_run, if_true, hr, M.pure_run]
  · have hn : N ≤ i := by omega
    rw [if_neg hi]
    simp [hn]
    exact ⟨_, rfl, h⟩

theorem firstIndex_eq (h : Rep N c m) : firstIndex N c = .ok (m.first N) c := by
  simp [firstIndex, getMap, bmFirst, SMap.first, ← List.head?_filter, keys_eq h]

theorem pop_ref (h : Rep N c m) : Ref (Rep N) (pop N c) (MSpec.pop N m) := by
  unfold pop MSpec.pop
  simp only [M.bind_run, firstIndex_eq h, Out.andThen_ok]
  cases hf : m.first N with
  | none => exact ⟨_, rfl, h⟩
  | some i =>
    have hi : i < N := by
      unfold SMap.first at hf
      exact (mem_keys.1 (List.mem_of_mem_head? hf)).1
    have := remove_ref h i
    unfold MSpec.remove at this
    rw [if_pos hi] at this
    exact this

theorem get_eq (h : Rep N c m) (i : Nat) : get N i c = .ok (m i) c := by
  unfold get
  by_cases hi : i < N
  · have hn : ¬ N ≤ i := by omega
    cases hm : m i with
    | none =>
      have hb : c.map i = false := by rw [h.map i hi, hm]; rfl
      simp [hn, getMap, bmGet, hi, hb]
    | some a =>
      have hb : c.map i = true := by rw [h.map i hi, hm]; rfl
      simp [hn, getMap, bmGet, hi, hb, getUnchecked, getMem, memRead, h.mem i a hi hm]
  · have hn : N ≤ i := by omega
    simp [hn, h.out i hn]

theorem replaceGet_ref (h : Rep N c m) (i : Nat) (v : A) : Ref (Rep N) (replaceGet N i v c) (MSpec.replaceGet N i v m) := by
  unfold replaceGet MSpec.replaceGet
  by_cases hi : i < N
  · have hn : ¬ N ≤ i := by omega
    rw [if_pos hi]
    cases hm : m i with
    | none =>
      have hb : c.map i = false := by rw [h.map i hi, hm]; rfl
      refine Ref.of_eq (s := c) ?_ rfl h
      simp [hn, getMap, bmGet, hi, hb]
    | some a =>
      have hb : c.map i = true := by rw [h.map i hi, hm]; rfl
      refine Ref.of_eq (s := ⟨c.map, c.mem.put i v⟩) ?_ rfl (h.put hm v)
      simp [hn, getMap, bmGet, hi, hb, replaceUnchecked, getUnchecked, getMem, memRead, h.mem i a hi hm, memWrite, setMem]
  · have hn : N ≤ i := by omega
    rw [if_neg hi]
    refine Ref.of_eq (s := c) ?_ rfl h
    simp [hn]

theorem index_ref (h : Rep N c m) (i : Nat) : Ref (Rep N) (index N i c) (MSpec.index i m) := by
  unfold index MSpec.index
  simp only [M.bind_run, get_eq h, Out.andThen_ok]
  cases m i
  · exact ⟨_, rfl, h⟩
  · exact ⟨_, rfl, h⟩

theorem setIndex_ref (h : Rep N c m) (i : Nat) (v : A) : Ref (Rep N) (setIndex N i v c) (MSpec.setIndex N i v m) := by
  have h1 := replaceGet_ref h i v
  unfold setIndex MSpec.setIndex
  unfold MSpec.replaceGet at h1
  simp only [M.bind_run, get_eq h, Out.andThen_ok]
  by_cases hi : i < N
  · rw [if_pos hi] at h1 ⊢
    cases hm : m i
    · exact ⟨_, rfl, h⟩
    · rw [hm] at h1; exact h1
  · rw [if_neg hi, h.out i (by omega)]
    exact ⟨_, rfl, h⟩

/-! ### Iteration -/

theorem indices_from (f pos : Nat) (hf : (idxFrom N c.map pos).length < f) :
    collectAll (indicesNext N) f pos c = .ok (idxFrom N c.map pos) c := by
  induction f generalizing pos with
  | zero => omega
  | succ f ih =>
    have hb := bmNext_eq (N := N) c.map pos
    rcases idxFrom_cons (N := N) c.map pos with h | ⟨i, h1, h2, h3, h4⟩
    · simp [collectAll, indicesNext, getMap, hb, h]
    · rw [h4] at hf ⊢
      simp [collectAll, indicesNext, getMap, hb, h4, ih (i + 1) (by simpa using hf)]

theorem indices_eq (h : Rep N c m) : indices N c = .ok (m.keys N) c := by
  unfold indices
  rw [indices_from _ _ (Nat.lt_succ_of_le (idxFrom_length _ _)), idxFrom_zero, keys_eq h]

theorem iterNext_eq (h : Rep N c m) (pos : Nat) :
    iterNext N pos c = .ok ((idxFrom N c.map pos).head?.bind (fun i => (m i).map (fun a => (a, i + 1)))) c := by
  have hb := bmNext_eq (N := N) c.map pos
  rcases idxFrom_cons (N := N) c.map pos with h0 | ⟨i, h1, h2, h3, h4⟩
  · simp [iterNext, indicesNext, getMap, hb, h0, readIf]
  · have hs : (m i).isSome = true := by rw [← h.map i h2, h3]
    obtain ⟨a, ha⟩ := Option.isSome_iff_exists.1 hs
    simp [iterNext, indicesNext, getMap, hb, h4, readIf, forceRead_eq h ha, ha]

theorem items_from (h : Rep N c m) (f pos : Nat) (hf : (idxFrom N c.map pos).length < f) :
    collectAll (iterNext N) f pos c = .ok ((idxFrom N c.map pos).filterMap m) c := by
  induction f generalizing pos with
  | zero => omega
  | succ f ih =>
    have hb := iterNext_eq h pos
    rcases idxFrom_cons (N := N) c.map pos with h0 | ⟨i, h1, h2, h3, h4⟩
    · simp [collectAll, hb, h0]
    · have hs : (m i).isSome = true := by rw [← h.map i h2, h3]
      obtain ⟨a, ha⟩ := Option.isSome_iff_exists.1 hs
      rw [h4] at hf ⊢
      simp [collectAll, hb, h4, ha, ih (i + 1) (by simpa using hf)]

theorem items_eq (h : Rep N c m) : items N c = .ok (m.vals N) c := by
  unfold items
  rw [items_from h _ _ (Nat.lt_succ_of_le (idxFrom_length _ _)), idxFrom_zero, keys_eq h, keys_filterMap]

theorem entries_from (h : Rep N c m) (f pos : Nat) (hf : (idxFrom N c.map pos).length < f) :
    collectAll (entriesNext N) f (pos, pos) c = .ok ((idxFrom N c.map pos).filterMap (fun i => (m i).map (fun a => (i, a)))) c := by
  induction f generalizing pos with
  | zero => omega
  | succ f ih =>
    have hb := iterNext_eq h pos
    have hb' := bmNext_eq (N := N) c.map pos
    rcases idxFrom_cons (N := N) c.map pos with h0 | ⟨i, h1, h2, h3, h4⟩
    · simp [collectAll, entriesNext, indicesNext, getMap, hb', h0]
    · have hs : (m i).isSome = true := by rw [← h.map i h2, h3]
      obtain ⟨a, ha⟩ := Option.isSome_iff_exists.1 hs
      rw [h4] at hf ⊢
      simp [collectAll, entriesNext, indicesNext, getMap, hb', hb, h4, ha, ih (i + 1) (by simpa using hf)]

theorem entries_eq (h : Rep N c m) : entries N c = .ok (m.pairs N) c := by
  unfold entries
  rw [entries_from h _ _ (Nat.lt_succ_of_le (idxFrom_length _ _)), idxFrom_zero, keys_eq h, keys_pairs]

theorem filter_clear (b : Bitmap) {i : Nat} {r : List Nat} (h : (List.range N).filter b = i :: r) :
    (List.range N).filter (fun j => if j = i then false else b j) = r := by
  have e : (List.range N).filter (fun j => if j = i then false else b j) = ((List.range N).filter b).filter (fun j => !decide (j = i)) := by
    rw [List.filter_filter]
    apply List.filter_congr
    intro j _
    by_cases hj : j = i <;> simp [hj]
  have hn : ((List.range N).filter b).Nodup := List.nodup_range.sublist List.filter_sublist
  rw [h, List.nodup_cons] at hn
  rw [e, h, List.filter_cons_of_neg (by simp)]
  rw [List.filter_eq_self]
  intro j hj
  have : j ≠ i := by rintro rfl; exact hn.1 hj
  simp [this]

theorem iterMut_from (c : Sparse A) (b : Bitmap) (f : Nat) (hf : ((List.range N).filter b).length < f) :
    collectAll (iterMutNext N) f b c = .ok ((List.range N).filter b) c := by
  induction f generalizing b with
  | zero => omega
  | succ f ih =>
    cases hl : (List.range N).filter b with
    | nil =>
      have hb : bmFirst N b = none := by unfold bmFirst; rw [← List.head?_filter, hl]; rfl
      simp [collectAll, iterMutNext, hb]
    | cons i r =>
      have hb : bmFirst N b = some i := by unfold bmFirst; rw [← List.head?_filter, hl]; rfl
      have hi : i < N := by
        have : i ∈ (List.range N).filter b := by rw [hl]; simp
        simp at this; exact this.1
      have hn : ¬ N ≤ i := by omega
      have hc := filter_clear b hl
      rw [hl] at hf
      have hx := ih (fun j => if j = i then false else b j) (by rw [hc]; simpa using hf)
      rw [hc] at hx
      simp only [collectAll, iterMutNext, hb, bmSet, M.bind_run, M.panicIf_run, ge_iff_le, hi, hn, if_false, if_true, Out.andThen_ok, hx, M.pure_run]

theorem iterMutSlots_eq (h : Rep N c m) : iterMutSlots N c = .ok (m.keys N) c := by
  simp only [iterMutSlots, getMap, M.bind_run, Out.andThen_ok]
  rw [iterMut_from c c.map _ (Nat.lt_succ_of_le (by simpa using List.length_filter_le c.map (List.range N))), keys_eq h]

theorem range'_cons {i n : Nat} : List.range' i (n + 1) = i :: List.range' (i + 1) n := rfl

theorem optionItems_from {E : Env} (h : Rep N c m) (hW : N < E.W) (n i f : Nat) (hi : i + n = N) (hf : n < f) :
    collectAll (optionIterNext N E) f i c = .ok ((List.range' i n).map m) c := by
  induction n generalizing i f with
  | zero =>
    obtain ⟨f, rfl⟩ : ∃ g, f = g + 1 := ⟨f - 1, by omega⟩
    have : ¬ i < N := by omega
    simp [collectAll, optionIterNext, this]
  | succ n ih =>
    obtain ⟨f, rfl⟩ : ∃ g, f = g + 1 := ⟨f - 1, by omega⟩
    have h1 : i < N := by omega
    have h2 : i + 1 < E.W := by omega
    simp [collectAll, optionIterNext, h1, get_eq h, uadd, h2, ih (i + 1) f (by omega) (by omega), range'_cons]

theorem optionItems_eq {E : Env} (h : Rep N c m) (hW : N < E.W) : optionItems N E c = .ok (m.slots N) c := by
  unfold optionItems SMap.slots
  rw [optionItems_from h hW N 0 _ (by omega) (by omega), List.range_eq_range']

theorem optionSlots_from {E : Env} (h : Rep N c m) (hW : N < E.W) (n i f : Nat) (hi : i + n = N) (hf : n < f) :
    collectAll (optionIterMutNext N E) f i c = .ok ((List.range' i n).map (fun j => (m j).map (fun _ => j))) c := by
  induction n generalizing i f with
  | zero =>
    obtain ⟨f, rfl⟩ : ∃ g, f = g + 1 := ⟨f - 1, by omega⟩
    have : ¬ i < N := by omega
    simp [collectAll, optionIterMutNext, this]
  | succ n ih =>
    obtain ⟨f, rfl⟩ : ∃ g, f = g + 1 := ⟨f - 1, by omega⟩
    have h1 : i < N := by omega
    have h2 : i + 1 < E.W := by omega
    have h3 : ¬ N ≤ i := by omega
    have hm := h.map i h1
    cases hx : m i <;> rw [hx] at hm <;>
      simp [collectAll, optionIterMutNext, h1, getMap, bmGet, hm, slotIf, h3, uadd, h2, ih (i + 1) f (by omega) (by omega), range'_cons, hx]

theorem optionSlots_eq {E : Env} (h : Rep N c m) (hW : N < E.W) :
    optionSlots N E c = .ok ((List.range N).map (fun j => (m j).map (fun _ => j))) c := by
  unfold optionSlots
  rw [optionSlots_from h hW N 0 _ (by omega) (by omega), List.range_eq_range']

theorem slots_keys (m : SMap A) : ((List.range N).map (fun j => (m j).map (fun _ => j))).filterMap id = m.keys N := by
  unfold SMap.keys
  rw [List.filterMap_map, ← List.filterMap_eq_filter]
  apply filterMap_congr'
  intro i _
  cases hx : m i <;> simp [Option.guard, hx]

/-! ### Writing through iterators -/

theorem assignSlots_ref (h : Rep N c m) (is : List Nat) (vs : List A) (hs : ∀ i ∈ is, (m i).isSome = true) :
    Ref (Rep N) (assignSlots N is vs c) (.ok () (SMap.overwrite is vs m)) := by
  induction is generalizing c m vs with
  | nil => cases vs <;> exact ⟨_, rfl, h⟩
  | cons i is ih =>
    cases vs with
    | nil => exact ⟨_, rfl, h⟩
    | cons v vs =>
      obtain ⟨a, ha⟩ := Option.isSome_iff_exists.1 (hs i (by simp))
      have hi := h.lt ha
      have := ih (h.put ha v) vs (by
        intro j hj
        simp only [SMap.upd]; split
        · rfl
        · exact hs j (by simp [hj]))
      simp only [assignSlots, SMap.overwrite, M.bind_run, getMem, memWrite, hi, if_true, setMem, M.pure_run, Out.andThen_ok]
      exact this

theorem mutate_ref (h : Rep N c m) (f : List A → List A) : Ref (Rep N) (mutate N f c) (MSpec.mutate N f m) := by
  unfold mutate MSpec.mutate
  simp only [M.bind_run, items_eq h, Out.andThen_ok, M.ite_run]
  split
  · simp only [iterMutSlots_eq h, Out.andThen_ok]
    exact assignSlots_ref h _ _ (fun i hi => (mem_keys.1 hi).2)
  · exact ⟨_, rfl, h⟩

theorem mutateOpt_ref {E : Env} (h : Rep N c m) (hW : N < E.W) (f : List A → List A) :
    Ref (Rep N) (mutateOpt N E f c) (MSpec.mutate N f m) := by
  unfold mutateOpt MSpec.mutate
  simp only [M.bind_run, items_eq h, Out.andThen_ok, M.ite_run]
  split
  · simp only [optionSlots_eq h hW, Out.andThen_ok, slots_keys]
    exact assignSlots_ref h _ _ (fun i hi => (mem_keys.1 hi).2)
  · exact ⟨_, rfl, h⟩
end
end Sparse
end Verif
