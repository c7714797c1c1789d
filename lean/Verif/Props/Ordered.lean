import Verif.Search
import Verif.Props.ChunkBulk
import Verif.Props.RingBulk
import Verif.Props.RingSlices
/-! # C92: how `insert_ordered` finds its place -/
namespace Verif
open Search

/-- C13, C33: the contract of `binary_search` that those theorems assume is met by both algorithms, for every lawful `Ord`. -/
theorem C92_search_contract {A : Type} (a : Algo) {cmp : A → A → Ordering} (hc : Lawful cmp) :
    Chunk.SearchContract (fun x y => cmp x y ≠ .gt) (a.answer (fun x y => some (cmp x y))) := by
  intro l v hs
  show match a.answer (fun x y => some (cmp x y)) l v with
    | none => False
    | some (.ok i) => ∃ x, l[i]? = some x ∧ cmp x v ≠ .gt ∧ cmp v x ≠ .gt
    | some (.error i) => i ≤ l.length ∧ (∀ x ∈ l.take i, cmp x v ≠ .gt) ∧ (∀ x ∈ l.drop i, cmp v x ≠ .gt)
  have ho := hc.ordered hs v
  obtain ⟨c, _, h⟩ := run_answer (σ := Unit) (s := ()) a (fun x y => some (cmp x y)) v (readList_eq (l := l))
  cases hx : a.answer (fun x y => some (cmp x y)) l v with
  | none => rw [hx] at h; obtain ⟨_, x, _, h⟩ := h; cases h
  | some r =>
    rw [hx] at h
    obtain ⟨_, hf⟩ := h
    cases r with
    | ok i =>
      obtain ⟨x, h1, h2⟩ := hf
      simp only [Option.some.injEq] at h2
      exact ⟨x, h1, by rw [h2]; decide, by rw [hc.swap, h2]; decide⟩
    | error i =>
      obtain ⟨h1, h2⟩ := hf
      obtain ⟨h2, h3⟩ := h2 ho
      simp only [Option.some.injEq] at h2 h3
      exact ⟨h1, fun x hx => by rw [h2 x hx]; decide, fun x hx => by rw [hc.swap, h3 x hx]; decide⟩

/-- The order of the numbers keeps the contract. -/
theorem Search.lawful_nat : Lawful (compare : Nat → Nat → Ordering) :=
  ⟨fun x y => (Nat.compare_swap x y).symm, fun x y z h1 h2 => by rw [Nat.compare_ne_gt] at *; omega⟩

/-- What the client sees of one call of `insert_ordered` on the items `l`, capacity `n`: `view` relates the container after the call to its items, the
number is how many comparisons were made. -/
inductive OrderedCall {σ A : Type} (n : Nat) (view : σ → List A → Prop) (cmp : A → A → Option Ordering) (v : A) (l : List A) : Out (σ × Nat) Unit → Prop
  | full {s : σ} : l.length = n → view s l → OrderedCall n view cmp v l (.panic (s, 0))
  | unwound {s : σ} {k : Nat} : l.length < n → view s l → Few k l.length → (∃ x ∈ l, cmp x v = none) → OrderedCall n view cmp v l (.panic (s, k))
  | inserted {s : σ} {k i : Nat} : l.length < n → i ≤ l.length → view s (l.take i ++ v :: l.drop i) → Few k l.length →
      (Ordered (fun x => cmp x v) l → (∀ x ∈ l.take i, cmp x v ≠ some .gt) ∧ ∀ x ∈ l.drop i, cmp x v ≠ some .lt) →
      OrderedCall n view cmp v l (.ok () (s, k))

/-- The same of the sorted case: with a lawful order, sorted items stay sorted, and the value was added once. -/
theorem OrderedCall.sorted {σ A : Type} {n : Nat} {view : σ → List A → Prop} {cmp : A → A → Ordering} {v : A} {l : List A} {x : Out (σ × Nat) Unit}
    (h : OrderedCall n view (fun x y => some (cmp x y)) v l x) (hc : Lawful cmp) (hl : l.length < n) (hs : l.Pairwise (fun x y => cmp x y ≠ .gt)) :
    ∃ s k l', x = .ok () (s, k) ∧ Few k l.length ∧ view s l' ∧ l'.Pairwise (fun x y => cmp x y ≠ .gt) ∧ l'.Perm (v :: l) := by
  cases h with
  | full h _ => omega
  | unwound _ _ _ h => obtain ⟨x, _, h⟩ := h; cases h
  | @inserted s k i _ hi hv hk ho =>
    obtain ⟨h1, h2⟩ := ho (hc.ordered hs v)
    refine ⟨s, k, _, rfl, hk, hv, ?_, ?_⟩
    · have := pairwise_insert (le := fun x y => cmp x y ≠ .gt) (i := i) (v := v) hs (fun x hx h => h1 x hx (by rw [h]))
        (fun x hx h => h2 x hx (by rw [hc.swap, h]; rfl))
      simpa using this
    · have := List.perm_middle (a := v) (l₁ := l.take i) (l₂ := l.drop i)
      simpa using this

/-- Where the answer of the search puts the value. -/
theorem Search.Found.place {A : Type} {f : A → Option Ordering} {l : List A} {r : Except Nat Nat} (h : Found f l r) {i : Nat} (hr : r = .ok i ∨ r = .error i) :
    i ≤ l.length ∧ (Ordered f l → (∀ x ∈ l.take i, f x ≠ some .gt) ∧ ∀ x ∈ l.drop i, f x ≠ some .lt) := by
  rcases hr with rfl | rfl
  · obtain ⟨x, hx, he⟩ := h
    have hlt := (List.getElem?_eq_some_iff.1 hx).1
    refine ⟨by omega, fun ho => ⟨?_, ?_⟩⟩
    · intro y hy h'
      obtain ⟨j, hj, rfl⟩ := List.mem_take_iff_getElem.1 hy
      have := ho.gt (List.getElem?_eq_getElem (by omega)) hx (by omega) h'
      rw [he] at this; cases this
    · intro y hy h'
      obtain ⟨j, hj, rfl⟩ := List.mem_drop_iff_getElem.1 hy
      have := ho.lt hx (List.getElem?_eq_getElem (by omega)) (by omega) h'
      rw [he] at this; cases this
  · exact ⟨h.1, fun ho => ⟨fun x hx => by rw [(h.2 ho).1 x hx]; decide, fun x hx => by rw [(h.2 ho).2 x hx]; decide⟩⟩

namespace Chunk
variable {A : Type} (E : Env) (N : Nat)
/-- src/sized_chunk/mod.rs:573-584 `insert_ordered`, with the search spelled out; the second component of the state counts comparisons. -/
def insertOrderedBy (a : Algo) (cmp : A → A → Option Ordering) (value : A) : M (Chunk A × Nat) Unit := do
  M.panicIf (← M.onFst (isFull N))
  let slice ← M.onFst (asSlice E N)
  match (← a.run (readList slice) (fun x => cmp x value) slice.length) with
  | .ok i => M.onFst (insert E N i value)
  | .error i => M.onFst (insert E N i value)
variable {E N} {c : Chunk A} {l : List A}

theorem insert_call (hN : 2 * N < E.W) (h : View E N c l) (hl : l.length < N) {i : Nat} (hi : i ≤ l.length) (v : A) :
    ∃ s, insert E N i v c = .ok () s ∧ View E N s (l.take i ++ v :: l.drop i) := by
  refine (Ref.view (insert_ref (E := E) (by omega) (h.rep hN) i v)).of_ok ?_
  simp [Spec.insert, if_pos (And.intro hl hi)]

/-- C92, for Chunk: whatever the order does (it may panic, or be inconsistent), and for both algorithms. -/
theorem C92_chunk_insert_ordered (hN : 2 * N < E.W) (h : View E N c l) (a : Algo) (cmp : A → A → Option Ordering) (v : A) :
    OrderedCall N (View E N) cmp v l (insertOrderedBy E N a cmp v (c, 0)) := by
  have hr := h.rep hN
  have hle : l.length ≤ N := by have := hr.right_eq; have := hr.le; omega
  unfold insertOrderedBy
  simp only [M.bind_run, M.onFst, isFull_eq hr]
  by_cases hl : l.length = N
  · simp only [hl, decide_true]
    exact .full hl h
  · simp only [hl, decide_false, M.panicIf]
    have ea := asSlice_eq (E := E) hr
    obtain ⟨k, hk, hx⟩ := run_answer (σ := Chunk A) (s := c) a cmp v (readList_eq (l := l))
    cases ha : a.answer cmp l v with
    | none =>
      rw [ha] at hx
      simp [ea, Out.mapState, hx.1]
      exact .unwound (Nat.lt_of_le_of_ne hle hl) h hk hx.2
    | some r =>
      rw [ha] at hx
      cases r with
      | ok i =>
        obtain ⟨hp, ho⟩ := hx.2.place (.inl rfl)
        obtain ⟨s, e, hs⟩ := insert_call hN h (by omega) hp v
        simp [ea, Out.mapState, hx.1, M.onFst, e]
        exact .inserted (Nat.lt_of_le_of_ne hle hl) hp hs hk ho
      | error i =>
        obtain ⟨hp, ho⟩ := hx.2.place (.inr rfl)
        obtain ⟨s, e, hs⟩ := insert_call hN h (by omega) hp v
        simp [ea, Out.mapState, hx.1, M.onFst, e]
        exact .inserted (Nat.lt_of_le_of_ne hle hl) hp hs hk ho

/-- C92, for a sorted chunk and a lawful order. -/
theorem C92_chunk_sorted (hN : 2 * N < E.W) (h : View E N c l) (hl : l.length < N) (a : Algo) {cmp : A → A → Ordering} (hc : Lawful cmp)
    (hs : l.Pairwise (fun x y => cmp x y ≠ .gt)) (v : A) :
    ∃ s k l', insertOrderedBy E N a (fun x y => some (cmp x y)) v (c, 0) = .ok () (s, k) ∧ Few k l.length ∧ View E N s l' ∧
      l'.Pairwise (fun x y => cmp x y ≠ .gt) ∧ l'.Perm (v :: l) :=
  (C92_chunk_insert_ordered hN h a _ v).sorted hc hl hs

/-- The call with the search spelled out is the call that C01, C13, C17 and C24 speak of, with the answer of that search. -/
theorem C92_chunk_same_call (hN : 2 * N < E.W) (h : View E N c l) (a : Algo) (cmp : A → A → Option Ordering) (v : A) :
    (insertOrderedBy E N a cmp v (c, 0)).mapState Prod.fst = insertOrdered E N (a.answer cmp) v c := by
  have hr := h.rep hN
  unfold insertOrderedBy insertOrdered
  simp only [M.bind_run, M.onFst, isFull_eq hr]
  by_cases hl : l.length = N
  · simp [hl, M.panicIf, M.panic, Out.mapState]
  · simp only [hl, decide_false, M.panicIf]
    have ea := asSlice_eq (E := E) hr
    obtain ⟨k, hk, hx⟩ := run_answer (σ := Chunk A) (s := c) a cmp v (readList_eq (l := l))
    cases ha : a.answer cmp l v with
    | none =>
      rw [ha] at hx
      simp [ea, Out.mapState, hx.1, M.panic, ha]
    | some r =>
      rw [ha] at hx
      cases r with
      | ok i =>
        simp [ea, Out.mapState, hx.1, M.onFst, ha]
        cases insert E N i v c <;> rfl
      | error i =>
        simp [ea, Out.mapState, hx.1, M.onFst, ha]
        cases insert E N i v c <;> rfl

/-- C92 is not vacuous: 15 is looked for in `[10, 20]` with two comparisons, by one algorithm, and by the other; and a comparison that panics. -/
example : (∃ s, insertOrderedBy dbg64 3 .halving (fun x y => some (compare x y)) 15 (edge, 0) = .ok () (s, 2) ∧ asSlice dbg64 3 s = .ok [10, 15, 20] s) ∧
    (∃ s, insertOrderedBy dbg64 3 .bisect (fun x y => some (compare x y)) 15 (edge, 0) = .ok () (s, 2) ∧ asSlice dbg64 3 s = .ok [10, 15, 20] s) ∧
    (∃ s, insertOrderedBy dbg64 3 .bisect (fun x y => if x = 10 then none else some (compare x y)) 15 (edge, 0) = .panic (s, 2) ∧ asSlice dbg64 3 s = .ok [10, 20] s) ∧
    Lawful (compare : Nat → Nat → Ordering) ∧ Few 2 2 ∧ ¬ Few 3 2 :=
  ⟨⟨_, rfl, rfl⟩, ⟨_, rfl, rfl⟩, ⟨_, rfl, rfl⟩, lawful_nat, .inr (by decide), by rintro (h | h) <;> revert h <;> decide⟩
end Chunk
namespace Ring
open Chunk (dbg64)
variable {A : Type} (E : Env) (N : Nat)
/-- src/ring_buffer/mod.rs:626-637 `insert_ordered`, with the search through `Index` of the slice (slice.rs:160-169) spelled out; the second component of
the state counts comparisons. -/
def insertOrderedBy (a : Algo) (cmp : A → A → Option Ordering) (value : A) : M (Ring A × Nat) Unit := do
  M.panicIf (← M.onFst (isFull N))
  let s ← M.onFst (slice E .unbounded .unbounded)
  let n ← M.onFst (sliceLen E s)
  match (← a.run (sliceIndex E N s) (fun x => cmp x value) n) with
  | .ok i => M.onFst (insert E N i value)
  | .error i => M.onFst (insert E N i value)
variable {E N} {c : Ring A} {l : List A}

theorem insert_call (hW : 2 * N < E.W) (h : View E N c l) (hl : l.length < N) {i : Nat} (hi : i ≤ l.length) (v : A) :
    ∃ s, insert E N i v c = .ok () s ∧ View E N s (l.take i ++ v :: l.drop i) := by
  refine (Ref.view hW (insert_ref (E := E) hW (h.rep hW) i v)).of_ok ?_
  simp [Spec.insert, if_pos (And.intro hl hi)]

/-- Reading through the slice of the whole buffer. -/
theorem sliceIndex_all (hW : 2 * N < E.W) (h : View E N c l) (i : Nat) (x : A) (hx : l[i]? = some x) : sliceIndex E N ⟨0, l.length⟩ i c = .ok x c := by
  have hr := h.rep hW
  have hlt := (List.getElem?_eq_some_iff.1 hx).1
  have := hr.le
  have e : uadd (σ := Ring A) E 0 i c = .ok i c := by simp [uadd]; omega
  simp only [sliceIndex, M.bind_run, e, Out.andThen_ok]
  have : Sat (index E N i c) (fun r s => r = x ∧ s = c) (fun _ => False) False := by
    have hl := hr.len
    have ho := hr.org
    unfold index
    vc
    exact sat_forceReadL ho (by omega) (hr.cell' hx).2 ⟨rfl, rfl⟩
  cases hx : index E N i c <;> rw [hx] at this <;> simp [Sat] at this
  rw [this.1, this.2]

/-- C92, for RingBuffer: whatever the order does (it may panic, or be inconsistent), and for both algorithms. -/
theorem C92_ring_insert_ordered (hW : 2 * N < E.W) (h : View E N c l) (a : Algo) (cmp : A → A → Option Ordering) (v : A) :
    OrderedCall N (View E N) cmp v l (insertOrderedBy E N a cmp v (c, 0)) := by
  have hr := h.rep hW
  have hle := hr.le
  have hlen := hr.len
  unfold insertOrderedBy
  simp only [M.bind_run, M.onFst, isFull_eq hr]
  by_cases hl : l.length = N
  · simp only [hl, decide_true]
    exact .full hl h
  · have es : slice (A := A) E .unbounded .unbounded c = .ok ⟨0, l.length⟩ c := by
      simp [slice, parseStart, parseStop, getLen_eq hr, M.panicIf]
    have en : sliceLen (A := A) E ⟨0, l.length⟩ c = .ok l.length c := by simp [sliceLen, usub]
    simp only [hl, decide_false, M.panicIf]
    obtain ⟨k, hk, hx⟩ := run_answer (σ := Ring A) (s := c) (l := l) a cmp v (sliceIndex_all hW h)
    cases ha : a.answer cmp l v with
    | none =>
      rw [ha] at hx
      simp [es, en, Out.mapState, hx.1]
      exact .unwound (by omega) h hk hx.2
    | some r =>
      rw [ha] at hx
      cases r with
      | ok i =>
        obtain ⟨hp, ho⟩ := hx.2.place (.inl rfl)
        obtain ⟨s, e, hs⟩ := insert_call hW h (by omega) hp v
        simp [es, en, Out.mapState, hx.1, M.onFst, e]
        exact .inserted (Nat.lt_of_le_of_ne hle hl) hp hs hk ho
      | error i =>
        obtain ⟨hp, ho⟩ := hx.2.place (.inr rfl)
        obtain ⟨s, e, hs⟩ := insert_call hW h (by omega) hp v
        simp [es, en, Out.mapState, hx.1, M.onFst, e]
        exact .inserted (Nat.lt_of_le_of_ne hle hl) hp hs hk ho

/-- C92, for a sorted buffer and a lawful order. -/
theorem C92_ring_sorted (hW : 2 * N < E.W) (h : View E N c l) (hl : l.length < N) (a : Algo) {cmp : A → A → Ordering} (hc : Lawful cmp)
    (hs : l.Pairwise (fun x y => cmp x y ≠ .gt)) (v : A) :
    ∃ s k l', insertOrderedBy E N a (fun x y => some (cmp x y)) v (c, 0) = .ok () (s, k) ∧ Few k l.length ∧ View E N s l' ∧
      l'.Pairwise (fun x y => cmp x y ≠ .gt) ∧ l'.Perm (v :: l) :=
  (C92_ring_insert_ordered hW h a _ v).sorted hc hl hs

/-- The call with the search spelled out is the call that C24 and C33 speak of, with the answer of that search. -/
theorem C92_ring_same_call (hW : 2 * N < E.W) (h : View E N c l) (a : Algo) (cmp : A → A → Option Ordering) (v : A) :
    (insertOrderedBy E N a cmp v (c, 0)).mapState Prod.fst = insertOrdered E N (a.answer cmp) v c := by
  have hr := h.rep hW
  unfold insertOrderedBy insertOrdered
  simp only [M.bind_run, M.onFst, isFull_eq hr]
  by_cases hl : l.length = N
  · simp [hl, M.panicIf, M.panic, Out.mapState]
  · simp only [hl, decide_false, M.panicIf]
    have es : slice (A := A) E .unbounded .unbounded c = .ok ⟨0, l.length⟩ c := by
      simp [slice, parseStart, parseStop, getLen_eq hr, M.panicIf]
    have en : sliceLen (A := A) E ⟨0, l.length⟩ c = .ok l.length c := by simp [sliceLen, usub]
    have ei := items_eq hW hr
    obtain ⟨k, hk, hx⟩ := run_answer (σ := Ring A) (s := c) (l := l) a cmp v (sliceIndex_all hW h)
    cases ha : a.answer cmp l v with
    | none =>
      rw [ha] at hx
      simp [es, en, ei, Out.mapState, hx.1, M.panic, ha]
    | some r =>
      rw [ha] at hx
      cases r with
      | ok i =>
        simp [es, en, ei, Out.mapState, hx.1, M.onFst, ha]
        cases insert E N i v c <;> rfl
      | error i =>
        simp [es, en, ei, Out.mapState, hx.1, M.onFst, ha]
        cases insert E N i v c <;> rfl

/-- C92 is not vacuous: 15 is put between 10 and 20 of the wrapped buffer `seam` with two comparisons. -/
example : (∃ s, insertOrderedBy dbg64 3 .halving (fun x y => some (compare x y)) 15 (seam, 0) = .ok () (s, 2) ∧ items dbg64 3 s = .ok [10, 15, 20] s) ∧
    (∃ s, insertOrderedBy dbg64 3 .bisect (fun x y => some (compare x y)) 15 (seam, 0) = .ok () (s, 2) ∧ items dbg64 3 s = .ok [10, 15, 20] s) ∧
    (∃ s, insertOrderedBy dbg64 3 .bisect (fun x y => if x = 20 then none else some (compare x y)) 15 (seam, 0) = .panic (s, 1) ∧ items dbg64 3 s = .ok [10, 20] s) :=
  ⟨⟨_, rfl, rfl⟩, ⟨_, rfl, rfl⟩, ⟨_, rfl, rfl⟩⟩
end Ring
end Verif
