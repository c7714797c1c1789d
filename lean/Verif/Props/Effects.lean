import Verif.Effects
import Verif.Mixed
import Verif.Props.RingIter
import Verif.Props.ChunkHistory
import Verif.Props.SparseOps
import Verif.Props.InlineOps
/-
C95: which methods of the elements are called by `==`, `partial_cmp`, `cmp`, `hash` and `{:?}` of a container, when those methods can have effects of
their own and panic.
-/
namespace Verif
namespace Effects
variable {A B τ : Type} {E : Env}

/-- What can be compared: a container, a slice of a ring buffer, a plain slice `&[A]`. -/
inductive Operand (A : Type) where
  | chunk (N : Nat)
  | ring (N : Nat)
  /-- `Slice` or `SliceMut`: the items of the buffer from the first index up to the second. -/
  | part (N a b : Nat)
  | inline (L : Layout A)
  | slice

/-- Where it lives. -/
@[reducible] def Operand.Store : Operand A → Type
  | .chunk _ => Chunk A
  | .ring _ => Ring A
  | .part .. => Ring A
  | .inline _ => Inline A
  | .slice => List A

variable [DecidableEq A] [DecidableEq B]

/-- How its `len()` and `iter()` work. Chunk: src/sized_chunk/mod.rs:861-863 (`iter` of the slice). RingBuffer: src/ring_buffer/mod.rs:327-334 and
iter.rs:22-29. Slices: src/ring_buffer/slice.rs:61-68, 329-336. InlineArray: `Deref` (src/inline_array/mod.rs:444-446) and `iter` of the slice. -/
def side (E : Env) : ∀ s : Operand A, Side s.Store A
  | .chunk N => Side.ofSlice (Chunk.asSlice E N)
  | .ring N => ⟨IdxIter, Ring.getLen, Ring.iter E N, Ring.iterNext E N, (·.remaining)⟩
  | .part N a b => ⟨IdxIter, Ring.sliceLen E ⟨a, b⟩, Ring.sliceIter E N ⟨a, b⟩, Ring.iterNext E N, (·.remaining)⟩
  | .inline L => Side.ofSlice (Inline.items E L)
  | .slice => Side.ofSlice (fun l => .ok l l)

/-- The operand shows these items. (Of an `InlineArray`, which is raw memory, it also has to be one that a program can make.) -/
def Shows (E : Env) : ∀ s : Operand A, s.Store → List A → Prop
  | .chunk N, c, l => Chunk.View E N c l
  | .ring N, c, l => 2 * N < E.W ∧ Ring.View E N c l
  | .part N a b, c, l => 2 * N < E.W ∧ ∃ k, Ring.View E N c k ∧ a ≤ b ∧ b ≤ k.length ∧ l = (k.take b).drop a
  | .inline L, c, l => L.Valid E ∧ (∃ dp cl, Inline.Reachable E L dp cl c) ∧ Inline.View E L c l
  | .slice, c, l => c = l

theorem ring_yields {N : Nat} (hW : 2 * N < E.W) {ι : M (Ring A) IdxIter} {len : M (Ring A) Nat} {c : Ring A} {o : Nat} (ho : o < N) (a : Nat)
    (g : List A) (ha : a + g.length ≤ N) (hc : ∀ j, j < g.length → Ring.lm N o c.mem (a + j) = g[j]?) (right : Nat) :
    Yields ⟨IdxIter, len, ι, Ring.iterNext E N, (·.remaining)⟩ c ⟨g.length, Ring.ridx N o a, right⟩ g := by
  induction g generalizing a with
  | nil => simp [Yields, Ring.iterNext]
  | cons x g ih =>
    have hx : Ring.lm N o c.mem a = some x := by simpa using hc 0 (by simp)
    refine ⟨⟨g.length, Ring.ridx N o (a + 1), right⟩, ?_, ih (a + 1) (by simp at ha; omega) fun j hj => ?_⟩
    · show Ring.iterNext E N ⟨g.length + 1, Ring.ridx N o a, right⟩ c = _
      rw [Ring.iterNext_eq hW ho (by simpa [Nat.add_assoc] using ha), hx]
    · have := hc (j + 1) (by simp; omega)
      rw [show a + 1 + j = a + (j + 1) by omega, this]; simp

theorem Shows.gives : ∀ {s : Operand A} {c : s.Store} {l : List A}, Shows E s c l → Gives (side E s) c l
  | .chunk N, c, l, h => ofSlice_gives h
  | .ring N, c, l, h => by
    obtain ⟨hW, h⟩ := h
    have hr := h.rep hW
    refine ⟨Ring.getLen_eq hr, Ring.idxOf N c.origin 0 l.length, Ring.iter_ok hW hr, Nat.le_refl _, ?_⟩
    exact ring_yields hW hr.org 0 l (by simpa using hr.le) (fun j hj => by rw [hr.cell _ (by omega)]; simp) _
  | .part N a b, c, l, h => by
    obtain ⟨hW, k, h, h1, h2, rfl⟩ := h
    have hr := h.rep hW
    have hle := hr.le
    have hlen : ((k.take b).drop a).length = b - a := by simp; omega
    have e1 : Ring.sliceIter E N ⟨a, b⟩ c = .ok (Ring.idxOf N c.origin a (b - a)) c := by
      have := Ring.sat_sliceIter (E := E) (N := N) (c := c) (P := fun _ => False) (B := False) (a := a) (b := b)
        (Q := fun r s' => r = Ring.idxOf N c.origin a (b - a) ∧ s' = c) hW hr.org h1 (by omega)
        ⟨by unfold Ring.idxOf; rw [show a + (b - a) = b by omega], rfl⟩
      cases hx : Ring.sliceIter E N ⟨a, b⟩ c <;> rw [hx] at this <;> simp [Sat] at this
      rw [this.1, this.2]
    have e2 : Ring.sliceLen E ⟨a, b⟩ c = .ok (b - a) c := by
      have := Ring.sat_sliceLen (E := E) (c := c) (P := fun _ => False) (B := False) (a := a) (b := b)
        (Q := fun r s' => r = b - a ∧ s' = c) h1 ⟨rfl, rfl⟩
      cases hx : Ring.sliceLen E ⟨a, b⟩ c <;> rw [hx] at this <;> simp [Sat] at this
      rw [this.1, this.2]
    refine ⟨by rw [hlen]; exact e2, Ring.idxOf N c.origin a (b - a), e1, by rw [hlen]; exact Nat.le_refl _, ?_⟩
    have := ring_yields (ι := Ring.sliceIter E N ⟨a, b⟩) (len := Ring.sliceLen E ⟨a, b⟩) hW hr.org a ((k.take b).drop a) (by omega) (fun j hj => by
      rw [hr.cell _ (by omega), List.getElem?_drop, List.getElem?_take, if_pos (by omega)]) (Ring.ridx N c.origin (a + (b - a)))
    rw [hlen] at this
    exact this
  | .inline L, c, l, h => ofSlice_gives h.2.2
  | .slice, c, l, h => by cases h; exact ofSlice_gives rfl

/-- C95. `==` of any two of them: no call if the lengths differ; otherwise the elements' `==` is called on the pairs in order, up to the first that is not
equal. Whatever these calls do outside (or if one panics), neither operand changes. -/
theorem C95_eq {s : Operand A} {t : Operand B} {c : s.Store} {d : t.Store} {l : List A} {k : List B} (h : Shows E s c l) (h' : Shows E t d k)
    (f : A → B → M τ Bool) (u : τ) :
    eq (side E s) (side E t) f ((c, d), u) = (eqCalls f l k u).mapState (fun u => ((c, d), u)) := eq_eq f h.gives h'.gives u
/-- C95. `partial_cmp`: the elements' `partial_cmp` is called on the pairs in order, up to the first that does not answer `Some(Equal)`. -/
theorem C95_partial_cmp {s t : Operand A} {c : s.Store} {d : t.Store} {l k : List A} (h : Shows E s c l) (h' : Shows E t d k)
    (f : A → A → M τ (Option Ordering)) (u : τ) :
    partialCmp (side E s) (side E t) f ((c, d), u) = (partialCmpCalls f l k u).mapState (fun u => ((c, d), u)) := partialCmp_eq f h.gives h'.gives u
/-- C95. `cmp`: the elements' `cmp` is called on the pairs in order, up to the first that does not answer `Equal`. -/
theorem C95_cmp {s t : Operand A} {c : s.Store} {d : t.Store} {l k : List A} (h : Shows E s c l) (h' : Shows E t d k)
    (f : A → A → M τ Ordering) (u : τ) :
    cmp (side E s) (side E t) f ((c, d), u) = (cmpCalls f l k u).mapState (fun u => ((c, d), u)) := cmp_eq f h.gives h'.gives u
/-- C95. `hash`: every element is hashed, once, in order. -/
theorem C95_hash {s : Operand A} {c : s.Store} {l : List A} (h : Shows E s c l) (f : A → M τ Unit) (u : τ) :
    hash (side E s) f (c, u) = (forCalls f l u).mapState (fun u => (c, u)) := hash_eq f h.gives u
/-- C95. `{:?}`: the name, the opening, every element once in order, the closing, up to the first error of the writer, which is returned. -/
theorem C95_debug {s : Operand A} {c : s.Store} {l : List A} (h : Shows E s c l) (name : String) (p : Printer τ A) (u : τ) :
    fmt name (side E s) p (c, u) = (fmtCalls name p l u).mapState (fun u => (c, u)) := by
  obtain ⟨-, i, h2, h3, h4⟩ := h.gives
  exact fmt_eq name p h2 h3 h4 u

/-! ### SparseChunk -/

/-- `Option<&A> == Option<&A>` (standard library), the elements' `==` being `f`. -/
def optEqM (f : A → A → M τ Bool) : Option A → Option A → M τ Bool
  | none, none => pure true
  | some a, some b => f a b
  | _, _ => pure false
/-- src/sparse_chunk/mod.rs:375-385 `eq`: `Sparse.eqSparse` with effects; the state is `((self, other), the user's)`. -/
def eqSparse (N : Nat) (f : A → A → M τ Bool) : M ((Sparse A × Sparse A) × τ) Bool := do
  if Sparse.bmEq N (← M.onFst (M.onFst Sparse.getMap)) (← M.onFst (M.onSnd Sparse.getMap)) = true then
    Sparse.allBits N (← M.onFst (M.onFst Sparse.getMap)) (fun i => do
      let x ← M.onFst (M.onFst (Sparse.get N i))
      let y ← M.onFst (M.onSnd (Sparse.get N i))
      M.onSnd (optEqM f x y)) (N + 1) 0
  else return false
/-- src/sparse_chunk/mod.rs:394-404 and 413-423 `eq` with a `BTreeMap` or a `HashMap`: `Sparse.eqMap` with effects. -/
def eqMap (N : Nat) (f : A → A → M τ Bool) (other : List (Nat × A)) : M (Sparse A × τ) Bool := do
  if (← M.onFst (Sparse.len N)) = other.length then
    Sparse.allBits N (← M.onFst Sparse.getMap) (fun i => do
      let x ← M.onFst (Sparse.get N i)
      M.onSnd (optEqM f x (other.lookup i))) (N + 1) 0
  else return false
/-- Compare what the two maps hold at each of these indices, until there is a difference. -/
def keyCalls (f : A → A → M τ Bool) (m m' : Nat → Option A) : List Nat → M τ Bool
  | [] => pure true
  | i :: r => do if (← optEqM f (m i) (m' i)) = true then keyCalls f m m' r else return false

theorem eachTest_eq {σ : Type} {c : σ} {f : A → A → M τ Bool} {m m' : Nat → Option A} {test : Nat → M (σ × τ) Bool} (keys : List Nat)
    (h : ∀ i u, test i (c, u) = (optEqM f (m i) (m' i) u).mapState (fun u => (c, u))) (u : τ) :
    Sparse.eachTest test keys (c, u) = (keyCalls f m m' keys u).mapState (fun u => (c, u)) := by
  induction keys generalizing u with
  | nil => rfl
  | cons i r ih =>
    simp only [Sparse.eachTest, keyCalls, M.bind_run, h]
    cases optEqM f (m i) (m' i) u with
    | ok b u => cases b <;> simp [ih]
    | _ => rfl

/-- C95, SparseChunk: no call unless the same indices are occupied; then the elements' `==` is called on the two elements at each occupied index,
ascending, up to the first that is not equal. -/
theorem C95_sparse_eq {N : Nat} {c d : Sparse A} {m m' : SMap A} (h : Sparse.View N c m) (h' : Sparse.View N d m') (f : A → A → M τ Bool) (u : τ) :
    eqSparse N f ((c, d), u) =
      (if m.keys N = m'.keys N then keyCalls f m m' (m.keys N) u else .ok false u).mapState (fun u => ((c, d), u)) := by
  have hr := h.rep
  have hr' := h'.rep
  have hb : Sparse.bmEq N c.map d.map = true ↔ m.keys N = m'.keys N := by
    simp only [Sparse.bmEq, ← Sparse.keys_eq hr, ← Sparse.keys_eq hr', List.all_eq_true, List.mem_range, beq_iff_eq]
    constructor
    · intro hh
      exact List.filter_congr fun i hi => hh i (List.mem_range.1 hi)
    · intro hh i hi
      have h1 : ∀ j, j ∈ (List.range N).filter c.map ↔ j ∈ (List.range N).filter d.map := fun j => by rw [hh]
      have h2 := h1 i
      simp only [List.mem_filter, List.mem_range, hi, true_and] at h2
      exact Bool.eq_iff_iff.2 h2
  simp only [eqSparse, M.bind_run, M.onFst_run, M.onSnd_run, Sparse.getMap, Out.mapState_ok, Out.andThen_ok, M.ite_run]
  by_cases hk : m.keys N = m'.keys N
  · rw [if_pos (hb.2 hk), if_pos hk]
    rw [Sparse.allBits_eq, Sparse.keys_eq hr]
    exact eachTest_eq _ (fun i u => by
      simp only [M.bind_run, M.onFst_run, M.onSnd_run, Sparse.get_eq hr, Sparse.get_eq hr', Out.mapState_ok, Out.andThen_ok]) u
  · rw [if_neg (fun e => hk (hb.1 e)), if_neg hk]
    rfl
/-- C95, SparseChunk and a standard map (given by its entries). -/
theorem C95_sparse_eq_map {N : Nat} {c : Sparse A} {m : SMap A} (h : Sparse.View N c m) (f : A → A → M τ Bool) (other : List (Nat × A)) (u : τ) :
    eqMap N f other (c, u) =
      (if (m.keys N).length = other.length then keyCalls f m (fun i => other.lookup i) (m.keys N) u else .ok false u).mapState (fun u => (c, u)) := by
  have hr := h.rep
  simp only [eqMap, M.bind_run, M.onFst_run, Sparse.len_eq hr, Sparse.getMap, Out.mapState_ok, Out.andThen_ok, M.ite_run]
  by_cases hk : (m.keys N).length = other.length
  · simp only [if_pos hk]
    rw [Sparse.allBits_eq, Sparse.keys_eq hr]
    exact eachTest_eq _ (fun i u => by
      simp only [M.bind_run, M.onFst_run, M.onSnd_run, Sparse.get_eq hr, Out.mapState_ok, Out.andThen_ok]) u
  · simp only [if_neg hk]
    rfl

/-- `entries()` of a SparseChunk (src/sparse_chunk/mod.rs:270-272). -/
def entriesSide (A : Type) (N : Nat) : Side (Sparse A) (Nat × A) := ⟨Nat × Nat, Sparse.len N, fun c => .ok (0, 0) c, Sparse.entriesNext N, fun _ => N⟩

theorem entries_yields {N : Nat} {c : Sparse A} {m : SMap A} (h : Sparse.Rep N c m) (n pos : Nat) (hn : (Sparse.idxFrom N c.map pos).length = n) :
    Yields (entriesSide A N) c (pos, pos) ((Sparse.idxFrom N c.map pos).filterMap (fun i => (m i).map (fun a => (i, a)))) := by
  induction n generalizing pos with
  | zero =>
    have hb' := Sparse.bmNext_eq (N := N) c.map pos
    rw [List.length_eq_zero_iff] at hn
    rw [hn] at hb' ⊢
    show Sparse.entriesNext N (pos, pos) c = _
    simp [Sparse.entriesNext, Sparse.indicesNext, Sparse.getMap, hb']
    rfl
  | succ n ih =>
    have hb := Sparse.iterNext_eq h pos
    have hb' := Sparse.bmNext_eq (N := N) c.map pos
    rcases Sparse.idxFrom_cons (N := N) c.map pos with h0 | ⟨i, h1, h2, h3, h4⟩
    · rw [h0] at hn; simp at hn
    · have hs : (m i).isSome = true := by rw [← h.map i h2, h3]
      obtain ⟨a, ha⟩ := Option.isSome_iff_exists.1 hs
      rw [h4] at hn
      have := ih (i + 1) (by simpa using hn)
      rw [h4] at hb hb' ⊢
      simp only [List.filterMap_cons, ha, Option.map_some]
      refine ⟨(i + 1, i + 1), ?_, this⟩
      show Sparse.entriesNext N (pos, pos) c = _
      simp [Sparse.entriesNext, Sparse.indicesNext, Sparse.getMap, hb', hb, ha]
      rfl

/-- C95, `{:?}` of a SparseChunk: the name, then a map with its entries in ascending order, up to the first error. -/
theorem C95_sparse_debug {N : Nat} {c : Sparse A} {m : SMap A} (h : Sparse.View N c m) (name : String) (p : Printer τ (Nat × A)) (u : τ) :
    fmt name (entriesSide A N) p (c, u) = (fmtCalls name p (m.pairs N) u).mapState (fun u => (c, u)) := by
  have hr := h.rep
  have hy := entries_yields hr _ 0 rfl
  rw [Sparse.idxFrom_zero, Sparse.keys_eq hr, Sparse.keys_pairs] at hy
  refine fmt_eq name p (i := (0, 0)) rfl ?_ hy u
  show (m.pairs N).length ≤ N
  rw [← Sparse.keys_pairs]
  refine Nat.le_trans (List.length_filterMap_le _ _) ?_
  rw [← Sparse.keys_eq hr]
  exact Nat.le_trans (List.length_filter_le _ _) (by simp)

/-! ### In terms of the calls made -/

/-- C95. If the elements' `==` records its calls (and answers as `g` says, `none` being a panic): operands of different lengths are unequal without any
call; otherwise the calls are on the first pairs, in order; `true` if all pairs were compared and found equal, `false` at the first unequal one, and a
panic exactly if a call panics, the operands being unchanged in all cases. -/
theorem C95_eq_calls {s : Operand A} {t : Operand B} {c : s.Store} {d : t.Store} {l : List A} {k : List B} (h : Shows E s c l) (h' : Shows E t d k)
    (g : A → B → Option Bool) :
    (l.length ≠ k.length → eq (side E s) (side E t) (recorded g) ((c, d), []) = .ok false ((c, d), [])) ∧
    (l.length = k.length → Sat (eq (side E s) (side E t) (recorded g) ((c, d), []))
      (fun r x => x.1 = (c, d) ∧ if r = true then x.2 = l.zip k ∧ ∀ p ∈ x.2, g p.1 p.2 = some true else StopsAt g true l k x.2 (some false))
      (fun x => x.1 = (c, d) ∧ StopsAt g true l k x.2 none) False) := by
  rw [C95_eq h h']
  constructor
  · intro hl; simp [eqCalls, hl]
  · intro hl
    simp only [eqCalls, hl, if_true]
    have := eqPairs_recorded g hl []
    refine Sat.mapState (this.imp ?_ ?_ id)
    · rintro r tr ⟨calls, rfl, h⟩; exact ⟨rfl, by simpa using h⟩
    · rintro tr ⟨calls, rfl, h⟩; exact ⟨rfl, by simpa using h⟩
/-- C95. The same for `cmp`: if all pairs are equal the lengths decide, otherwise the first pair that is not. -/
theorem C95_cmp_calls {s t : Operand A} {c : s.Store} {d : t.Store} {l k : List A} (h : Shows E s c l) (h' : Shows E t d k)
    (g : A → A → Option Ordering) :
    Sat (cmp (side E s) (side E t) (recorded g) ((c, d), []))
      (fun r x => x.1 = (c, d) ∧ ((x.2 = l.zip k ∧ (∀ p ∈ x.2, g p.1 p.2 = some .eq) ∧ r = compare l.length k.length) ∨
        (r ≠ .eq ∧ StopsAt g .eq l k x.2 (some r))))
      (fun x => x.1 = (c, d) ∧ StopsAt g .eq l k x.2 none) False := by
  rw [C95_cmp h h']
  refine Sat.mapState ((cmpCalls_recorded g l k []).imp ?_ ?_ id)
  · rintro r tr ⟨calls, rfl, h⟩; exact ⟨rfl, by simpa using h⟩
  · rintro tr ⟨calls, rfl, h⟩; exact ⟨rfl, by simpa using h⟩
/-- C95. The same for `partial_cmp`. -/
theorem C95_partial_cmp_calls {s t : Operand A} {c : s.Store} {d : t.Store} {l k : List A} (h : Shows E s c l) (h' : Shows E t d k)
    (g : A → A → Option (Option Ordering)) :
    Sat (partialCmp (side E s) (side E t) (recorded g) ((c, d), []))
      (fun r x => x.1 = (c, d) ∧ ((x.2 = l.zip k ∧ (∀ p ∈ x.2, g p.1 p.2 = some (some .eq)) ∧ r = some (compare l.length k.length)) ∨
        (r ≠ some .eq ∧ StopsAt g (some .eq) l k x.2 (some r))))
      (fun x => x.1 = (c, d) ∧ StopsAt g (some .eq) l k x.2 none) False := by
  rw [C95_partial_cmp h h']
  refine Sat.mapState ((partialCmpCalls_recorded g l k []).imp ?_ ?_ id)
  · rintro r tr ⟨calls, rfl, h⟩; exact ⟨rfl, by simpa using h⟩
  · rintro tr ⟨calls, rfl, h⟩; exact ⟨rfl, by simpa using h⟩

/-- C95. For methods without effects these are the answers of C20, C21, C43 and C69 (Cmp.lean). -/
theorem C95_pure {s t : Operand A} {c : s.Store} {d : t.Store} {l k : List A} (h : Shows E s c l) (h' : Shows E t d k) (u : τ)
    (e : A → A → Bool) (p : A → A → Option Ordering) (o : A → A → Ordering) :
    eq (side E s) (side E t) (fun a b => pure (e a b)) ((c, d), u) = .ok (seqEq e l k) ((c, d), u) ∧
    partialCmp (side E s) (side E t) (fun a b => pure (p a b)) ((c, d), u) = .ok (seqPartialCmp p l k) ((c, d), u) ∧
    cmp (side E s) (side E t) (fun a b => pure (o a b)) ((c, d), u) = .ok (seqCmp o l k) ((c, d), u) := by
  rw [C95_eq h h', C95_partial_cmp h h', C95_cmp h h', eqCalls_pure, partialCmpCalls_pure, cmpCalls_pure]
  exact ⟨rfl, rfl, rfl⟩

/-! ### Examples -/

/-- A chunk that shows `[10, 20]`, the middle of a wrapped buffer, a plain slice, an inline array. -/
example : Shows Chunk.dbg64 (.chunk 3) Chunk.edge [10, 20] ∧ Shows Chunk.dbg64 .slice [10, 21] [10, 21] ∧
    Shows Chunk.dbg64 (.inline Inline.words) Inline.three [10, 20, 30] :=
  ⟨rfl, rfl, Inline.words_valid, ⟨_, _, Inline.three_spec.1⟩, Inline.three_spec.2⟩
/-- The record of `chunk == slice`, of one that panics at the second pair, and of `array.cmp(chunk)`. -/
example : eq (side Chunk.dbg64 (.chunk 3)) (side Chunk.dbg64 .slice) (recorded fun a b => some (a == b)) ((Chunk.edge, [10, 21]), []) =
      .ok false ((Chunk.edge, [10, 21]), [(10, 10), (20, 21)]) ∧
    eq (side Chunk.dbg64 (.chunk 3)) (side Chunk.dbg64 .slice) (recorded fun a b => if a = b then some true else none) ((Chunk.edge, [10, 21]), []) =
      .panic ((Chunk.edge, [10, 21]), [(10, 10), (20, 21)]) ∧
    cmp (side Chunk.dbg64 (.inline Inline.words)) (side Chunk.dbg64 (.chunk 3)) (recorded fun a b => some (compare a b)) ((Inline.three, Chunk.edge), []) =
      .ok .gt ((Inline.three, Chunk.edge), [(10, 10), (20, 20)]) := ⟨rfl, rfl, rfl⟩

/-- A wrapped buffer and the slice of its second item; the record of comparing a buffer with such a slice; `{:?}` to a writer that takes two pieces only. -/
example : Shows Chunk.dbg64 (.ring 3) Ring.seam [10, 20] ∧ Shows Chunk.dbg64 (.part 3 1 2) Ring.seam [20] :=
  ⟨⟨by decide, rfl, by decide, by decide⟩, by decide, [10, 20], ⟨rfl, by decide, by decide⟩, by decide, by decide, rfl⟩
example : eq (side Chunk.dbg64 (.ring 3)) (side Chunk.dbg64 (.part 3 1 2)) (recorded fun a b => some (a == b)) ((Ring.seam, Ring.seam), []) =
      .ok false ((Ring.seam, Ring.seam), []) ∧
    partialCmp (side Chunk.dbg64 (.ring 3)) (side Chunk.dbg64 (.part 3 1 2)) (recorded fun a b => some (some (compare a b))) ((Ring.seam, Ring.seam), []) =
      .ok (some .lt) ((Ring.seam, Ring.seam), [(10, 20)]) ∧
    fmt (τ := List (String ⊕ Nat)) "RingBuffer" (side Chunk.dbg64 (.ring 3)) ⟨fun s u => .ok (decide (u.length < 2)) (u ++ [.inl s]), fun u => .ok (decide (u.length < 2)) (u ++ [.inl "["]),
      fun _ a u => .ok (decide (u.length < 2)) (u ++ [.inr a]), fun u => .ok true (u ++ [.inl "]"])⟩ (Ring.seam, []) =
      .ok false (Ring.seam, [.inl "RingBuffer", .inl "[", .inr 10]) := ⟨rfl, rfl, rfl⟩
/-- SparseChunk: equal to itself after two calls; no call if another index is occupied. -/
example : Sparse.View 4 Sparse.sample Sparse.sampleMap ∧
    eqSparse 4 (recorded fun a b => some (a == b)) ((Sparse.sample, Sparse.sample), []) = .ok true ((Sparse.sample, Sparse.sample), [(20, 20), (10, 10)]) ∧
    eqMap 4 (recorded fun a b => some (a == b)) [(1, 21), (3, 10)] (Sparse.sample, []) = .ok false (Sparse.sample, [(20, 21)]) :=
  ⟨Sparse.sample_view, rfl, rfl⟩

end Effects
end Verif
