import Verif.Lawful
import Verif.Props.ChunkBulk
import Verif.Props.RingSlices
import Verif.Props.SparseOps
import Verif.Props.InlineOps
/-
C70 (`Debug`), C71 (the contracts of `Eq`, `Ord` and `Hash`).  In C71, `{c // ∃ l, View .. c l}` are the containers that show some contents;
by C02, C25 and C59 every container a client can get hold of is one.
-/
namespace Verif.Chunk
variable {A H : Type} {E : Env} {N : Nat} {c : Chunk A} {l : List A}

/-- C70. The `Debug` output of a chunk is its name and a list of exactly its items, in order. -/
theorem C70_chunk_partial (h : View E N c l) : fmt E N c = .ok [.text "Chunk", .list l] c := by
  unfold View at h
  simp [fmt, h]

/-- C71. If the items' `Eq`, `Ord` and `Hash` keep their contracts, so do those of chunks, however they are laid out, and `partial_cmp` is
`Some(cmp)`. -/
theorem C71_chunk {eq : A → A → Bool} {cm : A → A → Ordering} {hs : A → List (Feed H)} (L : Lawful eq cm hs) :
    ∃ (eq' : {c : Chunk A // ∃ l, View E N c l} → {c // ∃ l, View E N c l} → Bool) (cm' : _ → _ → Ordering) (hs' : _ → List (Feed H)),
      Lawful eq' cm' hs' ∧
      ∀ c d : {c : Chunk A // ∃ l, View E N c l},
        eqChunk E N N eq (c.1, d.1) = .ok (eq' c d) (c.1, d.1) ∧ cmp E N cm (c.1, d.1) = .ok (cm' c d) (c.1, d.1) ∧
        partialCmp E N (fun a b => some (cm a b)) (c.1, d.1) = .ok (some (cm' c d)) (c.1, d.1) ∧ hash E N hs c.1 = .ok (hs' c) c.1 := by
  refine ⟨_, _, _, L.lift (fun c => c.2.choose), fun ⟨c, hc⟩ ⟨d, hd⟩ => ?_⟩
  have h := hc.choose_spec
  have h' := hd.choose_spec
  dsimp only
  generalize hc.choose = l at *
  generalize hd.choose = k at *
  unfold View at h h'
  exact ⟨by simp [eqChunk, h, h'], by simp [cmp, h, h'], by simp [partialCmp, h, h', seqPartialCmp_total], by simp [hash, h]⟩

/-- C71, for items that are only partially ordered (floats): `partial_cmp` of two chunks has no answer exactly when, at the first position
where the items are not equal, they are incomparable. -/
theorem C71_chunk_incomparable {d : Chunk A} {k : List A} (h : View E N c l) (h' : View E N d k) (f : A → A → Option Ordering) :
    ∃ o, partialCmp E N f (c, d) = .ok o (c, d) ∧
      (o = none ↔ ∃ i : Nat, (∀ j, j < i → ∃ a b, l[j]? = some a ∧ k[j]? = some b ∧ f a b = some .eq) ∧
        ∃ a b, l[i]? = some a ∧ k[i]? = some b ∧ f a b = none) := by
  unfold View at h h'
  exact ⟨_, by simp [partialCmp, h, h'], seqPartialCmp_none_iff ..⟩

/-- C71, the whole answer of `partial_cmp` of two chunks, for whatever partial order. -/
theorem C71_chunk_partial_cmp {d : Chunk A} {k : List A} (h : View E N c l) (h' : View E N d k) (f : A → A → Option Ordering) :
    ∃ o, partialCmp E N f (c, d) = .ok o (c, d) ∧ PartialLex f l k o := by
  unfold View at h h'
  exact ⟨_, by simp [partialCmp, h, h'], seqPartialCmp_lex ..⟩

/-- The items' contract is met by numbers. -/
theorem lawfulNat : Lawful (fun a b : Nat => decide (a = b)) compare (fun a => [Feed.word a]) where
  refl := by simp
  symm a b := by simp; exact fun h => h.symm
  trans a b c := by simp; exact fun h h' => h.trans h'
  cmp_eq a b := by simp
  cmp_swap a b := (Nat.compare_swap a b).symm
  cmp_trans a b c := by simp only [ne_eq, Nat.compare_eq_gt]; omega
  hash_eq a b := by simp

/-- C70 and C71 are not vacuous: two layouts of the same items, and one before the other. -/
example : ∃ s, fmt dbg64 3 edge = .ok [.text "Chunk", .list [10, 20]] s := ⟨_, rfl⟩
example : ∃ s, cmp dbg64 3 compare (edge, ⟨0, 2, (Mem.uninit.put 0 10).put 1 30⟩) = .ok .lt s := ⟨_, rfl⟩
example : ∃ s, partialCmp dbg64 3 (fun a b => if a = b then some .eq else none) (edge, ⟨0, 2, (Mem.uninit.put 0 10).put 1 30⟩) = .ok none s := ⟨_, rfl⟩

end Verif.Chunk

namespace Verif.Ring
variable {A H : Type} {E : Env} {N : Nat} {c : Ring A} {l : List A}

/-- C70. The `Debug` output of a buffer is its name and a list of exactly its items, in order; that of a slice, the same with its items. -/
theorem C70_ring_partial (hW : 2 * N < E.W) (h : View E N c l) {a b : Nat} (h1 : a ≤ b) (h2 : b ≤ l.length) :
    fmt E N c = .ok [.text "RingBuffer", .list l] c ∧ sliceFmt E N ⟨a, b⟩ c = .ok [.text "RingBuffer", .list ((l.take b).drop a)] c := by
  obtain ⟨_, e2, _⟩ := C38_reads hW h h1 h2 0
  exact ⟨by simp [fmt, h.1], by simp [sliceFmt, e2]⟩

/-- C71. If the items' `Eq`, `Ord` and `Hash` keep their contracts, so do those of buffers, wherever their origins are. -/
theorem C71_ring (hW : 2 * N < E.W) {eq : A → A → Bool} {cm : A → A → Ordering} {hs : A → List (Feed H)} (L : Lawful eq cm hs) :
    ∃ (eq' : {c : Ring A // ∃ l, View E N c l} → {c // ∃ l, View E N c l} → Bool) (cm' : _ → _ → Ordering) (hs' : _ → List (Feed H)),
      Lawful eq' cm' hs' ∧
      ∀ c d : {c : Ring A // ∃ l, View E N c l},
        eqRing E N eq (c.1, d.1) = .ok (eq' c d) (c.1, d.1) ∧ cmp E N cm (c.1, d.1) = .ok (cm' c d) (c.1, d.1) ∧
        partialCmp E N (fun a b => some (cm a b)) (c.1, d.1) = .ok (some (cm' c d)) (c.1, d.1) ∧ hash E N hs c.1 = .ok (hs' c) c.1 := by
  refine ⟨_, _, _, L.lift (fun c => c.2.choose), fun c d => ?_⟩
  have h := c.2.choose_spec
  have h' := d.2.choose_spec
  have hl := getLen_eq (h.rep hW)
  have hl' := getLen_eq (h'.rep hW)
  refine ⟨?_, by simp [cmp, h.1, h'.1], by simp [partialCmp, h.1, h'.1, seqPartialCmp_total], by simp [hash, h.1]⟩
  simp only [eqRing, M.bind_run, M.onFst_run, M.onSnd_run, h.1, h'.1, hl, hl', Out.mapState_ok, Out.andThen_ok, M.pure_run]
  congr 1
  rw [Bool.eq_iff_iff, Bool.and_eq_true, decide_eq_true_eq, seqEq_iff]
  exact ⟨fun h => h.2, fun h => ⟨h.1, h⟩⟩

/-- C71, for slices of buffers. -/
theorem C71_slice (hW : 2 * N < E.W) {eq : A → A → Bool} {cm : A → A → Ordering} {hs : A → List (Feed H)} (L : Lawful eq cm hs) :
    ∃ (eq' : {p : Ring A × Span // ∃ l, View E N p.1 l ∧ p.2.start ≤ p.2.stop ∧ p.2.stop ≤ l.length} → _ → Bool) (cm' : _ → _ → Ordering)
      (hs' : _ → List (Feed H)), Lawful eq' cm' hs' ∧
      ∀ p q : {p : Ring A × Span // ∃ l, View E N p.1 l ∧ p.2.start ≤ p.2.stop ∧ p.2.stop ≤ l.length},
        eqSlices E N eq p.1.2 q.1.2 (p.1.1, q.1.1) = .ok (eq' p q) (p.1.1, q.1.1) ∧
        sliceCmp E N cm p.1.2 q.1.2 (p.1.1, q.1.1) = .ok (cm' p q) (p.1.1, q.1.1) ∧
        slicePartialCmp E N (fun a b => some (cm a b)) p.1.2 q.1.2 (p.1.1, q.1.1) = .ok (some (cm' p q)) (p.1.1, q.1.1) ∧
        sliceHash E N hs p.1.2 p.1.1 = .ok (hs' p) p.1.1 := by
  refine ⟨_, _, _, L.lift (fun p => (p.2.choose.take p.1.2.stop).drop p.1.2.start), fun p q => ?_⟩
  obtain ⟨h, h1, h2⟩ := p.2.choose_spec
  obtain ⟨h', h1', h2'⟩ := q.2.choose_spec
  obtain ⟨e1, e2, _⟩ := C38_reads hW h h1 h2 0
  obtain ⟨e1', e2', _⟩ := C38_reads hW h' h1' h2' 0
  refine ⟨?_, by simp [sliceCmp, e2, e2'], by simp [slicePartialCmp, e2, e2', seqPartialCmp_total], by simp [sliceHash, e2]⟩
  simp only [eqSlices, M.bind_run, M.onFst_run, M.onSnd_run, e1, e2, e1', e2', Out.mapState_ok, Out.andThen_ok, M.pure_run]
  congr 1
  rw [Bool.eq_iff_iff, Bool.and_eq_true, decide_eq_true_eq, seqEq_iff]
  refine ⟨fun h => h.2, fun h => ⟨?_, h⟩⟩
  have := h.1
  simp only [List.length_drop, List.length_take] at this
  omega

/-- C71, the whole answer of `partial_cmp` of two buffers, for whatever partial order. -/
theorem C71_ring_partial_cmp {d : Ring A} {k : List A} (h : View E N c l) (h' : View E N d k) (f : A → A → Option Ordering) :
    ∃ o, partialCmp E N f (c, d) = .ok o (c, d) ∧ PartialLex f l k o :=
  ⟨_, by simp [partialCmp, h.1, h'.1], seqPartialCmp_lex ..⟩

/-- C71, the same for slices. -/
theorem C71_slice_partial_cmp {d : Ring A} {k : List A} (hW : 2 * N < E.W) (h : View E N c l) (h' : View E N d k) {a b a' b' : Nat}
    (h1 : a ≤ b) (h2 : b ≤ l.length) (h3 : a' ≤ b') (h4 : b' ≤ k.length) (f : A → A → Option Ordering) :
    ∃ o, slicePartialCmp E N f ⟨a, b⟩ ⟨a', b'⟩ (c, d) = .ok o (c, d) ∧ PartialLex f ((l.take b).drop a) ((k.take b').drop a') o := by
  obtain ⟨_, e2, _⟩ := C38_reads hW h h1 h2 0
  obtain ⟨_, e4, _⟩ := C38_reads hW h' h3 h4 0
  exact ⟨_, by simp [slicePartialCmp, e2, e4], seqPartialCmp_lex ..⟩

/-- An incomparable pair. -/
example : ∃ s, slicePartialCmp Chunk.dbg64 3 (fun a b => if a = b then some .eq else none) ⟨0, 2⟩ ⟨1, 2⟩ (seam, seam) = .ok none s := ⟨_, rfl⟩
/-- C70 and C71 are not vacuous. -/
example : ∃ s, fmt Chunk.dbg64 3 seam = .ok [.text "RingBuffer", .list [10, 20]] s := ⟨_, rfl⟩
example : ∃ s, sliceFmt Chunk.dbg64 3 ⟨1, 2⟩ seam = .ok [.text "RingBuffer", .list [20]] s := ⟨_, rfl⟩
example : ∃ s, sliceCmp Chunk.dbg64 3 compare ⟨1, 2⟩ ⟨0, 2⟩ (seam, seam) = .ok .gt s := ⟨_, rfl⟩

end Verif.Ring

namespace Verif.Sparse
variable {A : Type} {N : Nat} {c d e : Sparse A} {m : SMap A}

/-- C70. The `Debug` output of a sparse chunk is its name and a map of exactly its entries, in ascending order of the indices. -/
theorem C70_sparse_partial (h : View N c m) :
    ∃ es, fmt N c = .ok [.text "SparseChunk", .map es] c ∧ (es.map Prod.fst).Pairwise (· < ·) ∧ ∀ i a, (i, a) ∈ es ↔ m i = some a := by
  obtain ⟨ks, vs, h1, h2, h3, h4, h5, h6⟩ := C49_iterators_ascending h
  have hl : ks.length = vs.length := by simpa using congrArg List.length h5
  refine ⟨_, by simp [fmt, h6]; rfl, ?_, fun i a => ?_⟩
  · rwa [List.map_fst_zip (by omega)]
  · rw [List.mem_iff_getElem?]
    constructor
    · rintro ⟨n, hn⟩
      rw [List.getElem?_zip_eq_some] at hn
      have := congrArg (·[n]?) h5
      simpa [hn.1, hn.2] using this
    · intro hm
      have : i ∈ ks := (h3 i).2 (by simp [hm])
      obtain ⟨n, hn, e⟩ := List.getElem_of_mem this
      refine ⟨n, ?_⟩
      rw [List.getElem?_zip_eq_some]
      have h7 := congrArg (·[n]?) h5
      have hv : n < vs.length := by omega
      simp [hn, hv, e, hm] at h7
      simp [hn, hv, e, ← h7]

/-- C71. If the items' equality is an equivalence, so is that of sparse chunks. -/
theorem C71_sparse {eq : A → A → Bool} (hr : ∀ a, eq a a = true) (hs : ∀ a b, eq a b = true → eq b a = true)
    (ht : ∀ a b c, eq a b = true → eq b c = true → eq a c = true) :
    ∃ eq' : {c : Sparse A // ∃ m, View N c m} → {c // ∃ m, View N c m} → Bool,
      (∀ c d, eqSparse N eq (c.1, d.1) = .ok (eq' c d) (c.1, d.1)) ∧
      (∀ c, eq' c c = true) ∧ (∀ c d, eq' c d = true → eq' d c = true) ∧ (∀ c d e, eq' c d = true → eq' d e = true → eq' c e = true) := by
  have key : ∀ c d : {c : Sparse A // ∃ m, View N c m}, ∃ b, eqSparse N eq (c.1, d.1) = .ok b (c.1, d.1) ∧
      (b = true ↔ ∀ i, (c.2.choose i = none ↔ d.2.choose i = none) ∧ ∀ a a', c.2.choose i = some a → d.2.choose i = some a' → eq a a' = true) :=
    fun c d => C52_eq_is_map_equality c.2.choose_spec d.2.choose_spec eq
  refine ⟨fun c d => (key c d).choose, fun c d => (key c d).choose_spec.1, fun c => ?_, fun c d => ?_, fun c d e => ?_⟩
  · rw [(key c c).choose_spec.2]
    refine fun i => ⟨Iff.rfl, fun a a' e1 e2 => ?_⟩
    rw [e1] at e2; cases e2; exact hr a
  · rw [(key c d).choose_spec.2, (key d c).choose_spec.2]
    exact fun h i => ⟨(h i).1.symm, fun a a' e1 e2 => hs _ _ ((h i).2 a' a e2 e1)⟩
  · rw [(key c d).choose_spec.2, (key d e).choose_spec.2, (key c e).choose_spec.2]
    intro h h' i
    refine ⟨(h i).1.trans (h' i).1, fun a a'' e1 e2 => ?_⟩
    cases hd : d.2.choose i with
    | none => rw [← (h i).1] at hd; rw [hd] at e1; cases e1
    | some a' => exact ht _ _ _ ((h i).2 a a' e1 hd) ((h' i).2 a' a'' hd e2)

/-- C70 is not vacuous. -/
example : ∃ s, fmt 4 sample = .ok [.text "SparseChunk", .map [(1, 20), (3, 10)]] s := ⟨_, rfl⟩

end Verif.Sparse

namespace Verif.Inline
variable {A H : Type} [DecidableEq A] {E : Env} {L : Layout A} {c : Inline A} {l : List A}

/-- C70 fails for arrays: they call themselves `Chunk`. -/
theorem C70_inline_counterexample (h : View E L c l) :
    fmt E L c = .ok [.text "Chunk", .list l] c ∧ fmt E L c ≠ .ok [.text "InlineArray", .list l] c := by
  unfold View at h
  simp [fmt, h]

/-- C71. If the items' `Eq`, `Ord` and `Hash` keep their contracts, so do those of arrays. -/
theorem C71_inline {eq : A → A → Bool} {cm : A → A → Ordering} {hs : A → List (Feed H)} (W : Lawful eq cm hs) :
    ∃ (eq' : {c : Inline A // ∃ l, View E L c l} → {c // ∃ l, View E L c l} → Bool) (cm' : _ → _ → Ordering) (hs' : _ → List (Feed H)),
      Lawful eq' cm' hs' ∧
      ∀ c d : {c : Inline A // ∃ l, View E L c l},
        eqInline E L L eq (c.1, d.1) = .ok (eq' c d) (c.1, d.1) ∧ cmp E L cm (c.1, d.1) = .ok (cm' c d) (c.1, d.1) ∧
        partialCmp E L (fun a b => some (cm a b)) (c.1, d.1) = .ok (some (cm' c d)) (c.1, d.1) ∧ hash E L hs c.1 = .ok (hs' c) c.1 := by
  refine ⟨_, _, _, W.lift (fun c => c.2.choose), fun ⟨c, hc⟩ ⟨d, hd⟩ => ?_⟩
  have h := hc.choose_spec
  have h' := hd.choose_spec
  dsimp only
  generalize hc.choose = l at *
  generalize hd.choose = k at *
  unfold View at h h'
  exact ⟨by simp [eqInline, h, h'], by simp [cmp, h, h'], by simp [partialCmp, h, h', seqPartialCmp_total], by simp [hash, h]⟩

/-- C71, the whole answer of `partial_cmp` of two arrays, for whatever partial order. -/
theorem C71_inline_partial_cmp {d : Inline A} {k : List A} (h : View E L c l) (h' : View E L d k) (f : A → A → Option Ordering) :
    ∃ o, partialCmp E L f (c, d) = .ok o (c, d) ∧ PartialLex f l k o := by
  unfold View at h h'
  exact ⟨_, by simp [partialCmp, h, h'], seqPartialCmp_lex ..⟩

/-- C70 and C71 are not vacuous. -/
example : View Chunk.dbg64 words three [10, 20, 30] := three_spec.2

end Verif.Inline
