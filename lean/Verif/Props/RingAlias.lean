import Verif.Props.RingSlices
/-
References handed out by the two halves of `SliceMut::split_at`: C74.
-/
namespace Verif.Ring
open Verif.Chunk (dbg64 rel64 specIterate)
variable {A : Type} {E : Env} {N : Nat} {c : Ring A} {l : List A}

/-- The client can get a `&mut` to storage slot `p` out of the mutable slice `s` of the buffer `c`: perhaps after narrowing it, with
`get_mut`, with `slice[j]` for an index `j` inside the narrowed slice, or from its `iter_mut()` under some interleaving of `next` and
`next_back`. -/
def GivesOut (E : Env) (N : Nat) (c : Ring A) (s : Span) (p : Nat) : Prop :=
  ∃ cuts s', narrow E cuts s c = .ok s' c ∧
    ((∃ j, sliceGetMut E N s' j c = .ok (some p) c) ∨
     (∃ j n, sliceLen E s' c = .ok n c ∧ j < n ∧ sliceIndexMut E N s' j c = .ok p c) ∨
     (∃ it sched out it', sliceIterMut E N s' c = .ok it c ∧ iterateSlots E N sched it c = .ok (out, it') c ∧ some p ∈ out))

/-- What a chain of narrowings grants lies inside the slice it started from. -/
theorem narrow_inside (cuts : List Cut) {s : Span} (hs : s.start ≤ s.stop) (hW : s.stop < E.W) :
    Sat (narrow E cuts s c) (fun s' c' => c' = c ∧ s.start ≤ s'.start ∧ s'.start ≤ s'.stop ∧ s'.stop ≤ s.stop) (fun _ => True) True := by
  induction cuts generalizing s with
  | nil => exact ⟨rfl, Nat.le_refl _, hs, Nat.le_refl _⟩
  | cons k r ih =>
    have step : ∀ {s' : Span}, s.start ≤ s'.start → s'.start ≤ s'.stop → s'.stop ≤ s.stop →
        Sat (narrow E r s' c) (fun s' c' => c' = c ∧ s.start ≤ s'.start ∧ s'.start ≤ s'.stop ∧ s'.stop ≤ s.stop) (fun _ => True) True := by
      intro s' h1 h2 h3
      refine (ih h2 (by omega)).imp ?_ (fun _ _ => trivial) (fun _ => trivial)
      rintro s'' c' ⟨h4, h5, h6, h7⟩
      exact ⟨h4, by omega, h6, by omega⟩
    have hsub : ∀ {lo hi : Bound}, Sat (subSlice E s lo hi c) (fun s' c' => c' = c ∧ s.start ≤ s'.start ∧ s'.start ≤ s'.stop ∧ s'.stop ≤ s.stop)
        (fun _ => True) True := by
      intro lo hi
      have key : ∀ start stop, Sat ((do
          M.panicIf (start < s.start ∨ stop > s.stop ∨ start > stop)
          return (⟨start, stop⟩ : Span) : M (Ring A) Span) c)
          (fun s' c' => c' = c ∧ s.start ≤ s'.start ∧ s'.start ≤ s'.stop ∧ s'.stop ≤ s.stop) (fun _ => True) True := by
        intro start stop
        vc
        refine ⟨rfl, ?_⟩
        omega
      have hu : ∀ (x y : Nat), Sat (uadd E x y c) (fun _ c' => c' = c) (fun _ => True) True := by
        intro x y; unfold uadd
        split
        · rfl
        · split
          · trivial
          · rfl
      unfold subSlice
      apply Sat.bind
      have h1 : Sat (subStart E s lo c) (fun _ c' => c' = c) (fun _ => True) True := by
        unfold subStart; cases lo
        · rfl
        · exact hu _ _
        · trivial
      have h2 : Sat (subStop E s hi c) (fun _ c' => c' = c) (fun _ => True) True := by
        unfold subStop; cases hi
        · rfl
        · apply Sat.bind
          refine (hu _ _).imp ?_ (fun _ _ => trivial) (fun _ => trivial)
          rintro x c' rfl
          exact hu _ _
        · exact hu _ _
      refine h1.imp ?_ (fun _ _ => trivial) (fun _ => trivial)
      rintro x c' rfl
      apply Sat.bind
      refine h2.imp ?_ (fun _ _ => trivial) (fun _ => trivial)
      rintro y c'' rfl
      exact key x y
    have hsplit : ∀ {i : Nat}, Sat (splitAt E s i c) (fun t c' => c' = c ∧ s.start ≤ t.1.stop ∧ t.1 = ⟨s.start, t.1.stop⟩ ∧
        t.2 = ⟨t.1.stop, s.stop⟩ ∧ t.1.stop ≤ s.stop) (fun _ => True) True := by
      intro i
      unfold splitAt sliceLen
      vc
      refine ⟨rfl, ?_, rfl, rfl, ?_⟩ <;> omega
    cases k with
    | sub lo hi =>
      unfold narrow
      apply Sat.bind
      refine hsub.imp ?_ (fun _ _ => trivial) (fun _ => trivial)
      rintro s' c' ⟨rfl, h1, h2, h3⟩
      exact step h1 h2 h3
    | left i =>
      unfold narrow
      apply Sat.bind
      refine hsplit.imp ?_ (fun _ _ => trivial) (fun _ => trivial)
      rintro t c' ⟨rfl, h1, h2, h3, h4⟩
      rw [h2]
      exact step (Nat.le_refl _) h1 h4
    | right i =>
      unfold narrow
      apply Sat.bind
      refine hsplit.imp ?_ (fun _ _ => trivial) (fun _ => trivial)
      rintro t c' ⟨rfl, h1, h2, h3, h4⟩
      rw [h3]
      exact step h1 h4 (Nat.le_refl _)

theorem specIterate_mem {α : Type} {sched : List Bool} {l : List α} {p : α} (h : some p ∈ (specIterate sched l).1) : p ∈ l := by
  induction sched generalizing l with
  | nil => simp [specIterate] at h
  | cons front r ih =>
    simp only [specIterate, List.mem_cons] at h
    cases front <;> rcases h with h | h
    · exact List.mem_of_getLast? (by simpa using h.symm)
    · exact List.dropLast_subset _ (ih (by simpa using h))
    · exact List.mem_of_head? (by simpa using h.symm)
    · exact List.mem_of_mem_tail (ih (by simpa using h))

/-- What a slice of the positions `a..b` gives out are slots of those positions. -/
theorem GivesOut.slot (hW : 2 * N < E.W) (h : Rep N c l) {a b p : Nat} (h1 : a ≤ b) (h2 : b ≤ l.length) (hg : GivesOut E N c ⟨a, b⟩ p) :
    ∃ j, a ≤ j ∧ j < b ∧ p = ridx N c.origin j := by
  have hle := h.le
  obtain ⟨cuts, ⟨a', b'⟩, hn, hr⟩ := hg
  have hin := narrow_inside (E := E) (c := c) cuts (s := ⟨a, b⟩) h1 (by simp only; omega)
  rw [hn] at hin
  obtain ⟨_, h3, h4, h5⟩ := hin
  simp only at h3 h4 h5
  rcases hr with ⟨j, e⟩ | ⟨j, n, en, hj, e⟩ | ⟨it, sched, out, it', e1, e2, hp⟩
  · rw [sliceGetMut_eq hW h h4 (by omega)] at e
    split at e <;> simp at e
    exact ⟨_, by omega, by omega, e.symm⟩
  · simp [sliceLen, usub, h4] at en
    have hu : uadd E a' j c = .ok (a' + j) c := by simp [uadd, show a' + j < E.W by omega]
    simp only [sliceIndexMut, M.bind_run, hu, Out.andThen_ok, indexMut_eq hW h] at e
    rw [if_pos (by omega)] at e
    simp at e
    exact ⟨_, by omega, by omega, e.symm⟩
  · have hs := sat_sliceIterMut (E := E) (c := c) (Q := fun r s => r = idxOf N c.origin a' (b' - a') ∧ s = c) (P := fun _ => False) (B := False)
      hW h.org h4 (by omega) ⟨by unfold idxOf; rw [show a' + (b' - a') = b' by omega], rfl⟩
    rw [e1] at hs
    obtain ⟨rfl, -⟩ := hs
    obtain ⟨x, y, e3, -⟩ := iterateSlots_eq (E := E) (c := c) hW h.org sched a' (b' - a') (by omega)
    rw [e3] at e2
    simp only [Out.ok.injEq, Prod.mk.injEq] at e2
    obtain ⟨⟨rfl, -⟩, -⟩ := e2
    have := specIterate_mem hp
    obtain ⟨j, q1, q2, q3⟩ := slots_mem.1 this
    exact ⟨j, by omega, by omega, q3.symm⟩

/-- C74, the part that holds: splitting a mutable slice of the positions `a..b` at `i` gives two slices such that no `&mut` that can be
got out of the one (by `get_mut`, `iter_mut`, in-range indexing, after any further narrowing) refers to the same slot as one got out of the
other; every reference is to a slot holding an item of its own half, and every item of the half can be reached. -/
theorem C74_halves_disjoint_partial (hW : 2 * N < E.W) (h : View E N c l) {a b i : Nat} (h1 : a ≤ b) (h2 : b ≤ l.length) (hi : i ≤ b - a) :
    ∃ s t, splitAt E ⟨a, b⟩ i c = .ok (s, t) c ∧
      (∀ p q, GivesOut E N c s p → GivesOut E N c t q → p ≠ q) ∧
      (∀ p, GivesOut E N c s p → ∃ j, a ≤ j ∧ j < a + i ∧ c.mem p = l[j]?) ∧
      (∀ q, GivesOut E N c t q → ∃ j, a + i ≤ j ∧ j < b ∧ c.mem q = l[j]?) ∧
      (∀ j, a ≤ j → j < a + i → ∃ p, GivesOut E N c s p ∧ c.mem p = l[j]?) ∧
      (∀ j, a + i ≤ j → j < b → ∃ q, GivesOut E N c t q ∧ c.mem q = l[j]?) := by
  have hr := h.rep hW
  have hle := hr.le
  have hcell : ∀ j, j < l.length → c.mem (ridx N c.origin j) = l[j]? := by
    intro j hj
    have := hr.cell j hj
    unfold lm at this
    rwa [if_pos (by omega)] at this
  have hgive : ∀ {a' b' j : Nat}, a' ≤ j → j < b' → b' ≤ l.length → GivesOut E N c ⟨a', b'⟩ (ridx N c.origin j) := by
    intro a' b' j q1 q2 q3
    refine ⟨[], ⟨a', b'⟩, rfl, .inl ⟨j - a', ?_⟩⟩
    rw [sliceGetMut_eq hW hr (by omega) q3, if_pos (by omega), show a' + (j - a') = j by omega]
  refine ⟨⟨a, a + i⟩, ⟨a + i, b⟩, ?_, ?_, ?_, ?_, ?_, ?_⟩
  · have e1 : sliceLen E ⟨a, b⟩ c = .ok (b - a) c := by simp [sliceLen, usub, h1]
    have e2 : uadd E a i c = .ok (a + i) c := by simp [uadd, show a + i < E.W by omega]
    simp [splitAt, e1, e2, M.panicIf, Nat.not_lt.2 hi]
  · intro p q hp hq
    obtain ⟨j, j1, j2, rfl⟩ := hp.slot hW hr (by omega) (by omega)
    obtain ⟨k, k1, k2, rfl⟩ := hq.slot hW hr (by omega) (by omega)
    intro e
    have := ridx_inj (by omega) (by omega) e
    omega
  · intro p hp
    obtain ⟨j, j1, j2, rfl⟩ := hp.slot hW hr (by omega) (by omega)
    exact ⟨j, j1, j2, hcell j (by omega)⟩
  · intro p hp
    obtain ⟨j, j1, j2, rfl⟩ := hp.slot hW hr (by omega) (by omega)
    exact ⟨j, j1, j2, hcell j (by omega)⟩
  · intro j j1 j2
    exact ⟨_, hgive j1 j2 (by omega), hcell j (by omega)⟩
  · intro j j1 j2
    exact ⟨_, hgive j1 j2 (by omega), hcell j (by omega)⟩

/-- C74 fails: `IndexMut` on a slice only checks the index against the whole buffer, so `left[1]` and `right[0]` are both `&mut` to the
same item, obtained by safe calls and alive at the same time. -/
theorem C74_halves_alias_counterexample :
    View dbg64 3 full [10, 20, 30] ∧
    splitAt dbg64 ⟨0, 3⟩ 1 full = .ok (⟨0, 1⟩, ⟨1, 3⟩) full ∧
    (∃ p, sliceIndexMut dbg64 3 ⟨0, 1⟩ 1 full = .ok p full ∧ sliceIndexMut dbg64 3 ⟨1, 3⟩ 0 full = .ok p full ∧
      sliceGetMut dbg64 3 ⟨1, 3⟩ 0 full = .ok (some p) full ∧ full.mem p = some 20) :=
  ⟨⟨rfl, by decide, by decide⟩, rfl, ⟨0, rfl, rfl, rfl, rfl⟩⟩

/-- C74 is not vacuous: both halves of `full` give out references (slots 2, 0 and 1; the buffer is wrapped). -/
example : GivesOut dbg64 3 full ⟨0, 1⟩ 2 ∧ GivesOut dbg64 3 full ⟨1, 3⟩ 0 ∧ GivesOut dbg64 3 full ⟨1, 3⟩ 1 :=
  ⟨⟨[], _, rfl, .inl ⟨0, rfl⟩⟩, ⟨[.sub (.included 0) .unbounded], _, rfl, .inr (.inl ⟨0, 2, rfl, by decide, rfl⟩)⟩,
   ⟨[], _, rfl, .inr (.inr ⟨_, [false], _, _, rfl, rfl, by decide⟩)⟩⟩

end Verif.Ring
