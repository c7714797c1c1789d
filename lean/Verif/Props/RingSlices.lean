import Verif.Props.RingIter
/-
Slices, io, comparison of ring buffers, the zero-capacity buffer, index arithmetic: C38 - C45.
-/
namespace Verif.Ring
open Verif.Chunk (dbg64 rel64 bornOf_all)
variable {A σ : Type} {E : Env} {N : Nat} {dp : A → Bool} {cl : A → Option A} {c d : Ring A} {l k : List A}

/-! ### C38 -/

/-- C38. `buffer.slice(lo..hi)` narrowed by any chain of sub-slices and `split_at` halves: gives exactly the window that the
same chain gives on a list of that length (`Spec.window`), and panics, changing nothing, exactly when a range in the chain does
not lie inside the current window. (The bounds are `usize` values; release builds mishandle `..=usize::MAX`, see C40.) -/
theorem C38_slice (hW : 2 * N < E.W) (h : View E N c l) (lo hi : Bound) (cuts : List Cut)
    (hr : Bound.regular E lo hi = true) (hr' : Cut.regular E cuts = true) :
    (∀ a b, Spec.window lo hi cuts l.length = some (a, b) → sliceVia E lo hi cuts c = .ok ⟨a, b⟩ c ∧ a ≤ b ∧ b ≤ l.length) ∧
    (Spec.window lo hi cuts l.length = none → sliceVia E lo hi cuts c = .panic c) := by
  have key : Sat (sliceVia E lo hi cuts c)
      (fun r s => Spec.window lo hi cuts l.length = some (r.start, r.stop) ∧ r.start ≤ r.stop ∧ r.stop ≤ l.length ∧ s = c)
      (fun s => Spec.window lo hi cuts l.length = none ∧ s = c) False :=
    sat_sliceVia hW (h.rep hW) lo hi cuts hr hr' (fun a b hw h1 h2 => ⟨hw, h1, h2, rfl⟩) (fun hw => ⟨hw, rfl⟩)
  cases hx : sliceVia E lo hi cuts c <;> rw [hx] at key <;> simp only [Sat] at key
  · obtain ⟨hw, h1, h2, rfl⟩ := key
    constructor
    · intro a b e; rw [hw] at e; cases e; exact ⟨rfl, h1, h2⟩
    · intro e; rw [hw] at e; cases e
  · obtain ⟨hw, rfl⟩ := key
    constructor
    · intro a b e; rw [hw] at e; cases e
    · intro _; rfl

/-- C38. What a slice of the positions `a..b` shows: its length, its items (in order), and `get`, which is `None` exactly from
its own length on; the buffer is untouched. -/
theorem C38_reads (hW : 2 * N < E.W) (h : View E N c l) {a b : Nat} (h1 : a ≤ b) (h2 : b ≤ l.length) (i : Nat) :
    sliceLen E ⟨a, b⟩ c = .ok (b - a) c ∧ sliceItems E N ⟨a, b⟩ c = .ok ((l.take b).drop a) c ∧
    sliceGet E N ⟨a, b⟩ i c = .ok (((l.take b).drop a)[i]?) c := by
  have hr := h.rep hW
  refine ⟨by simp [sliceLen, usub, h1], ?_, ?_⟩
  · have := sat_sliceItems (E := E) (N := N) (c := c) (P := fun _ => False) (B := False)
      (Q := fun r s => r = (l.take b).drop a ∧ s = c) hW hr h1 h2 ⟨rfl, rfl⟩
    cases hx : sliceItems E N ⟨a, b⟩ c <;> rw [hx] at this <;> simp [Sat] at this
    rw [this.1, this.2]
  · have e1 : (((l.take b).drop a)[i]?) = if a + i < b then l[a + i]? else none := part_getElem? i
    rw [e1]
    have hle := hr.le
    by_cases hi : i < b - a
    · have hg := get_eq (E := E) hW hr (a + i)
      rw [if_pos (by omega)]
      have hlen : ¬ c.length ≤ a + i := by rw [hr.len]; omega
      simp only [get, getLen, M.bind_run, Out.andThen_ok, ge_iff_le, hlen, if_false] at hg
      have hlt : a + i < E.W := by omega
      have hn : ¬ b - a ≤ i := by omega
      simp [sliceGet, sliceLen, usub, h1, hn, sliceGetUnchecked, uadd, hlt]
      simpa using hg
    · rw [if_neg (by omega)]
      have hn : b - a ≤ i := by omega
      simp [sliceGet, sliceLen, usub, h1, hn]

/-- C38. Indexing within the slice gives its `i`-th item; assigning through `get_mut` or `IndexMut` replaces exactly the
corresponding item of the buffer. -/
theorem C38_index_and_assign (hW : 2 * N < E.W) (h : View E N c l) {a b : Nat} (h1 : a ≤ b) (h2 : b ≤ l.length) (i : Nat)
    (hi : i < b - a) (v : A) :
    Returns (View E N) (sliceIndex E N ⟨a, b⟩ i c) (l[a + i]'(by omega)) l ∧
    Returns (View E N) (sliceReplace E N ⟨a, b⟩ i v c) (l[a + i]'(by omega)) (l.set (a + i) v) ∧
    Returns (View E N) (sliceSetIndex E N ⟨a, b⟩ i v c) (l[a + i]'(by omega)) (l.set (a + i) v) := by
  have hle := (h.rep hW).le
  have hu : ∀ s : Ring A, uadd E a i s = .ok (a + i) s := by intro s; unfold uadd; rw [if_pos (by omega)]; rfl
  have hix := (C27_index hW h (a + i) v).1
  refine ⟨?_, ?_, ?_⟩
  · have := (Ref.view hW (index_ref hW (h.rep hW) (a + i))).of_ok (by unfold Spec.index; rw [List.getElem?_eq_getElem (by omega)])
    obtain ⟨s, e, h3⟩ := this
    exact ⟨s, by simp [sliceIndex, hu, e], h3⟩
  · obtain ⟨s, e, h3⟩ := swapAt_eq (h.rep hW) (show a + i < l.length by omega) v
    exact ⟨s, by simp [sliceReplace, sliceGetMut_eq hW (h.rep hW) h1 h2, hi, swapIf, e], h3.view hW⟩
  · obtain ⟨s, e, h3⟩ := (C29_set hW h (a + i) v (by omega)).1
    exact ⟨s, by simp [sliceSetIndex_def, hu, e], h3⟩

/-- C38. Writing through `iter_mut` of a slice replaces its items by as many others, and nothing outside the slice. -/
theorem C38_iter_mut_writes (hW : 2 * N < E.W) (h : View E N c l) {a b : Nat} (h1 : a ≤ b) (h2 : b ≤ l.length)
    (f : List A → List A) (hf : (f ((l.take b).drop a)).length = b - a) :
    Returns (View E N) (sliceMutate E N ⟨a, b⟩ f c) () (l.take a ++ f ((l.take b).drop a) ++ l.drop b) := by
  obtain ⟨s, e, h3⟩ := (sliceMutate_ref hW (h.rep hW) h1 h2 f).of_ok (a := ()) (t := f ((l.take b).drop a)) (by
    unfold Spec.mutate Spec.part; dsimp only
    rw [if_pos]
    rw [hf]; simp; omega)
  exact ⟨s, e, (show Rep N s (l.take a ++ f ((l.take b).drop a) ++ l.drop b) from h3).view hW⟩

/-- C38. `to_owned` of a slice makes a new buffer with clones of exactly its items. -/
theorem C38_to_owned (hN : 0 < N) (hW : 2 * N < E.W) (h : View E N c l) (lo hi : Bound) (cuts : List Cut) (log cs : List A)
    (hr : Bound.regular E lo hi = true) (hr' : Cut.regular E cuts = true) {a b : Nat}
    (hw : Spec.window lo hi cuts l.length = some (a, b)) (hc : ((l.take b).drop a).map cl = cs.map some) :
    ∃ d s, (do sliceToOwned E N dp cl (← M.onFst (sliceVia E lo hi cuts)) : M (Ring A × List A) (Ring A)) (c, log) = .ok d s ∧
      View E N d cs ∧ View E N s.1 l ∧ s.2 = log := by
  have hb := bornOf_all hc
  have hlen : cs.length = ((l.take b).drop a).length := by have := congrArg List.length hc; simpa using this.symm
  obtain ⟨d, s, e, h1, h2, h3⟩ := (toOwned_ref (E := E) hN hW dp cl (h.rep hW) log lo hi cuts hr hr').of_ok
    (b := cs) (t := (l, log)) (by
      simp only [Spec.cloneWithin, hw, Spec.part, hb]; rw [if_pos hlen])
  exact ⟨d, s, e, h1.view hW, h2.view hW, h3⟩

/-- A full, wrapped buffer of capacity 3. -/
def full : Ring Nat := { origin := 2, length := 3, mem := ((Mem.uninit.put 2 10).put 0 20).put 1 30 }

/-- C38 is not vacuous: `full` shows `[10, 20, 30]`; the window `1..` and its right half from 1. -/
example : View dbg64 3 full [10, 20, 30] ∧ View rel64 3 full [10, 20, 30] ∧
    Spec.window (.included 1) .unbounded [.right 1] 3 = some (2, 3) ∧
    sliceVia dbg64 (.included 1) .unbounded [.right 1] full = .ok ⟨2, 3⟩ full ∧
    sliceItems dbg64 3 ⟨2, 3⟩ full = .ok [30] full ∧ Bound.regular dbg64 (.included 1) .unbounded = true :=
  ⟨⟨rfl, by decide, by decide⟩, ⟨rfl, by decide, by decide⟩, rfl, rfl, rfl, rfl⟩

/-- C38. `Slice::from(&buffer)` (and `SliceMut::from`) shows the whole buffer. -/
theorem C38_whole (hW : 2 * N < E.W) (h : View E N c l) (i : Nat) :
    (do sliceItems E N (← sliceAll)) c = .ok l c ∧ (do sliceLen E (← sliceAll)) c = .ok l.length c ∧
    (do sliceGet E N (← sliceAll) i) c = .ok l[i]? c := by
  have e : sliceAll c = .ok ⟨0, l.length⟩ c := by simp [sliceAll, getLen_eq (h.rep hW)]
  obtain ⟨e1, e2, e3⟩ := C38_reads hW h (Nat.zero_le _) (Nat.le_refl l.length) i
  simp only [List.take_length, List.drop_zero, Nat.sub_zero] at e1 e2 e3
  exact ⟨by simp [e, e2], by simp [e, e1], by simp [e, e3]⟩

/-! ### C39: false of the code -/

/-- C39 fails: indexing a slice checks the index against the buffer, not against the slice, so an out-of-range index reads (and
`IndexMut` writes) items outside the slice, in every build; in particular the left half of `split_at` reaches the right half.
In release builds an index near `usize::MAX` wraps around and reaches items before the slice. -/
theorem C39_index_outside_counterexample :
    View dbg64 3 full [10, 20, 30] ∧
    sliceVia dbg64 .unbounded .unbounded [.left 1] full = .ok ⟨0, 1⟩ full ∧ sliceLen dbg64 ⟨0, 1⟩ full = .ok 1 full ∧
    sliceIndex dbg64 3 ⟨0, 1⟩ 1 full = .ok 20 full ∧
    (∃ s, sliceSetIndex dbg64 3 ⟨0, 1⟩ 2 99 full = .ok 30 s ∧ items dbg64 3 s = .ok [10, 20, 99] s) ∧
    sliceIndex rel64 3 ⟨1, 2⟩ (2 ^ 64 - 1) full = .ok 10 full :=
  ⟨⟨rfl, by decide, by decide⟩, rfl, rfl, rfl, ⟨_, rfl, rfl⟩, rfl⟩

/-- C39, exactly what holds: indexing a slice that starts at `a` is indexing the buffer at `a + i` (wrapped to `usize` in release
builds; in debug builds an overflow panics). So an index whose position lies outside the buffer panics and changes nothing, and no
index reads or replaces anything but the one item of the buffer at that position. -/
theorem C39_index_partial (hW : 2 * N < E.W) (h : View E N c l) {a b : Nat} (i : Nat) (v : A) :
    (E.W ≤ a + i ∧ E.debug = true ∨ l.length ≤ (a + i) % E.W →
      (∃ s, sliceIndex E N ⟨a, b⟩ i c = .panic s ∧ View E N s l) ∧ (∃ s, sliceSetIndex E N ⟨a, b⟩ i v c = .panic s ∧ View E N s l)) ∧
    (∀ x, ¬ (E.W ≤ a + i ∧ E.debug = true) → l[(a + i) % E.W]? = some x →
      Returns (View E N) (sliceIndex E N ⟨a, b⟩ i c) x l ∧
      Returns (View E N) (sliceSetIndex E N ⟨a, b⟩ i v c) x (l.set ((a + i) % E.W) v)) := by
  have hr := h.rep hW
  by_cases hp : E.W ≤ a + i ∧ E.debug = true
  · have hu : ∀ s : Ring A, uadd E a i s = .panic s := by
      intro s; unfold uadd; rw [if_neg (by omega), if_pos hp.2]; rfl
    exact ⟨fun _ => ⟨⟨c, by simp [sliceIndex, hu], h⟩, ⟨c, by simp [sliceSetIndex_def, hu], h⟩⟩, fun x hn => absurd hp hn⟩
  · have hu : ∀ s : Ring A, uadd E a i s = .ok ((a + i) % E.W) s := by
      intro s; unfold uadd
      by_cases hov : a + i < E.W
      · rw [if_pos hov, Nat.mod_eq_of_lt hov]; rfl
      · rw [if_neg hov, if_neg (by intro hd; exact hp ⟨by omega, hd⟩)]; rfl
    generalize (a + i) % E.W = j at *
    have e1 : sliceIndex E N ⟨a, b⟩ i c = index E N j c := by simp [sliceIndex, hu]
    have e2 : sliceSetIndex E N ⟨a, b⟩ i v c = setIndex E N j v c := by simp [sliceSetIndex_def, hu]
    rw [e1, e2]
    constructor
    · rintro (hq | hq)
      · exact absurd hq hp
      · exact ⟨(Ref.view hW (index_ref hW hr j)).of_panic (by unfold Spec.index; rw [List.getElem?_eq_none hq]),
          (Ref.view hW (setIndex_ref hW hr j v)).of_panic (by unfold Spec.set; rw [List.getElem?_eq_none hq])⟩
    · intro x _ hx
      exact ⟨(Ref.view hW (index_ref hW hr j)).of_ok (by unfold Spec.index; rw [hx]),
        (Ref.view hW (setIndex_ref hW hr j v)).of_ok (by unfold Spec.set; rw [hx])⟩

/-- C39 (exact) is not vacuous: a position outside the buffer, and one that wraps around to the first item in a release build. -/
example : (sliceIndex dbg64 3 ⟨1, 2⟩ 2 full).isPanic = true ∧ sliceIndex rel64 3 ⟨1, 2⟩ (2 ^ 64 - 1) full = .ok 10 full ∧
    (sliceIndex dbg64 3 ⟨1, 2⟩ (2 ^ 64 - 1) full).isPanic = true := ⟨rfl, rfl, rfl⟩

/-! ### C40: false of the code in release builds -/

/-- C40 fails in release builds: `..=usize::MAX` is accepted and gives an empty slice, for the buffer and for sub-slices. -/
theorem C40_inclusive_max_counterexample :
    View rel64 3 full [10, 20, 30] ∧
    slice rel64 .unbounded (.included (2 ^ 64 - 1)) full = .ok ⟨0, 0⟩ full ∧
    subSlice rel64 ⟨1, 3⟩ .unbounded (.included (2 ^ 64 - 1)) full = .ok ⟨1, 1⟩ full :=
  ⟨⟨rfl, by decide, by decide⟩, rfl, rfl⟩

/-- C40, the part that holds: in debug builds for every bound, in release builds for every bound but `usize::MAX`, a slice
`lo..=b` with `b >= len` panics and changes nothing. -/
theorem C40_rejects_partial (hW : 2 * N < E.W) (h : View E N c l) (lo : Bound) (b : Nat) (hlo : lo.usize E = true) (hb : b < E.W)
    (hm : E.debug = true ∨ b ≠ E.W - 1) (hl : l.length ≤ b) : slice E lo (.included b) c = .panic c := by
  have hr : Bound.regular E lo (.included b) = true := by
    unfold Bound.regular
    rw [hlo]
    have hb' : Bound.usize E (.included b) = true := by simp [Bound.usize, hb]
    rw [hb']
    rcases hm with hm | hm <;> simp [hm]
  have key : Sat (slice E lo (.included b) c) (fun _ _ => False) (fun s => s = c) False := by
    refine sat_slice hW (h.rep hW) lo _ hr ?_ (fun _ => rfl)
    intro x y e
    have := (span_some e).2
    unfold Spec.span Spec.span.upTo at e
    cases lo <;> dsimp only at e <;> first | (cases e; done) | (split at e <;> first | (cases e; done) | (cases e; dsimp only at this; omega))
  cases hx : slice E lo (.included b) c <;> rw [hx] at key <;> simp only [Sat] at key
  rw [key]

/-- C40, in release builds too: whatever the bounds (also `..=usize::MAX`), a slice that is granted lies inside the buffer. -/
theorem C40_granted_slice_is_inside (h : View E N c l) (hW : 2 * N < E.W) (lo hi : Bound) {s : Span} {c' : Ring A}
    (e : slice E lo hi c = .ok s c') : s.start ≤ s.stop ∧ s.stop ≤ l.length ∧ c' = c := by
  have hlen := (h.rep hW).len
  have key : ∀ start stop, Sat ((do
      M.panicIf (stop > (← getLen) ∨ start > stop)
      return (⟨start, stop⟩ : Span) : M (Ring A) Span) c) (fun r s => r.start ≤ r.stop ∧ r.stop ≤ l.length ∧ s = c) (fun _ => True) True := by
    intro start stop
    vc
    rw [← hlen]; refine ⟨?_, ?_, rfl⟩ <;> (try dsimp only) <;> omega
  have : Sat (slice E lo hi c) (fun r s => r.start ≤ r.stop ∧ r.stop ≤ l.length ∧ s = c) (fun _ => True) True := by
    have k2 : ∀ start, Sat ((do
        let stop ← parseStop E hi
        M.panicIf (stop > (← getLen) ∨ start > stop)
        return (⟨start, stop⟩ : Span) : M (Ring A) Span) c) (fun r s => r.start ≤ r.stop ∧ r.stop ≤ l.length ∧ s = c) (fun _ => True) True := by
      intro start
      apply Sat.bind
      unfold parseStop
      cases hi with
      | unbounded => exact key _ _
      | excluded i => exact key _ _
      | included i =>
        dsimp only
        unfold uadd
        split
        · exact key _ _
        · split
          · trivial
          · exact key _ _
    unfold slice
    cases lo with
    | unbounded => exact k2 0
    | included i => exact k2 i
    | excluded i => trivial
  rw [e] at this
  exact this

/-- C40, in release builds too: whatever the bounds and however the slice is narrowed further, a slice that is granted lies inside the
one it was taken from, and so inside the buffer. -/
theorem C40_narrowed_slice_is_inside (h : View E N c l) (hW : 2 * N < E.W) (lo hi : Bound) (cuts : List Cut) {s : Span} {c' : Ring A}
    (e : sliceVia E lo hi cuts c = .ok s c') : s.start ≤ s.stop ∧ s.stop ≤ l.length := by
  have hle := (h.rep hW).le
  have key : ∀ (cuts : List Cut) (p : Span), p.start ≤ p.stop → p.stop ≤ l.length →
      Sat (narrow E cuts p c) (fun r s => r.start ≤ r.stop ∧ r.stop ≤ l.length ∧ s = c) (fun _ => True) True := by
    intro cuts
    induction cuts with
    | nil => intro p h1 h2; exact ⟨h1, h2, rfl⟩
    | cons k r ih =>
      intro p h1 h2
      cases k with
      | sub a b =>
        simp only [narrow]
        apply Sat.bind
        have : Sat (subSlice E p a b c) (fun q s => q.start ≤ q.stop ∧ q.stop ≤ p.stop ∧ s = c) (fun _ => True) True := by
          have k2 : ∀ start stop, Sat ((do
              M.panicIf (start < p.start ∨ stop > p.stop ∨ start > stop)
              return (⟨start, stop⟩ : Span) : M (Ring A) Span) c) (fun q s => q.start ≤ q.stop ∧ q.stop ≤ p.stop ∧ s = c) (fun _ => True) True := by
            intro start stop
            vc
            refine ⟨?_, ?_, rfl⟩ <;> (try dsimp only) <;> omega
          have hu : ∀ x y (Q : Nat → Ring A → Prop), (∀ z, Q z c) → Sat (uadd E x y c) Q (fun _ => True) True := by
            intro x y Q hf
            unfold uadd
            split
            · exact hf _
            · split
              · trivial
              · exact hf _
          have k3 : ∀ start, Sat ((do
              let stop ← subStop E p b
              M.panicIf (start < p.start ∨ stop > p.stop ∨ start > stop)
              return (⟨start, stop⟩ : Span) : M (Ring A) Span) c) (fun q s => q.start ≤ q.stop ∧ q.stop ≤ p.stop ∧ s = c) (fun _ => True) True := by
            intro start
            cases b with
            | unbounded => exact k2 start _
            | included i => exact Sat.bind (Sat.bind (hu _ _ _ fun z => hu _ _ _ fun z' => k2 start z'))
            | excluded i => exact Sat.bind (hu _ _ _ fun z => k2 start z)
          unfold subSlice
          cases a with
          | unbounded => exact k3 _
          | included i => exact Sat.bind (hu _ _ _ fun z => k3 z)
          | excluded i => trivial
        refine Sat.imp this ?_ (fun _ h => h) id
        rintro q s ⟨q1, q2, rfl⟩
        exact ih q q1 (by omega)
      | left i =>
        simp only [narrow, splitAt, sliceLen]
        vc
        exact ih _ (by dsimp only; omega) (by dsimp only; omega)
      | right i =>
        simp only [narrow, splitAt, sliceLen]
        vc
        exact ih _ (by dsimp only; omega) (by dsimp only; omega)
  simp only [sliceVia, M.bind_run] at e
  cases hx : slice E lo hi c with
  | ok p c1 =>
    have hin := C40_granted_slice_is_inside h hW lo hi hx
    obtain ⟨h1, h2, rfl⟩ := hin
    have := key cuts p h1 h2
    rw [hx] at e
    simp only [Out.andThen] at e
    rw [e] at this
    exact ⟨this.1, this.2.1⟩
  | _ => rw [hx] at e; simp [Out.andThen] at e

/-- C40, exactly what goes wrong: in release builds `lo..=usize::MAX` grants the empty slice at the start when `lo` is the start, and panics
otherwise, for the buffer and for every slice of it. -/
theorem C40_inclusive_max_partial (hW : 2 * N < E.W) (h : View E N c l) (hd : E.debug = false) (lo : Bound) (hlo : lo.usize E = true) {p : Span}
    (hp : p.start ≤ p.stop) (hp' : p.stop ≤ l.length) :
    (lo = .unbounded ∨ lo = .included 0 → slice E lo (.included (E.W - 1)) c = .ok ⟨0, 0⟩ c ∧
      subSlice E p lo (.included (E.W - 1)) c = .ok ⟨p.start, p.start⟩ c) ∧
    (lo ≠ .unbounded → lo ≠ .included 0 → slice E lo (.included (E.W - 1)) c = .panic c ∧
      subSlice E p lo (.included (E.W - 1)) c = .panic c) := by
  have hr := h.rep hW
  have hle := hr.le
  have hlen := hr.len
  have u2 : ∀ s : Ring A, uadd E (E.W - 1) 1 s = .ok 0 s := by
    intro s; unfold uadd; rw [if_neg (by omega), if_neg (by simp [hd]), show E.W - 1 + 1 = E.W by omega, Nat.mod_self]; rfl
  have u3 : ∀ s : Ring A, (uadd E p.start (E.W - 1) s).andThen (fun z s => uadd E z 1 s) = .ok p.start s := by
    intro s
    by_cases h0 : p.start = 0
    · rw [h0, uadd_ok (by omega)]; simpa using u2 s
    · have e : uadd E p.start (E.W - 1) s = .ok (p.start - 1) s := by
        unfold uadd
        rw [if_neg (by omega), if_neg (by simp [hd]), show p.start + (E.W - 1) = (p.start - 1) + E.W by omega, Nat.add_mod_right,
          Nat.mod_eq_of_lt (by omega)]; rfl
      rw [e]; simp only [Out.andThen_ok]
      rw [uadd_ok (by omega), show p.start - 1 + 1 = p.start by omega]
  cases lo with
  | unbounded =>
    refine ⟨fun _ => ⟨?_, ?_⟩, fun hn => absurd rfl hn⟩
    · simp [slice, parseStart, parseStop, u2, getLen]
    · simp [subSlice, subStart, subStop, u3, if_neg (show ¬ p.stop < p.start by omega)]
  | included i =>
    have hi : i < E.W := by simpa [Bound.usize] using hlo
    constructor
    · rintro (hq | hq)
      · cases hq
      · cases hq
        constructor
        · simp [slice, parseStart, parseStop, u2, getLen]
        · have e : ∀ s : Ring A, uadd E p.start 0 s = .ok p.start s := uadd_ok (by omega)
          simp [subSlice, subStart, subStop, e, u3, if_neg (show ¬ p.stop < p.start by omega)]
    · intro _ hn
      have h0 : 0 < i := by
        rcases Nat.eq_zero_or_pos i with h0 | h0
        · subst h0; exact absurd rfl hn
        · exact h0
      constructor
      · simp [slice, parseStart, parseStop, u2, getLen, h0]
      · have e : ∃ z, (∀ s : Ring A, uadd E p.start i s = .ok z s) ∧ (z < p.start ∨ p.start < z) := by
          by_cases hv : p.start + i < E.W
          · exact ⟨_, uadd_ok hv, by omega⟩
          · refine ⟨(p.start + i) % E.W, fun s => ?_, ?_⟩
            · unfold uadd; rw [if_neg hv, if_neg (by simp [hd])]; rfl
            · rw [Nat.mod_eq_sub_mod (by omega), Nat.mod_eq_of_lt (by omega)]; omega
        obtain ⟨z, e, hz⟩ := e
        simp [subSlice, subStart, subStop, e, u3, if_pos (show z < p.start ∨ p.stop < p.start ∨ p.start < z by omega)]
  | excluded i =>
    refine ⟨fun hq => (by rcases hq with hq | hq <;> cases hq), fun _ _ => ⟨?_, ?_⟩⟩
    · simp [slice, parseStart]
    · simp [subSlice, subStart]

/-! ### C41: false of the code in debug builds -/

/-- C41 fails in debug builds: a write that has to wrap around the end of the storage panics, although the buffer has room. -/
theorem C41_debug_write_counterexample :
    View dbg64 3 (⟨2, 1, Mem.uninit.put 2 10⟩ : Ring Nat) [10] ∧
      (∃ s, write dbg64 3 [1, 2] ⟨2, 1, Mem.uninit.put 2 10⟩ = .ok 2 s ∧ items dbg64 3 s = .ok [10, 1, 2] s) ∧
    View dbg64 3 (⟨1, 1, Mem.uninit.put 1 10⟩ : Ring Nat) [10] ∧
      (write dbg64 3 [1, 2] ⟨1, 1, Mem.uninit.put 1 10⟩).isPanic = true :=
  ⟨⟨rfl, by decide, by decide⟩, ⟨_, rfl, rfl⟩, ⟨rfl, by decide, by decide⟩, rfl⟩

/-- C41, the part that holds in release builds: the leading `min(buf.len(), free)` bytes are stored and counted. -/
theorem C41_write_partial (hW : 2 * N < E.W) (hd : E.debug = false) (h : View E N c l) (buf : List A) :
    Returns (View E N) (write E N buf c) (min buf.length (N - l.length)) (l ++ buf.take (N - l.length)) :=
  (Ref.view hW (write_ref hW hd buf (h.rep hW))).of_ok rfl

/-- C41, exactly what holds in every build: a write panics only in debug builds and only when the bytes would wrap around the end of
the storage, and then without changing the buffer; in every other case it stores the leading bytes that fit and counts them. -/
theorem C41_write_or_panic_partial (hW : 2 * N < E.W) (h : View E N c l) (buf : List A) :
    let wraps := E.debug = true ∧ N < (c.origin + l.length) % N + min buf.length (N - l.length)
    (¬ wraps → Returns (View E N) (write E N buf c) (min buf.length (N - l.length)) (l ++ buf.take (N - l.length))) ∧
    (wraps → write E N buf c = .panic c) := by
  have hr := h.rep hW
  have key := write_sat hW buf hr
  have e : ridx N c.origin l.length = (c.origin + l.length) % N := by
    have := hr.org
    have := hr.le
    unfold ridx
    split
    · rw [Nat.mod_eq_of_lt (by omega)]
    · rw [Nat.mod_eq_sub_mod (by omega), Nat.mod_eq_of_lt (by omega)]
  rw [e] at key
  dsimp only
  cases hx : write E N buf c <;> rw [hx] at key <;> simp only [Sat] at key
  · obtain ⟨rfl, h1, h2, _⟩ := key
    exact ⟨fun _ => ⟨_, rfl, h1.view hW⟩, fun hw => absurd (h2 hw.1) (by omega)⟩
  · obtain ⟨rfl, h1, h2⟩ := key
    exact ⟨fun hn => absurd ⟨h1, h2⟩ hn, fun _ => rfl⟩

/-- Writes one after the other: how many bytes each accepted. -/
def writes (E : Env) (N : Nat) : List (List A) → M (Ring A) (List Nat)
  | [] => pure []
  | b :: r => do
    let n ← write E N b
    return n :: (← writes E N r)

/-- C41, a part that holds in every build: in a buffer that starts out empty and fresh, any number of writes succeed, storing the
leading bytes of all the data, as much as fits. -/
theorem C41_fresh_writes_partial (hN : 0 < N) (hW : 2 * N < E.W) (bufs : List (List A)) :
    ∃ c0 ns s, (new E N : M Unit (Ring A)) () = .ok c0 () ∧ writes E N bufs c0 = .ok ns s ∧ View E N s (bufs.flatten.take N) := by
  have hnew : (new E N : M Unit (Ring A)) () = .ok ⟨0, 0, Mem.uninit⟩ () := by
    simp [new, rawFrom, M.debugAssert, M.assert, hN]
  have key : ∀ (bufs : List (List A)) (c : Ring A) (l : List A), c.origin = 0 → View E N c l →
      ∃ ns s, writes E N bufs c = .ok ns s ∧ View E N s ((l ++ bufs.flatten).take N) := by
    intro bufs
    induction bufs with
    | nil =>
      intro c l _ h
      have := (h.rep hW).le
      exact ⟨[], c, rfl, by rw [List.take_of_length_le (by simp; omega)]; simpa using h⟩
    | cons b r ih =>
      intro c l h0 h
      have hr := h.rep hW
      have hle := hr.le
      have key := write_sat hW b hr
      have e : ridx N c.origin l.length + min b.length (N - l.length) ≤ N := by
        unfold ridx; rw [h0]; split <;> omega
      cases hx : write E N b c <;> rw [hx] at key <;> simp only [Sat] at key
      · obtain ⟨rfl, h1, _, h3⟩ := key
        obtain ⟨ns, s, e1, h2⟩ := ih _ _ (h3.trans h0) (h1.view hW)
        refine ⟨_ :: ns, s, by simp [writes, hx, e1]; rfl, ?_⟩
        have : ((l ++ b.take (N - l.length)) ++ r.flatten).take N = (l ++ (b :: r).flatten).take N := by
          simp only [List.flatten_cons, List.append_assoc, List.take_append, List.take_take, List.length_take]
          congr 2
          · congr 1; omega
          · by_cases hb : b.length ≤ N - l.length
            · rw [Nat.min_eq_right hb]
            · have z1 : N - l.length - min (N - l.length) b.length = 0 := by omega
              have z2 : N - l.length - b.length = 0 := by omega
              rw [z1, z2]
        rw [← this]; exact h2
      · omega
  obtain ⟨ns, s, e1, h1⟩ := key bufs ⟨0, 0, Mem.uninit⟩ [] rfl ((Rep.empty hN).view hW)
  exact ⟨_, ns, s, hnew, e1, by simpa using h1⟩

/-- C41 (fresh writes) is not vacuous: three writes, the last one cut short, in a debug build. -/
example : ∃ s, writes dbg64 4 [[1], [2, 3], [4, 5]] (⟨0, 0, Mem.uninit⟩ : Ring Nat) = .ok [1, 2, 1] s := ⟨_, rfl⟩

/-! ### C42 -/

/-- C42. `read` returns and removes the oldest `min(buf.len(), len)` bytes, in order; it never panics. -/
theorem C42_read (hW : 2 * N < E.W) (h : View E N c l) (n : Nat) :
    Returns (View E N) (read E N n c) (min n l.length, l.take n) (l.drop n) :=
  (Ref.view hW (read_ref hW n (h.rep hW))).of_ok rfl

/-- Bytes written and read, in order, over a sequence of io calls: `inl buf` writes `buf`, `inr n` reads up to `n`. -/
def ioRun (E : Env) (N : Nat) : List (List A ⊕ Nat) → M (Ring A) (List A × List A)
  | [] => pure ([], [])
  | .inl buf :: r => do
    let n ← write E N buf
    let p ← ioRun E N r
    return (buf.take n ++ p.1, p.2)
  | .inr n :: r => do
    let x ← read E N n
    let p ← ioRun E N r
    return (p.1, x.2 ++ p.2)

/-- C42. In release builds, over any sequence of writes and reads the buffer is a FIFO pipe: old contents followed by the
accepted bytes equals the bytes read followed by what is still inside. -/
theorem C42_pipe (hW : 2 * N < E.W) (hd : E.debug = false) (h : View E N c l) (ops : List (List A ⊕ Nat)) :
    ∃ accepted got c' rest, ioRun E N ops c = .ok (accepted, got) c' ∧ View E N c' rest ∧ l ++ accepted = got ++ rest := by
  induction ops generalizing c l with
  | nil => exact ⟨[], [], c, l, rfl, h, by simp⟩
  | cons op r ih =>
    cases op with
    | inl buf =>
      obtain ⟨s, e, h1⟩ := C41_write_partial hW hd h buf
      obtain ⟨acc, got, c', rest, e', h2, h3⟩ := ih h1
      refine ⟨buf.take (min buf.length (N - l.length)) ++ acc, got, c', rest, (by simp only [ioRun, M.bind_run, e, Out.andThen_ok, e', M.pure_run]), h2, ?_⟩
      rw [← h3]
      have : buf.take (min buf.length (N - l.length)) = buf.take (N - l.length) := by
        rw [List.take_eq_take_iff]; omega
      simp [this]
    | inr n =>
      obtain ⟨s, e, h1⟩ := C42_read hW h n
      obtain ⟨acc, got, c', rest, e', h2, h3⟩ := ih h1
      refine ⟨acc, l.take n ++ got, c', rest, (by simp only [ioRun, M.bind_run, e, Out.andThen_ok, e', M.pure_run]), h2, ?_⟩
      rw [List.append_assoc, ← h3, ← List.append_assoc, List.take_append_drop]

/-- C41, C42 are not vacuous. -/
example : (ioRun rel64 3 [.inl [1, 2, 3], .inr 2, .inl [4, 5], .inr 9] seam).seen = some ([1, 4, 5], [10, 20, 1, 4, 5]) := by
  decide +kernel

/-! ### C43 -/

/-- C43. Comparing a buffer with anything that borrows as `[A]` says whether the contents are elementwise equal. -/
theorem C43_eq_primitive_slice (hW : 2 * N < E.W) (h : View E N c l) (eq : A → A → Bool) (k : List A) :
    ∃ b, eqPrim E N eq k c = .ok b c ∧ (b = true ↔ l.length = k.length ∧
      ∀ (i : Nat) x y, l[i]? = some x → k[i]? = some y → eq x y = true) := by
  have hl := getLen_eq (h.rep hW)
  refine ⟨_, by simp [eqPrim, h.1, hl]; rfl, ?_⟩
  rw [Bool.and_eq_true, decide_eq_true_eq, seqEq_iff]
  exact ⟨fun h => h.2, fun h => ⟨h.1, h⟩⟩

/-- C43. Comparing a slice with anything that borrows as `[A]` says whether the items shown are elementwise equal to it. -/
theorem C43_slice_eq_primitive_slice (hW : 2 * N < E.W) (h : View E N c l) {a b : Nat} (h1 : a ≤ b) (h2 : b ≤ l.length)
    (eq : A → A → Bool) (k : List A) :
    ∃ r, sliceEqPrim E N eq ⟨a, b⟩ k c = .ok r c ∧ (r = true ↔ b - a = k.length ∧
      ∀ (i : Nat) x y, l[a + i]? = some x → k[i]? = some y → eq x y = true) := by
  obtain ⟨e1, e2, _⟩ := C38_reads hW h h1 h2 0
  refine ⟨_, by simp [sliceEqPrim, e1, e2]; rfl, ?_⟩
  have hlen : ((l.take b).drop a).length = b - a := by simp; omega
  rw [Bool.and_eq_true, decide_eq_true_eq, seqEq_iff, hlen]
  constructor
  · rintro ⟨h3, _, h4⟩
    refine ⟨h3, fun i x y hx hy => h4 i x y ?_ hy⟩
    have := (List.getElem?_eq_some_iff.1 hy).1
    rw [List.getElem?_drop, List.getElem?_take, if_pos (by omega), hx]
  · rintro ⟨h3, h4⟩
    refine ⟨h3, h3, fun i x y hx hy => h4 i x y ?_ hy⟩
    have := (List.getElem?_eq_some_iff.1 hy).1
    rwa [List.getElem?_drop, List.getElem?_take, if_pos (by omega)] at hx

/-- C43. Two buffers are equal iff their contents are, wherever their origins are. -/
theorem C43_eq_ring [DecidableEq A] (hW : 2 * N < E.W) (h : View E N c l) (h' : View E N d k) :
    eqRing E N (fun a b => decide (a = b)) (c, d) = .ok (decide (l = k)) (c, d) := by
  have hl := getLen_eq (h.rep hW)
  have hl' := getLen_eq (h'.rep hW)
  simp only [eqRing, M.bind_run, M.onFst_run, M.onSnd_run, h.1, h'.1, hl, hl', Out.mapState_ok, Out.andThen_ok, M.pure_run]
  congr 1
  rw [Bool.eq_iff_iff, Bool.and_eq_true, seqEq_eq]
  simp only [decide_eq_true_eq, and_iff_right_iff_imp]
  rintro rfl; rfl

/-- C43. Comparing a buffer with a slice of another, or two slices, says whether the shown items are equal. -/
theorem C43_eq_slices [DecidableEq A] (hW : 2 * N < E.W) (h : View E N c l) (h' : View E N d k) {a b a' b' : Nat}
    (h1 : a ≤ b) (h2 : b ≤ l.length) (h3 : a' ≤ b') (h4 : b' ≤ k.length) :
    eqSlice E N (fun a b => decide (a = b)) ⟨a', b'⟩ (c, d) = .ok (decide (l = (k.take b').drop a')) (c, d) ∧
    eqSlices E N (fun a b => decide (a = b)) ⟨a, b⟩ ⟨a', b'⟩ (c, d) = .ok (decide ((l.take b).drop a = (k.take b').drop a')) (c, d) := by
  have hl := getLen_eq (h.rep hW)
  obtain ⟨e1, e2, _⟩ := C38_reads hW h h1 h2 0
  obtain ⟨e3, e4, _⟩ := C38_reads hW h' h3 h4 0
  constructor
  · simp only [eqSlice, M.bind_run, M.onFst_run, M.onSnd_run, h.1, hl, e3, e4, Out.mapState_ok, Out.andThen_ok, M.pure_run]
    congr 1
    rw [Bool.eq_iff_iff, Bool.and_eq_true, seqEq_eq]
    simp only [decide_eq_true_eq, and_iff_right_iff_imp]
    intro e
    have := congrArg List.length e
    simp at this; omega
  · simp only [eqSlices, M.bind_run, M.onFst_run, M.onSnd_run, e1, e2, e3, e4, Out.mapState_ok, Out.andThen_ok, M.pure_run]
    congr 1
    rw [Bool.eq_iff_iff, Bool.and_eq_true, seqEq_eq]
    simp only [decide_eq_true_eq, and_iff_right_iff_imp]
    intro e
    have := congrArg List.length e
    simp at this; omega

/-- C43, with whatever `==` the items have (also one that is not an equivalence). -/
theorem C43_eq_by (hW : 2 * N < E.W) (h : View E N c l) (h' : View E N d k) (eq : A → A → Bool) :
    ∃ b, eqRing E N eq (c, d) = .ok b (c, d) ∧
      (b = true ↔ l.length = k.length ∧ ∀ (i : Nat) x y, l[i]? = some x → k[i]? = some y → eq x y = true) := by
  have hl := getLen_eq (h.rep hW)
  have hl' := getLen_eq (h'.rep hW)
  refine ⟨decide (l.length = k.length) && seqEq eq l k, by simp only [eqRing, M.bind_run, M.onFst_run, M.onSnd_run, h.1, h'.1, hl, hl', Out.mapState_ok, Out.andThen_ok, M.pure_run], ?_⟩
  rw [Bool.and_eq_true, decide_eq_true_eq, seqEq_iff]
  exact ⟨fun h => h.2, fun h => ⟨h.1, h⟩⟩

/-- C43, the same for slices. -/
theorem C43_eq_slices_by (hW : 2 * N < E.W) (h : View E N c l) (h' : View E N d k) {a b a' b' : Nat}
    (h1 : a ≤ b) (h2 : b ≤ l.length) (h3 : a' ≤ b') (h4 : b' ≤ k.length) (eq : A → A → Bool) :
    (∃ r, eqSlice E N eq ⟨a', b'⟩ (c, d) = .ok r (c, d) ∧
      (r = true ↔ l.length = b' - a' ∧ ∀ (i : Nat) x y, l[i]? = some x → ((k.take b').drop a')[i]? = some y → eq x y = true)) ∧
    (∃ r, eqSlices E N eq ⟨a, b⟩ ⟨a', b'⟩ (c, d) = .ok r (c, d) ∧
      (r = true ↔ b - a = b' - a' ∧ ∀ (i : Nat) x y, ((l.take b).drop a)[i]? = some x → ((k.take b').drop a')[i]? = some y → eq x y = true)) := by
  have hl := getLen_eq (h.rep hW)
  obtain ⟨e1, e2, _⟩ := C38_reads hW h h1 h2 0
  obtain ⟨e3, e4, _⟩ := C38_reads hW h' h3 h4 0
  have n1 : ((l.take b).drop a).length = b - a := by simp; omega
  have n2 : ((k.take b').drop a').length = b' - a' := by simp; omega
  constructor
  · refine ⟨decide (l.length = b' - a') && seqEq eq l ((k.take b').drop a'), by simp only [eqSlice, M.bind_run, M.onFst_run, M.onSnd_run, h.1, hl, e3, e4, Out.mapState_ok, Out.andThen_ok, M.pure_run], ?_⟩
    rw [Bool.and_eq_true, decide_eq_true_eq, seqEq_iff, n2]
    exact ⟨fun h => h.2, fun h => ⟨h.1, h⟩⟩
  · refine ⟨decide (b - a = b' - a') && seqEq eq ((l.take b).drop a) ((k.take b').drop a'), by simp only [eqSlices, M.bind_run, M.onFst_run, M.onSnd_run, e1, e2, e3, e4, Out.mapState_ok, Out.andThen_ok, M.pure_run], ?_⟩
    rw [Bool.and_eq_true, decide_eq_true_eq, seqEq_iff, n1, n2]
    exact ⟨fun h => h.2, fun h => ⟨h.1, h⟩⟩

/-- C43. `cmp` orders buffers lexicographically by contents. -/
theorem C43_cmp (h : View E N c l) (h' : View E N d k) (f : A → A → Ordering) (hf : ∀ a b, f b a = (f a b).swap) :
    ∃ o, cmp E N f (c, d) = .ok o (c, d) ∧
      (o = .eq ↔ l.length = k.length ∧ ∀ (i : Nat) x y, l[i]? = some x → k[i]? = some y → f x y = .eq) ∧
      (o = .lt ↔ LexBefore f l k) ∧ (o = .gt ↔ LexBefore f k l) := by
  refine ⟨seqCmp f l k, by simp [cmp, h.1, h'.1], seqCmp_eq_iff f l k, seqCmp_lt_iff f l k, ?_⟩
  rw [← seqCmp_lt_iff, seqCmp_swap f hf l k]
  cases seqCmp f l k <;> simp
/-- C43. `cmp` orders slices lexicographically by the items they show. -/
theorem C43_slice_cmp (hW : 2 * N < E.W) (h : View E N c l) (h' : View E N d k) {a b a' b' : Nat}
    (h1 : a ≤ b) (h2 : b ≤ l.length) (h3 : a' ≤ b') (h4 : b' ≤ k.length) (f : A → A → Ordering) (hf : ∀ a b, f b a = (f a b).swap) :
    ∃ o, sliceCmp E N f ⟨a, b⟩ ⟨a', b'⟩ (c, d) = .ok o (c, d) ∧
      (o = .lt ↔ LexBefore f ((l.take b).drop a) ((k.take b').drop a')) ∧
      (o = .gt ↔ LexBefore f ((k.take b').drop a') ((l.take b).drop a)) ∧
      slicePartialCmp E N (fun a b => some (f a b)) ⟨a, b⟩ ⟨a', b'⟩ (c, d) = .ok (some o) (c, d) := by
  obtain ⟨e1, e2, _⟩ := C38_reads hW h h1 h2 0
  obtain ⟨e3, e4, _⟩ := C38_reads hW h' h3 h4 0
  refine ⟨seqCmp f _ _, by simp [sliceCmp, e2, e4], seqCmp_lt_iff f _ _, ?_, by simp [slicePartialCmp, e2, e4, seqPartialCmp_total]⟩
  rw [← seqCmp_lt_iff, seqCmp_swap f hf ((l.take b).drop a)]
  cases seqCmp f _ _ <;> simp
/-- C43. `partial_cmp` agrees with `cmp` when the items are totally ordered. -/
theorem C43_partialCmp (h : View E N c l) (h' : View E N d k) (f : A → A → Ordering) :
    partialCmp E N (fun a b => some (f a b)) (c, d) = .ok (some (seqCmp f l k)) (c, d) ∧
    cmp E N f (c, d) = .ok (seqCmp f l k) (c, d) :=
  ⟨by simp [partialCmp, h.1, h'.1, seqPartialCmp_total], by simp [cmp, h.1, h'.1]⟩
/-- C43. The data fed to a hasher depends only on the contents: equal buffers hash equally, and a slice showing the same
items hashes like the buffer. -/
theorem C43_hash {H : Type} (hW : 2 * N < E.W) (hash' : A → List (Feed H)) (h : View E N c l) (h' : View E N d k) {a b : Nat}
    (h1 : a ≤ b) (h2 : b ≤ k.length) (e : (k.take b).drop a = l) :
    ∃ f, hash E N hash' c = .ok f c ∧ sliceHash E N hash' ⟨a, b⟩ d = .ok f d := by
  obtain ⟨_, e2, _⟩ := C38_reads hW h' h1 h2 0
  exact ⟨hashItems hash' l, by simp [hash, h.1], by simp [sliceHash, e2, e]⟩

/-- C43 is not vacuous: the same contents at two different origins. -/
example : View dbg64 3 seam [10, 20] ∧ View dbg64 3 (⟨0, 2, (Mem.uninit.put 0 10).put 1 20⟩ : Ring Nat) [10, 20] :=
  ⟨⟨rfl, by decide, by decide⟩, ⟨rfl, by decide, by decide⟩⟩

/-! ### C44: false of the code -/

/-- C44 fails: with capacity 0, in debug builds `new` panics (a debug assertion), and in release builds iterating, clearing or
dropping the buffer never ends (`while result >= N { result -= N }`). -/
theorem C44_zero_capacity_counterexample (hd : E.debug = true) {E' : Env} (hd' : E'.debug = false) (dp : A → Bool) (log : List A) :
    (new E 0 () : Out Unit (Ring A)) = .panic () ∧
    (∃ c : Ring A, new E' 0 () = .ok c () ∧ items E' 0 c = .diverge ∧ drop E' 0 dp (c, log) = .diverge ∧
      clear E' 0 dp (c, log) = .diverge) := by
  have hW : ∀ c : Ring A, c.origin = 0 → c.length = 0 → rawAdd E' 0 0 0 c = .diverge := by
    intro c _ _
    by_cases h : 0 < E'.W <;> simp [rawAdd, uadd, addLoop, usub, hd', h, M.diverge]
  refine ⟨by simp [new, rawFrom, M.debugAssert, hd], ⟨0, 0, Mem.uninit⟩, by simp [new, rawFrom, M.debugAssert, hd'], ?_, ?_, ?_⟩
  · simp [items, iter, getOrigin, getLen, hW]
  · simp [drop, range, getOrigin, getLen, hW]
  · simp [clear, range, getOrigin, getLen, hW]

/-- C44, the part that holds: in release builds a zero-capacity buffer can be created; it is empty and full, has no items, pops
nothing and refuses every push. -/
theorem C44_zero_capacity_partial (hd : E.debug = false) (v : A) (i : Nat) :
    ∃ c : Ring A, new E 0 () = .ok c () ∧ getLen c = .ok 0 c ∧ isEmpty c = .ok true c ∧ isFull 0 c = .ok true c ∧
      get E 0 i c = .ok none c ∧ popFront E 0 c = .ok none c ∧ popBack E 0 c = .ok none c ∧
      pushBack E 0 v c = .panic c ∧ pushFront E 0 v c = .panic c ∧ index E 0 i c = .panic c ∧ insert E 0 i v c = .panic c := by
  refine ⟨⟨0, 0, Mem.uninit⟩, by simp [new, rawFrom, M.debugAssert, hd], rfl, rfl, rfl, ?_, rfl, rfl, rfl, rfl, ?_, ?_⟩
  · simp [get, getLen]
  · simp [index, getLen, M.panicIf]
  · simp [insert, isFull, getLen, M.panicIf]

/-! ### C45 -/

theorem addLoop_mod (hN : 0 < N) (s : σ) (f r : Nat) (hf : r < f) : addLoop E N f r s = .ok (r % N) s := by
  induction f generalizing r with
  | zero => omega
  | succ f ih =>
    by_cases h : N ≤ r
    · simp only [addLoop, ge_iff_le, h, if_true, M.bind_run, usub, M.pure_run, Out.andThen_ok]
      rw [ih (r - N) (by omega), ← Nat.mod_eq_sub_mod h]
    · simp only [addLoop, ge_iff_le, h, if_false, M.pure_run]
      rw [Nat.mod_eq_of_lt (by omega)]

/-- C45. Adding any offset (without overflow of `usize`) to a storage index gives the residue modulo `N`, below `N`; `+` and
`+=` agree. -/
theorem C45_add (hN : 0 < N) (i k : Nat) (h : i + k < E.W) (s : σ) :
    rawAdd E N i k s = .ok ((i + k) % N) s ∧ rawAddAssign E N i k s = .ok ((i + k) % N) s ∧ (i + k) % N < N := by
  have hlt := Nat.mod_lt (i + k) hN
  have e := addLoop_mod (E := E) hN s (i + k + 1) (i + k) (by omega)
  refine ⟨?_, ?_, hlt⟩
  · cases hd : E.debug <;> simp [rawAdd, uadd, h, e, rawFrom, M.debugAssert, hlt, hd]
  · simp [rawAddAssign, uadd, h, e]

theorem subLoop_res (hN : 0 < N) (s : σ) (k f i : Nat) (hf : k < i + f) (hk : k + N ≤ E.W) (hf0 : 0 < f) :
    ∃ m, subLoop E N k f i s = .ok (i + m * N) s ∧ k ≤ i + m * N ∧ (i + m * N < k + N ∨ m = 0) := by
  induction f generalizing i with
  | zero => omega
  | succ f ih =>
    by_cases h : i < k
    · by_cases hf1 : f = 0
      · subst hf1
        exact absurd hf (by omega)
      · obtain ⟨m, e1, e2, e3⟩ := ih (i + N) (by omega) (by omega)
        refine ⟨m + 1, ?_, ?_, ?_⟩
        · have hlt : i + N < E.W := by omega
          simp only [subLoop, gt_iff_lt, h, if_true, M.bind_run, uadd, hlt, M.pure_run, Out.andThen_ok]
          rw [e1, Nat.add_mul]; congr 1; omega
        · rw [Nat.add_mul]; omega
        · left
          rw [Nat.add_mul]
          rcases e3 with e3 | rfl <;> omega
    · refine ⟨0, ?_, by omega, .inr rfl⟩
      simp only [subLoop, gt_iff_lt, h, if_false, M.pure_run]
      congr 1; omega

/-- C45. Subtracting any offset `k` (with `k + N` within `usize`) from a storage index gives the index `r` below `N` with
`r + k ≡ i` modulo `N`; `-` and `-=` agree; the loop ends. -/
theorem C45_sub (i k : Nat) (hi : i < N) (h : k + N ≤ E.W) (s : σ) :
    ∃ r, rawSub E N i k s = .ok r s ∧ rawSubAssign E N i k s = .ok r s ∧ r < N ∧ (r + k) % N = i := by
  have hW : 0 < E.W := by omega
  obtain ⟨m, e1, e2, e3⟩ := subLoop_res (E := E) (N := N) (by omega) s k E.W i (by omega) h hW
  have hr : i + m * N - k < N := by
    rcases e3 with e3 | rfl <;> omega
  refine ⟨i + m * N - k, ?_, ?_, hr, ?_⟩
  · cases hd : E.debug <;> simp [rawSub, e1, usub, e2, rawFrom, M.debugAssert, hr, hd]
  · simp [rawSubAssign, e1, usub, e2]
  · rw [Nat.sub_add_cancel e2, Nat.add_mul_mod_self_right, Nat.mod_eq_of_lt hi]

/-- C45. `inc` and `dec` are +1 and -1 modulo `N`, and undo each other. -/
theorem C45_inc_dec (hW : N < E.W) (i : Nat) (hi : i < N) (s : σ) :
    rawInc E N i s = .ok ((i + 1) % N) s ∧ rawDec E N i s = .ok ((i + N - 1) % N) s ∧
    rawDec E N ((i + 1) % N) s = .ok i s ∧ rawInc E N ((i + N - 1) % N) s = .ok i s := by
  have hinc : ∀ j, j < N → rawInc E N j s = .ok ((j + 1) % N) s := by
    intro j hj
    have h1 : 1 ≤ N := by omega
    by_cases h : j = N - 1
    · have : (j + 1) % N = 0 := by rw [show j + 1 = N by omega, Nat.mod_self]
      simp only [rawInc, M.bind_run, usub, h1, if_true, M.pure_run, Out.andThen_ok, h]
      rw [← h, this]
    · have h2 : j + 1 < E.W := by omega
      simp only [rawInc, M.bind_run, usub, h1, if_true, M.pure_run, Out.andThen_ok, h, if_false, uadd, h2]
      rw [Nat.mod_eq_of_lt (by omega)]
  have hdec : ∀ j, j < N → rawDec E N j s = .ok ((j + N - 1) % N) s := by
    intro j hj
    have h1 : 1 ≤ N := by omega
    by_cases h : j = 0
    · simp only [rawDec, h, if_true, usub, h1, M.pure_run]
      rw [Nat.mod_eq_of_lt (by omega)]; congr 1; omega
    · have h2 : 1 ≤ j := by omega
      simp only [rawDec, h, if_false, usub, h2, if_true, M.pure_run]
      rw [show j + N - 1 = j - 1 + N by omega, Nat.add_mod_right, Nat.mod_eq_of_lt (by omega)]
  refine ⟨hinc i hi, hdec i hi, ?_, ?_⟩
  · rw [hdec _ (Nat.mod_lt _ (by omega))]
    congr 1
    by_cases h : i + 1 = N
    · rw [h, Nat.mod_self, Nat.mod_eq_of_lt (by omega)]; omega
    · rw [Nat.mod_eq_of_lt (show i + 1 < N by omega), show i + 1 + N - 1 = i + N by omega, Nat.add_mod_right, Nat.mod_eq_of_lt hi]
  · rw [hinc _ (Nat.mod_lt _ (by omega))]
    congr 1
    by_cases h : i = 0
    · subst h
      rw [Nat.mod_eq_of_lt (show 0 + N - 1 < N by omega), show 0 + N - 1 + 1 = N by omega, Nat.mod_self]
    · rw [show i + N - 1 = i - 1 + N by omega, Nat.add_mod_right, Nat.mod_eq_of_lt (show i - 1 < N by omega),
        show i - 1 + 1 = i by omega, Nat.mod_eq_of_lt hi]

/-- C45. Subtracting undoes adding. -/
theorem C45_sub_add (i k : Nat) (hi : i < N) (h : i + k < E.W) (h' : k + N ≤ E.W) (s : σ) :
    (do rawSub E N (← rawAdd E N i k) k : M σ Nat) s = .ok i s := by
  obtain ⟨e1, _, e2⟩ := C45_add (E := E) (N := N) (by omega) i k h s
  obtain ⟨r, e3, _, hr, e4⟩ := C45_sub (E := E) ((i + k) % N) k e2 h' s
  simp only [M.bind_run, e1, Out.andThen_ok, e3]
  congr 1
  have h5 : (r + k) % N = (i + k) % N := e4
  have h6 := Nat.sub_mod_eq_zero_of_mod_eq h5
  have h7 := Nat.sub_mod_eq_zero_of_mod_eq h5.symm
  rw [Nat.add_sub_add_right, Nat.mod_eq_of_lt (by omega)] at h6 h7
  omega

/-- C45 is not vacuous. -/
example : rawAdd dbg64 5 4 23 () = .ok 2 () ∧ rawSub rel64 5 1 (3 : Nat) () = .ok 3 () ∧ rawInc dbg64 5 4 () = .ok 0 () ∧
    rawDec dbg64 5 0 () = .ok 4 () := ⟨rfl, rfl, rfl, rfl⟩

end Verif.Ring
