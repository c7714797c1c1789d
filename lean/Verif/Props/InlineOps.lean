import Verif.Props.InlineHistory
import Verif.Props.ChunkBulk
/-
Properties of the layout and of single calls of `InlineArray`: C56, C57, C58, C63, C64, C68, C69, C70; and C23 (conversion into a `Chunk`).
-/
namespace Verif.Inline
variable {A : Type} {E : Env} {L : Layout A} {dp : A → Bool} {cl : A → Option A}

/-! ### C56: layout -/

/-- The byte ranges `[a, a + n)` and `[b, b + m)` have no byte in common. -/
def Disjoint (a n b m : Nat) : Prop := ∀ j, ¬ (a ≤ j ∧ j < a + n ∧ b ≤ j ∧ j < b + m)

/-- C56. In an array made by `new` anywhere in memory and moved anywhere, the pointers the code computes for the length header and for each
of the `CAPACITY` element slots are aligned for their types, inside the `size_of::<T>()` bytes, and the header and the slots are pairwise
disjoint. -/
theorem C56_layout (hv : L.Valid E) (k k' : Nat) {s : Inline A} (hs : new E L k () = .ok s ()) :
    ∃ (s' : Inline A) (hdr : Nat) (slot : Nat → Nat), moveTo L k' s = .ok () s' ∧ lenPtr E L s' = .ok (.at hdr) s' ∧
      (∀ i, i < cap E L → ptrAt E L i s' = .ok (.at (slot i)) s') ∧
      (s'.addr + hdr) % L.headerAlign = 0 ∧ hdr + L.headerSize ≤ L.hostSize ∧
      (∀ i, i < cap E L → (s'.addr + slot i) % L.elemAlign = 0 ∧ slot i + L.elemSize ≤ L.hostSize ∧
        Disjoint hdr L.headerSize (slot i) L.elemSize) ∧
      (∀ i j, i < cap E L → j < cap E L → i ≠ j → Disjoint (slot i) L.elemSize (slot j) L.elemSize) := by
  have ha : Accepted E L := by
    by_cases ha : Accepted E L
    · exact ha
    · rw [new_panic ha] at hs; cases hs
  have g := geo hv ha
  have hd : L.align ∣ ({ s with addr := k' * L.align } : Inline A).addr := Nat.dvd_mul_left _ _
  refine ⟨{ s with addr := k' * L.align }, hdrOff E L, slotOff L, rfl, lenPtr_eq g hd, fun i hi => ptrAt_eq g hd hi,
    Nat.mod_eq_zero_of_dvd (g.hdr_al hd), g.hdr_in, ?_, ?_⟩
  · intro i hi
    refine ⟨Nat.mod_eq_zero_of_dvd (g.el_al (by omega) hd), g.slot_in hi, ?_⟩
    intro j hj
    have := g.apart' (i := i) (n := 1) (k := j - hdrOff E L) (by omega) (by omega)
    omega
  · intro i j hi hj hij b hb
    rcases Nat.lt_or_gt_of_ne hij with h | h
    · have := slot_mono (L := L) h; omega
    · have := slot_mono (L := L) h; omega

/-- C56 is not vacuous: with the header first (header at 0, items at 8, 12, 16, 20) and with the elements first (items at 0, 16, header
at 32), arrays are made. -/
example : (∃ s, new Chunk.dbg64 words 3 () = .ok s ()) ∧ (∃ s, new Chunk.dbg64 wide 3 () = .ok s ()) :=
  ⟨(new_ok words_valid (by decide) 3).imp fun _ h => h.1, (new_ok wide_valid (by decide) 3).imp fun _ h => h.1⟩
example : cap Chunk.dbg64 words = 4 ∧ cap Chunk.dbg64 wide = 2 ∧ (lenPtr Chunk.dbg64 wide (⟨32, fun _ => .uninit⟩ : Inline Nat)).seen = some (.at 32) ∧
    (ptrAt Chunk.dbg64 words 3 (⟨32, fun _ => .uninit⟩ : Inline Nat)).seen = some (.at 20) := by decide +kernel

/-! ### C57: capacity -/

/-- C57. For sized elements whose alignment the array guarantees, in a host larger than a `usize`, the header and `CAPACITY` elements fit in
`size_of::<T>()` and one more would not: `CAPACITY = (size_of T - size_of usize) / size_of A`. -/
theorem C57_capacity (h0 : L.elemSize ≠ 0) (hal : L.elemAlign ≤ L.align) (hs : L.headerSize < L.hostSize) :
    L.headerSize + cap E L * L.elemSize ≤ L.hostSize ∧ L.hostSize < L.headerSize + (cap E L + 1) * L.elemSize ∧
      cap E L = (L.hostSize - L.headerSize) / L.elemSize := by
  have e : cap E L = (L.hostSize - L.headerSize) / L.elemSize := by
    unfold cap capacity; rw [if_neg h0, if_pos ⟨hal, hs⟩]
  have h1 := Nat.div_mul_le_self (L.hostSize - L.headerSize) L.elemSize
  have h2 := Nat.lt_mul_div_succ (L.hostSize - L.headerSize) (show 0 < L.elemSize by omega)
  rw [← e] at h1 h2
  rw [Nat.mul_comm] at h2
  exact ⟨by omega, by omega, e⟩
/-- C57. `CAPACITY` is zero if the alignment of the elements cannot be guaranteed or there is only room for the header. -/
theorem C57_no_capacity (h0 : L.elemSize ≠ 0) (h : L.align < L.elemAlign ∨ L.hostSize ≤ L.headerSize) : cap E L = 0 := by
  unfold cap capacity; rw [if_neg h0, if_neg (by omega)]
/-- C57. `CAPACITY` is `usize::MAX` for zero-sized elements. -/
theorem C57_zero_sized (h0 : L.elemSize = 0) : cap E L = E.W - 1 := by
  unfold cap capacity; rw [if_pos h0]

/-- C57 is not vacuous. -/
example : words.elemSize ≠ 0 ∧ words.elemAlign ≤ words.align ∧ words.headerSize < words.hostSize := by decide

/-! ### C58: when `new` panics -/

/-- C58 fails: the documentation says `new` panics when the host is smaller than a `usize` (implying that a host of exactly that size is
fine, with capacity zero), and when the element alignment cannot be satisfied; in fact it also panics for a host of exactly that size, and it
does not panic for over-aligned elements (unless they are zero-sized). -/
theorem C58_new_counterexample :
    (let host8 : Layout Nat := ⟨8, 8, 4, 4, 8, 8, 8, none⟩
     ¬ host8.hostSize < host8.headerSize ∧ host8.elemAlign ≤ host8.align ∧ (new Chunk.dbg64 host8 0 ()).isPanic = true) ∧
    (let over : Layout Nat := ⟨24, 8, 32, 32, 8, 8, 8, none⟩
     over.align < over.elemAlign ∧ (new Chunk.dbg64 over 0 ()).isPanic = false) := by decide +kernel

/-- C58, what the code does: `new` panics exactly when the host is not larger than a `usize`, or the elements are zero-sized and aligned more
strictly than the array; otherwise it returns an empty array, and none of its internal assertions ever fails. -/
theorem C58_new_partial [DecidableEq A] (hv : L.Valid E) (hW : 1 < E.W) (k : Nat) :
    (L.hostSize ≤ L.headerSize ∨ (L.elemSize = 0 ∧ L.align < L.elemAlign) → new E L k () = .panic ()) ∧
    (¬ (L.hostSize ≤ L.headerSize ∨ (L.elemSize = 0 ∧ L.align < L.elemAlign)) →
      ∃ s, new E L k () = .ok s () ∧ View E L s [] ∧ s.addr = k * L.align) := by
  have hdvd : L.elemAlign ≤ L.align → L.align % L.elemAlign = 0 := fun h =>
    Nat.mod_eq_zero_of_dvd (pow2_dvd hv.elemAlign hv.align_pow2 h)
  constructor
  · rintro (h | ⟨h0, h⟩)
    · exact new_panic (fun ha => by have := ha.1; omega) k
    · refine new_panic (fun ha => ?_) k
      rcases ha.2 with h1 | h1
      · rw [C57_zero_sized h0] at h1; omega
      · rw [Nat.mod_eq_of_lt h] at h1
        have := pow2_pos hv.align_pow2
        omega
  · intro h
    have ha : Accepted E L := by
      refine ⟨by omega, ?_⟩
      by_cases hal : L.elemAlign ≤ L.align
      · exact .inr (hdvd hal)
      · by_cases h0 : L.elemSize = 0
        · exact absurd (.inr ⟨h0, by omega⟩) h
        · exact .inl (C57_no_capacity h0 (.inl (by omega)))
    obtain ⟨s, h1, h2⟩ := new_ok hv ha k
    refine ⟨s, h1, h2.view hv, ?_⟩
    rw [new_eq hv ha k] at h1
    cases h1
    rfl

/-- C58 is not vacuous: layouts of both kinds. -/
example : words.Valid Chunk.dbg64 ∧ ¬ (words.hostSize ≤ words.headerSize ∨ (words.elemSize = 0 ∧ words.align < words.elemAlign)) :=
  ⟨words_valid, by decide⟩
example : (⟨8, 8, 0, 64, 8, 8, 8, some ()⟩ : Layout Unit).elemSize = 0 ∧
    (⟨8, 8, 0, 64, 8, 8, 8, some ()⟩ : Layout Unit).align < (⟨8, 8, 0, 64, 8, 8, 8, some ()⟩ : Layout Unit).elemAlign := by decide

/-! ### C63: iterators -/
variable [DecidableEq A] {s : Inline A} {l : List A}

/-- Call `next` (`true`) or `next_back` (`false`) repeatedly on a consuming or draining iterator. -/
def iterate (E : Env) (L : Layout A) : List Bool → M (Inline A) (List (Option A))
  | [] => pure []
  | front :: r => do
    let a ← if front = true then iterNext E L else iterNextBack E L
    let rest ← iterate E L r
    return a :: rest

theorem iterate_eq (hv : L.Valid E) (sched : List Bool) (h : Rep E L s l) :
    Returns (Rep E L) (iterate E L sched s) (Chunk.specIterate sched l).1 (Chunk.specIterate sched l).2 := by
  induction sched generalizing s l with
  | nil => exact ⟨s, rfl, h⟩
  | cons front r ih =>
    cases front with
    | true =>
      obtain ⟨s, e, h1⟩ := (iterNext_ref hv h).of_ok (a := l.head?) (t := l.tail) rfl
      obtain ⟨s', e', h2⟩ := ih h1
      exact ⟨s', by simp [iterate, Chunk.specIterate, e, e'], h2⟩
    | false =>
      obtain ⟨s, e, h1⟩ := (iterNextBack_ref hv h).of_ok (a := l.getLast?) (t := l.dropLast) rfl
      obtain ⟨s', e', h2⟩ := ih h1
      exact ⟨s', by simp [iterate, Chunk.specIterate, e, e'], h2⟩

/-- C63. Whatever the interleaving of `next` and `next_back` on a consuming or draining iterator, the items yielded at the front, those
left, and those yielded at the back (reversed) are together exactly the contents; exhausted iterators stay exhausted; what an abandoned
drain leaves in the array is exactly the rest; `size_hint` is exact. -/
theorem C63_iterators (hv : L.Valid E) (hr : Reachable E L dp cl s) (h : View E L s l) (sched : List Bool) :
    ∃ out fs bs rest s', iterate E L sched s = .ok out s' ∧ Chunk.Yielded l sched out fs bs rest ∧ View E L s' rest ∧
      sizeHint E L s' = .ok (rest.length, some rest.length) s' := by
  obtain ⟨s', e, h1⟩ := iterate_eq hv sched (hr.rep_of_view hv h)
  obtain ⟨fs, bs, hy⟩ := Chunk.Yielded.run (sched := sched) (l := l) (f := Chunk.specIterate) (fun _ => rfl) (fun _ _ _ => rfl)
  exact ⟨_, fs, bs, _, s', e, hy, h1.view hv, sizeHint_eq hv h1⟩

/-- An array holding `[10, 20, 30]` (elements 4 bytes, after the header), made by a history. -/
def three : Inline Nat := ((machine Chunk.dbg64 words (fun _ => false) some).run
  [.ctor (.fromIter 2 (It.ofList [10, 20, 30]))] World.empty).final.bind (·.heap 0) |>.getD ⟨0, fun _ => .uninit⟩

theorem three_spec : Reachable Chunk.dbg64 words (fun _ => false) some three ∧ View Chunk.dbg64 words three [10, 20, 30] := by
  have hx : ∃ w s, (machine Chunk.dbg64 words (fun _ => false) some).run
      [.ctor (.fromIter 2 (It.ofList [10, 20, 30]))] World.empty = .ok [.handle 0] w ∧ w.heap 0 = some s ∧ Rep Chunk.dbg64 words s [10, 20, 30] := by
    have := fromIter_ref words_valid (fun _ => false) 2 (It.ofList [10, 20, 30]) []
    obtain ⟨s, log, e, h1, h2⟩ := this.of_ok (b := [10, 20, 30]) (t := []) (by
      unfold specFromIter
      rw [if_pos (by decide)]
      rfl)
    refine ⟨{ (World.empty.put 0 (some s) : World Nat (Inline Nat)) with next := 1, log := log }, s, ?_, ?_, h1⟩
    · simp only [Machine.run, M.bind_run]
      simp only [Machine.step, machine, World.empty, e, Out.andThen_ok, M.pure_run]
    · simp [World.put]
  obtain ⟨w, s, h1, h2, h3⟩ := hx
  have e : three = s := by simp [three, h1, Out.final, h2]
  rw [e]
  exact ⟨⟨_, _, w, 0, h1, h2⟩, h3.view words_valid⟩

/-- C63 is not vacuous: `three` is reachable, and iterated back, front, front, front yields everything. -/
example : (iterate Chunk.dbg64 words [false, true, true, true] three).seen = some [some 30, some 10, some 20, none] := by decide +kernel

/-! ### C64: clone -/

/-- C64. If every item clones (to `cs`, in order), `clone` returns an array showing `cs`, and the original is untouched. -/
theorem C64_clone (hv : L.Valid E) (hr : Reachable E L dp cl s) (h : View E L s l) (k : Nat) (log cs : List A)
    (hc : l.map cl = cs.map some) :
    ∃ d s', clone E L dp cl k (s, log) = .ok d (s', log) ∧ View E L d cs ∧ View E L s' l := by
  have hb := Chunk.bornOf_all hc
  have hlen : cs.length = l.length := by have := congrArg List.length hc; simpa using this.symm
  obtain ⟨d, ⟨s1, s2⟩, e, h1, h3, h4⟩ := (clone_ref hv dp cl k (hr.rep_of_view hv h) log).of_ok
    (b := cs) (t := (l, log)) (by simp only [Spec.cloneLeaky, hb]; rw [if_pos hlen])
  dsimp only at h3 h4
  subst h4
  exact ⟨d, s1, e, h1.view hv, h3.view hv⟩
/-- C64. If cloning an item panics, `clone` panics, the original is untouched and nothing at all is destroyed: the clones made before
leak, so none can be destroyed twice. -/
theorem C64_clone_panics (hv : L.Valid E) (hr : Reachable E L dp cl s) (l₁ l₂ : List A) (x : A) (h : View E L s (l₁ ++ x :: l₂)) (k : Nat)
    (log cs : List A) (hc : l₁.map cl = cs.map some) (hx : cl x = none) :
    ∃ s', clone E L dp cl k (s, log) = .panic (s', log) ∧ View E L s' (l₁ ++ x :: l₂) := by
  have hb := Chunk.bornOf_stop (l₂ := l₂) hc hx
  have hlen : cs.length = l₁.length := by have := congrArg List.length hc; simpa using this.symm
  obtain ⟨⟨s1, s2⟩, e, h3, h4⟩ := (clone_ref hv dp cl k (hr.rep_of_view hv h) log).of_panic
    (t := (l₁ ++ x :: l₂, log)) (by simp only [Spec.cloneLeaky, hb]; rw [if_neg (by simp; omega)])
  dsimp only at h3 h4
  subst h4
  exact ⟨s1, e, h3.view hv⟩

/-- C64 is not vacuous. -/
example : ((clone Chunk.dbg64 words (fun _ => false) (fun a => some (a + 1)) 4 (three, [])).seen.bind
    (fun d => (items Chunk.dbg64 words d).seen)) = some [11, 21, 31] := by decide +kernel
example : (clone Chunk.dbg64 words (fun _ => false) (fun a => if a = 30 then none else some a) 4 (three, [])).isPanic = true := by
  decide +kernel

/-! ### C68: single calls -/

/-- C68. `push` appends, or panics leaving the array unchanged, exactly when it is full. -/
theorem C68_push (hv : L.Valid E) (hr : Reachable E L dp cl s) (h : View E L s l) (v : A) :
    (l.length < cap E L → Returns (View E L) (push E L v s) () (l ++ [v])) ∧
    PanicsExactly (View E L) l (push E L v s) (l.length = cap E L) := by
  have h' := hr.rep_of_view hv h
  have hle := h'.le
  have hp := (push_ref hv h' v).imp (R' := View E L) fun _ _ h => h.view hv
  refine ⟨fun hl => hp.of_ok (by simp [Spec.pushBack, hl]), hp.panicsExactly ?_ ?_⟩
  · intro hc; simp [Spec.pushBack, hc]
  · intro hc; exact ⟨(), l ++ [v], by simp only [Spec.pushBack]; rw [if_pos (by omega)]⟩
/-- C68. `pop` takes the last item, or returns `None` when empty. -/
theorem C68_pop (hv : L.Valid E) (hr : Reachable E L dp cl s) (h : View E L s l) :
    Returns (View E L) (pop E L s) l.getLast? l.dropLast :=
  ((pop_ref hv (hr.rep_of_view hv h)).imp (R' := View E L) fun _ _ h => h.view hv).of_ok rfl
/-- C68. `insert` puts the value before position `i` keeping the order of the rest; it panics, leaving the array unchanged, exactly when the
array is full or `i` is past the end. -/
theorem C68_insert (hv : L.Valid E) (hr : Reachable E L dp cl s) (h : View E L s l) (i : Nat) (v : A) :
    (l.length < cap E L → i ≤ l.length → Returns (View E L) (insert E L i v s) () (l.take i ++ v :: l.drop i)) ∧
    PanicsExactly (View E L) l (insert E L i v s) (l.length = cap E L ∨ l.length < i) := by
  have h' := hr.rep_of_view hv h
  have hle := h'.le
  have hp := (insert_ref hv h' i v).imp (R' := View E L) fun _ _ h => h.view hv
  refine ⟨fun hl hi => hp.of_ok (by simp [Spec.insert, hl, hi]), hp.panicsExactly ?_ ?_⟩
  · intro hc; simp only [Spec.insert]; rw [if_neg (by omega)]
  · intro hc; exact ⟨(), l.take i ++ v :: l.drop i, by simp only [Spec.insert]; rw [if_pos (by omega)]⟩
/-- C68. `remove` takes out item `i` keeping the order of the rest; past the end it returns `None` and changes nothing. -/
theorem C68_remove (hv : L.Valid E) (hr : Reachable E L dp cl s) (h : View E L s l) (i : Nat) :
    (∀ a, l[i]? = some a → Returns (View E L) (remove E L i s) (some a) (l.take i ++ l.drop (i + 1))) ∧
    (l.length ≤ i → Returns (View E L) (remove E L i s) none l) := by
  have hp := (remove_ref hv (hr.rep_of_view hv h) i).imp (R' := View E L) fun _ _ h => h.view hv
  refine ⟨fun a ha => hp.of_ok (by simp [Spec.remove?, ha]), fun hi => hp.of_ok ?_⟩
  simp only [Spec.remove?]
  rw [List.getElem?_eq_none hi, List.take_of_length_le hi, List.drop_eq_nil_of_le (by omega), List.append_nil]
/-- C68. `split_off` leaves the first `i` items and returns the others in a new array; it panics, leaving the array unchanged, exactly when
`i` is past the end. -/
theorem C68_split_off (hv : L.Valid E) (hr : Reachable E L dp cl s) (h : View E L s l) (k i : Nat) :
    (i ≤ l.length → ∃ d s', splitOff E L k i s = .ok d s' ∧ View E L d (l.drop i) ∧ View E L s' (l.take i)) ∧
    (l.length < i → ∃ s', splitOff E L k i s = .panic s' ∧ View E L s' l) := by
  have hp := splitOff_ref hv (hr.rep_of_view hv h) k i
  constructor
  · intro hi
    obtain ⟨d, s', e, h1, h2⟩ := hp.of_ok (b := l.drop i) (t := l.take i) (by simp [Spec.splitOff, hi])
    exact ⟨d, s', e, h1.view hv, h2.view hv⟩
  · intro hi
    obtain ⟨s', e, h1⟩ := hp.of_panic (t := l) (by simp only [Spec.splitOff]; rw [if_neg (by omega)])
    exact ⟨s', e, h1.view hv⟩
/-- C68. Writing through the slice (indexing mutably) changes exactly the item written; out of range it panics and changes nothing. -/
theorem C68_set (hv : L.Valid E) (hr : Reachable E L dp cl s) (h : View E L s l) (i : Nat) (v : A) :
    (∀ a, l[i]? = some a → Returns (View E L) (set E L i v s) a (l.set i v)) ∧
    PanicsExactly (View E L) l (set E L i v s) (l.length ≤ i) := by
  have hp := (set_ref hv (hr.rep_of_view hv h) i v).imp (R' := View E L) fun _ _ h => h.view hv
  refine ⟨fun a ha => hp.of_ok (by simp [Spec.set, ha]), hp.panicsExactly ?_ ?_⟩
  · intro hi; simp [Spec.set, hi]
  · intro hi
    have : l[i]? = some l[i] := List.getElem?_eq_getElem (by omega)
    exact ⟨l[i], l.set i v, by simp [Spec.set, this]⟩
/-- C68. `clear` (with destructors that do not panic) destroys every item once, in order, and leaves an empty array. -/
theorem C68_clear (hv : L.Valid E) (hr : Reachable E L dp cl s) (h : View E L s l) (hd : l.any dp = false) (log : List A) :
    Returns (RelLog (View E L)) (clear E L dp (s, log)) () ([], log ++ l) :=
  ((clear_ref hv (hr.rep_of_view hv h) dp log).imp (R' := RelLog (View E L)) fun _ _ h => ⟨h.1.view hv, h.2⟩).of_ok
    (by rw [Spec.clear]; exact dropping_zero (any_false_iff_countP.1 hd) _ _ _)
/-- C68. `extend` appends everything that fits; when an item does not fit, the call panics, what fitted stays, and that item and the rest of
the iterator are destroyed. -/
theorem C68_extend (hv : L.Valid E) (hr : Reachable E L dp cl s) (h : View E L s l) (xs log : List A) :
    (l.length + xs.length ≤ cap E L → Returns (RelLog (View E L)) (extend E L dp (It.ofList xs) (s, log)) () (l ++ xs, log)) ∧
    (cap E L < l.length + xs.length → xs.any dp = false → ∃ t, extend E L dp (It.ofList xs) (s, log) = .panic t ∧
      RelLog (View E L) t (l ++ xs.take (cap E L - l.length), log ++ xs.drop (cap E L - l.length))) := by
  have h' := hr.rep_of_view hv h
  have hle := h'.le
  have hp := (extend_ref hv h' dp (It.ofList xs) log).imp (R' := RelLog (View E L)) fun _ _ h => ⟨h.1.view hv, h.2⟩
  refine ⟨fun hl => hp.of_ok (Chunk.specExtend_ok xs hl), fun hl hd => hp.of_panic ?_⟩
  have e : It.ofList xs = It.ofList (xs.take (cap E L - l.length)) ++ It.ofList (xs.drop (cap E L - l.length)) := by
    simp [It.ofList]
  rw [e, Chunk.specExtend_prefix _ _ (by simp; omega)]
  have hlt : cap E L - l.length < xs.length := by omega
  rw [List.drop_eq_getElem_cons hlt]
  have ho : ∀ ys : List A, It.owned (It.ofList ys) = ys := by
    intro ys; induction ys <;> simp_all [It.ofList, It.owned]
  have hd2 : (xs[cap E L - l.length] :: xs.drop (cap E L - l.length + 1)).any dp = false := by
    rw [← List.drop_eq_getElem_cons hlt]
    rw [List.any_eq_false] at hd ⊢
    exact fun x hx => hd x (List.mem_of_mem_drop hx)
  simp only [It.ofList, List.map_cons, Spec.extend]
  rw [if_neg (by simp; omega)]
  have ho' := ho (xs.drop (cap E L - l.length + 1))
  rw [It.ofList] at ho'
  rw [Spec.panicDropping, ho', hd2]
  rfl

/-- C68 is not vacuous: `three` is reachable with room for one more. -/
example : Reachable Chunk.dbg64 words (fun _ => false) some three ∧ View Chunk.dbg64 words three [10, 20, 30] ∧ cap Chunk.dbg64 words = 4 :=
  ⟨three_spec.1, three_spec.2, by decide +kernel⟩

/-! ### C69: comparisons and hashing -/

variable {t : Inline A} {k : List A}

/-- C69. Comparing an array with a slice says whether the contents are elementwise equal. -/
theorem C69_eq_slice (h : View E L s l) {B : Type} (eq : A → B → Bool) (k : List B) :
    ∃ b, eqSlice E L eq k s = .ok b s ∧ (b = true ↔ l.length = k.length ∧
      ∀ (i : Nat) x y, l[i]? = some x → k[i]? = some y → eq x y = true) := by
  unfold View at h
  exact ⟨seqEq eq l k, by simp [eqSlice, h], seqEq_iff eq l k⟩
/-- C69. Comparing an array with an array of the same elements in any other host says whether the contents are elementwise equal. -/
theorem C69_eq_array {L' : Layout A} (h : View E L s l) (h' : View E L' t k) (eq : A → A → Bool) :
    ∃ b, eqInline E L L' eq (s, t) = .ok b (s, t) ∧ (b = true ↔ l.length = k.length ∧
      ∀ (i : Nat) x y, l[i]? = some x → k[i]? = some y → eq x y = true) := by
  unfold View at h h'
  exact ⟨seqEq eq l k, by simp [eqInline, h, h'], seqEq_iff eq l k⟩
/-- C69. `cmp` orders arrays lexicographically by contents, and `partial_cmp` agrees with it. -/
theorem C69_cmp (h : View E L s l) (h' : View E L t k) (f : A → A → Ordering) (hf : ∀ a b, f b a = (f a b).swap) :
    ∃ o, cmp E L f (s, t) = .ok o (s, t) ∧ partialCmp E L (fun a b => some (f a b)) (s, t) = .ok (some o) (s, t) ∧
      (o = .eq ↔ l.length = k.length ∧ ∀ (i : Nat) x y, l[i]? = some x → k[i]? = some y → f x y = .eq) ∧
      (o = .lt ↔ LexBefore f l k) ∧ (o = .gt ↔ LexBefore f k l) := by
  unfold View at h h'
  refine ⟨seqCmp f l k, by simp [cmp, h, h'], by simp [partialCmp, h, h', seqPartialCmp_total], seqCmp_eq_iff f l k, seqCmp_lt_iff f l k, ?_⟩
  rw [← seqCmp_lt_iff, seqCmp_swap f hf l k]
  cases seqCmp f l k <;> simp
/-- C69. The data fed to a hasher depends only on the contents, wherever the array is and whatever its unused bytes are. -/
theorem C69_hash {H : Type} (hash' : A → List (Feed H)) (h : View E L s l) (h' : View E L t l) :
    ∃ f, hash E L hash' s = .ok f s ∧ hash E L hash' t = .ok f t := by
  unfold View at h h'
  exact ⟨_, by simp [hash, h]; rfl, by simp [hash, h']⟩

/-- C69 is not vacuous. -/
example : View Chunk.dbg64 words three [10, 20, 30] := three_spec.2

/-! ### C23: into a chunk -/

/-- C23. `Chunk::from(&mut array)` moves all items, in order, into a new chunk and empties the array when they fit in the chunk's capacity
`N`; otherwise it panics and the array is unchanged.  (The assertion compares capacities first; that makes no difference.) -/
theorem C23_from_mut (hv : L.Valid E) (hr : Reachable E L dp cl s) (h : View E L s l) (N : Nat) :
    (l.length ≤ N → ∃ c s', toChunk E L N s = .ok c s' ∧ Chunk.View E N c l ∧ View E L s' []) ∧
    (N < l.length → ∃ s', toChunk E L N s = .panic s' ∧ View E L s' l) := by
  have hp := toChunk_ref hv N (hr.rep_of_view hv h)
  constructor
  · intro hN
    obtain ⟨c, s', e, h1, h2⟩ := hp.of_ok (b := l) (t := []) (by rw [if_pos hN])
    exact ⟨c, s', e, h1.view E, h2.view hv⟩
  · intro hN
    obtain ⟨s', e, h1⟩ := hp.of_panic (t := l) (by rw [if_neg (by omega)])
    exact ⟨s', e, h1.view hv⟩
/-- C23. `Chunk::from(array)` moves all items into the new chunk and destroys none of them when they fit; otherwise it panics and each item
is destroyed once (with the array). -/
theorem C23_from_owned (hv : L.Valid E) (hr : Reachable E L dp cl s) (h : View E L s l) (N : Nat) (log : List A) :
    (l.length ≤ N → ∃ c s', intoChunk E L dp N (s, log) = .ok c (s', log) ∧ Chunk.View E N c l) ∧
    (N < l.length → l.any dp = false → ∃ s', intoChunk E L dp N (s, log) = .panic (s', log ++ l)) := by
  have hp := intoChunk_ref hv dp N (hr.rep_of_view hv h) log
  constructor
  · intro hN
    obtain ⟨c, ⟨s', log'⟩, e, h1, h2⟩ := hp.of_ok (b := l) (t := log) (by rw [if_pos hN])
    cases h2
    exact ⟨c, s', e, h1.view E⟩
  · intro hN hd
    obtain ⟨⟨s', log'⟩, e, h1⟩ := hp.of_panic (t := log ++ l) (by rw [if_neg (by omega), if_neg (by simp [hd])])
    dsimp only at h1
    subst h1
    exact ⟨s', e⟩

/-- C23 is not vacuous: `three` fits in a chunk of capacity 3 but not 2. -/
example : ((toChunk Chunk.dbg64 words 3 three).seen.bind (fun c => (Chunk.asSlice Chunk.dbg64 3 c).seen)) = some [10, 20, 30] ∧
    (toChunk Chunk.dbg64 words 2 three).isPanic = true := by decide +kernel

end Verif.Inline
