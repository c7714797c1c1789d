import Verif.Props.RingBulk
/-
Iterators over ring buffers and their slices, under any interleaving of `next` and `next_back`: C37.
-/
namespace Verif.Ring
open Verif.Chunk (dbg64 rel64 Yielded specIterate)
variable {A σ : Type} {E : Env} {N : Nat} {c d : Ring A} {l k : List A}

/-! ### The calls -/

/-- Call `next` (`true`) or `next_back` (`false`) on an `Iter`, in any order: the answers and the iterator afterwards. -/
def iterateRef (E : Env) (N : Nat) : List Bool → IdxIter → M (Ring A) (List (Option A) × IdxIter)
  | [], it => pure ([], it)
  | front :: r, it => do
    let x ← if front = true then iterNext E N it else iterNextBack E N it
    match x with
    | none => do
      let p ← iterateRef E N r it
      return (none :: p.1, p.2)
    | some (a, it') => do
      let p ← iterateRef E N r it'
      return (some a :: p.1, p.2)

/-- The same on an `IterMut`: the answers are the slots of the storage to which the yielded `&mut A` point. -/
def iterateSlots (E : Env) (N : Nat) : List Bool → IdxIter → M (Ring A) (List (Option Nat) × IdxIter)
  | [], it => pure ([], it)
  | front :: r, it => do
    let x ← if front = true then idxNext E N it else idxNextBack E N it
    match x with
    | none => do
      let p ← iterateSlots E N r it
      return (none :: p.1, p.2)
    | some (a, it') => do
      let p ← iterateSlots E N r it'
      return (some a :: p.1, p.2)

/-- The same on a `Drain` or `OwnedIter`. -/
def iterateOwned (E : Env) (N : Nat) : List Bool → M (Ring A) (List (Option A))
  | [] => pure []
  | front :: r => do
    let a ← if front = true then popFront E N else popBack E N
    let rest ← iterateOwned E N r
    return a :: rest

/-! ### Lemmas -/

theorem idxNext_eq (hW : 2 * N < E.W) {o a r right : Nat} {s : σ} (ho : o < N) (ha : a + r + 1 ≤ N) :
    idxNext E N ⟨r + 1, ridx N o a, right⟩ s = .ok (some (ridx N o a, ⟨r, ridx N o (a + 1), right⟩)) s := by
  have h1 : ridx N o a < N := ridx_lt ho (by omega)
  have e : ridx N (ridx N o a) 1 = ridx N o (a + 1) := ridx_ridx ho (by omega)
  have hi : rawInc E N (ridx N o a) s = .ok (ridx N o (a + 1)) s := by
    have := sat_rawInc (E := E) (σ := σ) (P := fun _ => False) (B := False) (Q := fun r s' => r = ridx N o (a + 1) ∧ s' = s)
      (s := s) hW h1 ⟨e, rfl⟩
    cases hx : rawInc E N (ridx N o a) s <;> rw [hx] at this <;> simp [Sat] at this
    rw [this.1, this.2]
  simp [idxNext, usub, hi]

theorem rawDec_eq {o b : Nat} {s : σ} (ho : o < N) (hb : b + 1 ≤ N) :
    rawDec E N (ridx N o (b + 1)) s = .ok (ridx N o b) s := by
  have h1 : ridx N o (b + 1) < N := ridx_lt ho (by omega)
  have e : rsub N (ridx N o (b + 1)) 1 = ridx N o b := by rw [rsub_ridx ho (by omega) (by omega)]; rfl
  have := sat_rawDec (E := E) (σ := σ) (P := fun _ => False) (B := False) (Q := fun r s' => r = ridx N o b ∧ s' = s)
    (s := s) h1 ⟨e, rfl⟩
  cases hx : rawDec E N (ridx N o (b + 1)) s <;> rw [hx] at this <;> simp [Sat] at this
  rw [this.1, this.2]

theorem idxNextBack_eq {o b r left : Nat} {s : σ} (ho : o < N) (hb : b + 1 ≤ N) :
    idxNextBack E N ⟨r + 1, left, ridx N o (b + 1)⟩ s = .ok (some (ridx N o b, ⟨r, left, ridx N o b⟩)) s := by
  simp [idxNextBack, usub, rawDec_eq ho hb]

theorem iterNextBack_eq {o b r left : Nat} (ho : o < N) (hb : b + 1 ≤ N) :
    iterNextBack E N ⟨r + 1, left, ridx N o (b + 1)⟩ c = match lm N o c.mem b with
      | some x => .ok (some (x, ⟨r, left, ridx N o b⟩)) c
      | none => .ub := by
  have h1 : ridx N o b < N := ridx_lt ho (by omega)
  have hl : lm N o c.mem b = c.mem (ridx N o b) := by unfold lm; rw [if_pos (by omega)]
  rw [hl]
  cases hm : c.mem (ridx N o b) <;> cases hd : E.debug <;>
    simp [iterNextBack, usub, rawDec_eq ho hb, forceRead, M.debugAssert, h1, getMem, memRead, hm, hd, M.ub]

/-- The slots from position `a`, `r` of them. -/
def slotsFrom (N o a r : Nat) : List Nat := (List.range' a r).map (ridx N o)

theorem slots_head (o a r : Nat) : (slotsFrom N o a (r + 1)).head? = some (ridx N o a) := by simp [slotsFrom, List.range'_succ]
theorem slots_tail (o a r : Nat) : (slotsFrom N o a (r + 1)).tail = slotsFrom N o (a + 1) r := by simp [slotsFrom, List.range'_succ]
theorem slots_concat (o a r : Nat) : slotsFrom N o a (r + 1) = slotsFrom N o a r ++ [ridx N o (a + r)] := by
  simp [slotsFrom, List.range'_concat]
theorem slots_last (o a r : Nat) : (slotsFrom N o a (r + 1)).getLast? = some (ridx N o (a + r)) := by rw [slots_concat]; simp
theorem slots_dropLast (o a r : Nat) : (slotsFrom N o a (r + 1)).dropLast = slotsFrom N o a r := by rw [slots_concat]; simp
theorem slots_length (o a r : Nat) : (slotsFrom N o a r).length = r := by simp [slotsFrom]
theorem slots_mem {o a r p : Nat} : p ∈ slotsFrom N o a r ↔ ∃ j, a ≤ j ∧ j < a + r ∧ ridx N o j = p := by
  simp only [slotsFrom, List.mem_map, List.mem_range'_1, and_assoc]
theorem slots_nodup {o a r : Nat} (h : a + r ≤ N) : (slotsFrom N o a r).Nodup := by
  induction r with
  | zero => simp [slotsFrom]
  | succ r ih =>
    rw [slots_concat, List.nodup_append]
    refine ⟨ih (by omega), by simp, ?_⟩
    intro x hx y hy
    obtain ⟨j, h1, h2, rfl⟩ := slots_mem.1 hx
    simp only [List.mem_singleton] at hy
    subst hy
    intro e
    have := ridx_inj (by omega) (by omega) e
    omega
theorem slots_lt {o a r : Nat} (ho : o < N) (h : a + r ≤ N) : ∀ p ∈ slotsFrom N o a r, p < N := by
  intro p hp
  obtain ⟨j, h1, h2, rfl⟩ := slots_mem.1 hp
  exact ridx_lt ho (by omega)

/-- The iterator over the positions `a..a+r`. -/
def idxOf (N o a r : Nat) : IdxIter := ⟨r, ridx N o a, ridx N o (a + r)⟩

theorem iterateSlots_eq (hW : 2 * N < E.W) {o : Nat} (ho : o < N) (sched : List Bool) (a r : Nat) (ha : a + r ≤ N) :
    ∃ a' r', iterateSlots E N sched (idxOf N o a r) c = .ok ((specIterate sched (slotsFrom N o a r)).1, idxOf N o a' r') c ∧
      (specIterate sched (slotsFrom N o a r)).2 = slotsFrom N o a' r' := by
  induction sched generalizing a r with
  | nil => exact ⟨a, r, rfl, rfl⟩
  | cons front q ih =>
    cases r with
    | zero =>
      obtain ⟨a', r', e1, e2⟩ := ih a 0 ha
      refine ⟨a', r', ?_, ?_⟩
      · have h0 : slotsFrom N o a 0 = [] := rfl
        rw [h0] at e1
        cases front <;>
          simp [iterateSlots, idxNext, idxNextBack, idxOf, specIterate, h0] <;> simp only [idxOf, Nat.add_zero] at e1 <;> simp [e1]
      · have h0 : slotsFrom N o a 0 = [] := rfl
        rw [h0] at e2 ⊢
        cases front <;> simpa [specIterate] using e2
    | succ r =>
      cases front with
      | true =>
        obtain ⟨a', r', e1, e2⟩ := ih (a + 1) r (by omega)
        refine ⟨a', r', ?_, ?_⟩
        · simp only [iterateSlots, specIterate, if_true, slots_head, slots_tail, M.bind_run, idxOf]
          rw [idxNext_eq hW ho (by omega)]
          have e : a + (r + 1) = a + 1 + r := by omega
          rw [e]
          unfold idxOf at e1
          simp only [Out.andThen_ok, M.bind_run, e1, M.pure_run]
        · simpa only [specIterate, if_true, slots_tail] using e2
      | false =>
        obtain ⟨a', r', e1, e2⟩ := ih a r (by omega)
        refine ⟨a', r', ?_, ?_⟩
        · simp only [iterateSlots, specIterate, Bool.false_eq_true, if_false, slots_last, slots_dropLast, M.bind_run, idxOf]
          rw [← Nat.add_assoc, idxNextBack_eq ho (by omega)]
          unfold idxOf at e1
          simp only [Out.andThen_ok, M.bind_run, e1, M.pure_run]
        · simpa only [specIterate, Bool.false_eq_true, if_false, slots_dropLast] using e2

theorem iterateRef_eq (hW : 2 * N < E.W) {o : Nat} (ho : o < N) (sched : List Bool) (a : Nat) (g : List A) (ha : a + g.length ≤ N)
    (hc : ∀ j, j < g.length → lm N o c.mem (a + j) = g[j]?) :
    ∃ a', iterateRef E N sched (idxOf N o a g.length) c =
      .ok ((specIterate sched g).1, idxOf N o a' (specIterate sched g).2.length) c := by
  induction sched generalizing a g with
  | nil => exact ⟨a, rfl⟩
  | cons front q ih =>
    cases hg : g with
    | nil =>
      subst hg
      obtain ⟨a', e1⟩ := ih a [] ha hc
      refine ⟨a', ?_⟩
      cases front <;>
        simp [iterateRef, iterNext, iterNextBack, idxOf, specIterate] <;> simp only [idxOf, List.length_nil, Nat.add_zero] at e1 <;> simp [e1]
    | cons x t =>
      cases front with
      | true =>
        subst hg
        simp only [List.length_cons] at ha
        obtain ⟨a', e1⟩ := ih (a + 1) t (by omega) (fun j hj => by
          have := hc (j + 1) (by simp; omega)
          rw [show a + 1 + j = a + (j + 1) by omega, this]; simp)
        refine ⟨a', ?_⟩
        have hx : lm N o c.mem a = some x := by simpa using hc 0 (by simp)
        simp only [iterateRef, specIterate, if_true, List.head?_cons, List.tail_cons, M.bind_run, idxOf, List.length_cons]
        rw [iterNext_eq hW ho (by omega), hx]
        have e : a + (t.length + 1) = a + 1 + t.length := by omega
        rw [e]
        unfold idxOf at e1
        simp only [Out.andThen_ok, M.bind_run, e1, M.pure_run]
      | false =>
        have hne : g ≠ [] := by rw [hg]; simp
        rw [← hg]
        have hlen : g.length = g.dropLast.length + 1 := by rw [hg]; simp
        obtain ⟨a', e1⟩ := ih a g.dropLast (by omega) (fun j hj => by
          rw [hc j (by omega), List.getElem?_dropLast, if_pos (by omega)])
        refine ⟨a', ?_⟩
        have hx : lm N o c.mem (a + g.dropLast.length) = g.getLast? := by
          rw [hc _ (by omega), List.getLast?_eq_getElem?, hlen]; rfl
        rw [List.getLast?_eq_some_getLast hne] at hx
        simp only [iterateRef, specIterate, Bool.false_eq_true, if_false, List.getLast?_eq_some_getLast hne, M.bind_run, idxOf, hlen]
        rw [← Nat.add_assoc, iterNextBack_eq ho (by omega), hx]
        unfold idxOf at e1
        simp only [Out.andThen_ok, M.bind_run, e1, M.pure_run]

theorem iterateOwned_eq (hW : 2 * N < E.W) (sched : List Bool) (h : View E N c l) :
    Returns (View E N) (iterateOwned E N sched c) (specIterate sched l).1 (specIterate sched l).2 := by
  induction sched generalizing c l with
  | nil => exact ⟨c, rfl, h⟩
  | cons front r ih =>
    cases front with
    | true =>
      obtain ⟨s, e, h1⟩ := (popFront_ref (E := E) hW (h.rep hW)).of_ok (a := l.head?) (t := l.tail) rfl
      obtain ⟨s', e', h2⟩ := ih (h1.view hW)
      exact ⟨s', by simp [iterateOwned, specIterate, e, e'], h2⟩
    | false =>
      obtain ⟨s, e, h1⟩ := (popBack_ref (E := E) hW (h.rep hW)).of_ok (a := l.getLast?) (t := l.dropLast) rfl
      obtain ⟨s', e', h2⟩ := ih (h1.view hW)
      exact ⟨s', by simp [iterateOwned, specIterate, e, e'], h2⟩

/-! ### C37 -/

/-- What iterating over a slot range with `iter_mut` means for the contents `l` of those slots: the yielded pointers are
distinct slots inside the storage which hold exactly `l` in order; the answers partition them as in `Yielded`. -/
def SlotsYielded (N : Nat) (c : Ring A) (l : List A) (sched : List Bool) (out : List (Option Nat)) (left : Nat) : Prop :=
  ∃ slots fs bs rest, slots.map c.mem = l.map some ∧ slots.Nodup ∧ (∀ p ∈ slots, p < N) ∧
    Yielded slots sched out fs bs rest ∧ left = rest.length

theorem iter_ok (hW : 2 * N < E.W) (h : Rep N c l) : iter E N c = .ok (idxOf N c.origin 0 l.length) c := by
  have := sat_rawAdd (E := E) (σ := Ring A) (P := fun _ => False) (B := False)
    (Q := fun r s' => r = ridx N c.origin c.length ∧ s' = c) (s := c) hW h.org (by rw [h.len]; exact h.le) ⟨rfl, rfl⟩
  cases hx : rawAdd E N c.origin c.length c <;> rw [hx] at this <;> simp [Sat] at this
  obtain ⟨rfl, rfl⟩ := this
  rw [← h.len]
  simp only [iter, getOrigin, getLen, M.bind_run, Out.andThen_ok, hx, M.pure_run, idxOf, ridx_zero h.org, Nat.zero_add]
theorem iterMut_ok (hW : 2 * N < E.W) (h : Rep N c l) : iterMut E N c = .ok (idxOf N c.origin 0 l.length) c := by
  have := sat_rawAdd (E := E) (σ := Ring A) (P := fun _ => False) (B := False)
    (Q := fun r s' => r = ridx N c.origin c.length ∧ s' = c) (s := c) hW h.org (by rw [h.len]; exact h.le) ⟨rfl, rfl⟩
  cases hx : rawAdd E N c.origin c.length c <;> rw [hx] at this <;> simp [Sat] at this
  obtain ⟨rfl, rfl⟩ := this
  rw [← h.len]
  simp only [iterMut, iterMutSlice, getOrigin, getLen, M.bind_run, Out.andThen_ok, hx, M.pure_run, idxOf, ridx_zero h.org, Nat.zero_add]

theorem slots_map {o a : Nat} {g : List A} (ha : a + g.length ≤ N) (hc : ∀ j, j < g.length → lm N o c.mem (a + j) = g[j]?) :
    (slotsFrom N o a g.length).map c.mem = g.map some := by
  apply List.ext_getElem?
  intro j
  by_cases hj : j < g.length
  · have := hc j hj
    unfold lm at this
    rw [if_pos (by omega)] at this
    simp [slotsFrom, hj, this]
  · simp [slotsFrom, hj]

/-- C37. `iter()` under any interleaving of `next` and `next_back`: the items yielded at the front, those left and those yielded
at the back (reversed) are together exactly the contents; `size_hint` is exact throughout; the buffer is untouched. -/
theorem C37_iter (hW : 2 * N < E.W) (h : View E N c l) (sched : List Bool) :
    ∃ it out it' fs bs rest, iter E N c = .ok it c ∧ iterateRef E N sched it c = .ok (out, it') c ∧
      Yielded l sched out fs bs rest ∧ iterHint it' = (rest.length, some rest.length) := by
  have hr := h.rep hW
  obtain ⟨a', e⟩ := iterateRef_eq (E := E) (c := c) hW hr.org sched 0 l (by have := hr.le; omega)
    (fun j hj => by rw [Nat.zero_add]; exact hr.cell j hj)
  obtain ⟨fs, bs, hy⟩ := Yielded.run (sched := sched) (l := l) (f := specIterate) (fun _ => rfl) (fun _ _ _ => rfl)
  exact ⟨_, _, _, fs, bs, _, iter_ok hW hr, e, hy, rfl⟩

/-- C37. `iter_mut()` under any interleaving: the `&mut` references yielded point to pairwise distinct slots of the storage,
which hold the contents in order. -/
theorem C37_iter_mut (hW : 2 * N < E.W) (h : View E N c l) (sched : List Bool) :
    ∃ it out it', iterMut E N c = .ok it c ∧ iterateSlots E N sched it c = .ok (out, it') c ∧
      SlotsYielded N c l sched out it'.remaining ∧ iterHint it' = (it'.remaining, some it'.remaining) := by
  have hr := h.rep hW
  have hle := hr.le
  obtain ⟨a', r', e, e2⟩ := iterateSlots_eq (E := E) (c := c) hW hr.org sched 0 l.length (by omega)
  obtain ⟨fs, bs, hy⟩ := Yielded.run (sched := sched) (l := slotsFrom N c.origin 0 l.length) (f := specIterate) (fun _ => rfl) (fun _ _ _ => rfl)
  refine ⟨_, _, _, iterMut_ok hW hr, e, ⟨_, fs, bs, _, slots_map (by omega) (fun j hj => by rw [Nat.zero_add]; exact hr.cell j hj),
    slots_nodup (by omega), slots_lt hr.org (by omega), hy, ?_⟩, rfl⟩
  rw [e2, slots_length]; rfl

/-- C37. `drain()` and `into_iter()` under any interleaving; an abandoned drain leaves exactly the rest in the buffer. -/
theorem C37_drain_into_iter (hW : 2 * N < E.W) (h : View E N c l) (sched : List Bool) :
    ∃ out fs bs rest c', iterateOwned E N sched c = .ok out c' ∧ Yielded l sched out fs bs rest ∧ View E N c' rest ∧
      sizeHint c' = .ok (rest.length, some rest.length) c' := by
  obtain ⟨s, e, h1⟩ := iterateOwned_eq hW sched h
  obtain ⟨fs, bs, hy⟩ := Yielded.run (sched := sched) (l := l) (f := specIterate) (fun _ => rfl) (fun _ _ _ => rfl)
  exact ⟨_, fs, bs, _, s, e, hy, h1, sizeHint_eq (h1.rep hW)⟩

/-- C37. `iter()` and `iter_mut()` of a slice showing the positions `a..b`, likewise. -/
theorem C37_slice_iterators (hW : 2 * N < E.W) (h : View E N c l) (sched : List Bool) (a b : Nat) (h1 : a ≤ b) (h2 : b ≤ l.length) :
    (∃ it out it' fs bs rest, sliceIter E N ⟨a, b⟩ c = .ok it c ∧ iterateRef E N sched it c = .ok (out, it') c ∧
      Yielded ((l.take b).drop a) sched out fs bs rest ∧ iterHint it' = (rest.length, some rest.length)) ∧
    (∃ it out it', sliceIterMut E N ⟨a, b⟩ c = .ok it c ∧ iterateSlots E N sched it c = .ok (out, it') c ∧
      SlotsYielded N c ((l.take b).drop a) sched out it'.remaining) := by
  have hr := h.rep hW
  have hle := hr.le
  have hlen : ((l.take b).drop a).length = b - a := by simp; omega
  have hcell : ∀ j, j < ((l.take b).drop a).length → lm N c.origin c.mem (a + j) = ((l.take b).drop a)[j]? := by
    intro j hj
    rw [hr.cell _ (by omega), List.getElem?_drop, List.getElem?_take, if_pos (by omega)]
  have e1 : sliceIter E N ⟨a, b⟩ c = .ok (idxOf N c.origin a (b - a)) c := by
    have := sat_sliceIter (E := E) (N := N) (c := c) (P := fun _ => False) (B := False) (a := a) (b := b)
      (Q := fun r s' => r = idxOf N c.origin a (b - a) ∧ s' = c) hW hr.org h1 (by omega)
      ⟨by unfold idxOf; rw [show a + (b - a) = b by omega], rfl⟩
    cases hx : sliceIter E N ⟨a, b⟩ c <;> rw [hx] at this <;> simp [Sat] at this
    rw [this.1, this.2]
  have e2 : sliceIterMut E N ⟨a, b⟩ c = .ok (idxOf N c.origin a (b - a)) c := by
    have := sat_sliceIterMut (E := E) (N := N) (c := c) (P := fun _ => False) (B := False) (a := a) (b := b)
      (Q := fun r s' => r = idxOf N c.origin a (b - a) ∧ s' = c) hW hr.org h1 (by omega)
      ⟨by unfold idxOf; rw [show a + (b - a) = b by omega], rfl⟩
    cases hx : sliceIterMut E N ⟨a, b⟩ c <;> rw [hx] at this <;> simp [Sat] at this
    rw [this.1, this.2]
  constructor
  · obtain ⟨a', e⟩ := iterateRef_eq (E := E) (c := c) hW hr.org sched a ((l.take b).drop a) (by omega) hcell
    obtain ⟨fs, bs, hy⟩ := Yielded.run (sched := sched) (l := (l.take b).drop a) (f := specIterate) (fun _ => rfl) (fun _ _ _ => rfl)
    rw [hlen] at e
    exact ⟨_, _, _, fs, bs, _, e1, e, hy, rfl⟩
  · obtain ⟨a', r', e, e3⟩ := iterateSlots_eq (E := E) (c := c) hW hr.org sched a (b - a) (by omega)
    obtain ⟨fs, bs, hy⟩ := Yielded.run (sched := sched) (l := slotsFrom N c.origin a (b - a)) (f := specIterate) (fun _ => rfl) (fun _ _ _ => rfl)
    have hm := slots_map (N := N) (c := c) (o := c.origin) (a := a) (by omega) hcell
    rw [hlen] at hm
    refine ⟨_, _, _, e2, e, ⟨_, fs, bs, _, hm, slots_nodup (by omega), slots_lt hr.org (by omega), hy, ?_⟩⟩
    rw [e3, slots_length]; rfl

/-- C37 is not vacuous: `seam` iterated back, front, front. -/
example : (∃ c', iterateOwned dbg64 3 [false, true, true] seam = .ok [some 20, some 10, none] c' ∧ items dbg64 3 c' = .ok [] c') ∧
    (∃ it it', iter dbg64 3 seam = .ok it seam ∧ iterateRef dbg64 3 [false, true, true] it seam = .ok ([some 20, some 10, none], it') seam) ∧
    (∃ it it', iterMut dbg64 3 seam = .ok it seam ∧ iterateSlots dbg64 3 [false, true, true] it seam = .ok ([some 0, some 2, none], it') seam) :=
  ⟨⟨_, rfl, rfl⟩, ⟨_, _, rfl, rfl⟩, ⟨_, _, rfl, rfl⟩⟩

end Verif.Ring
