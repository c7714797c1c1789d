import Verif.Walk
import Verif.Props.Pour
import Verif.Props.RingIter
import Verif.Props.SparseOps
/-
C113: whatever code does with an iterator.
-/
namespace Verif
variable {A B R S σ τ : Type}

/-- Step by step, the iterator `it` does to states what `ls` does to lists; `I` relates them while the iterator lives, `T` afterwards. -/
structure Ends.Sim (it : Ends τ A B) (ls : Ends (List B) A B) (both : Bool) (I T : τ → List B → Prop) : Prop where
  next : ∀ t l, I t l → Ref I (it.next t) (ls.next l)
  nextBack : both = true → ∀ t l, I t l → Ref I (it.nextBack t) (ls.nextBack l)
  hint : ∀ t l, I t l → Ref I (it.hint t) (ls.hint l)
  toss : ∀ b t l log, I t l → Ref (RelLog I) (it.toss b (t, log)) (ls.toss b (l, log))
  drop : ∀ t l log, I t l → Ref (RelLog T) (it.drop (t, log)) (ls.drop (l, log))

namespace Ends.Sim
variable {it : Ends τ A B} {ls : Ends (List B) A B} {both : Bool} {I T : τ → List B → Prop}

theorem unwind (h : it.Sim ls both I T) {α : Type} {x : M (τ × List A) α} {y : M (List B × List A) α} {t : τ} {l : List B} {log : List A}
    (hx : Ref (RelLog I) (x (t, log)) (y (l, log))) {f : α → M (τ × List A) R} {g : α → M (List B × List A) R}
    (hf : ∀ a t l log, I t l → Ref (RelLog T) (f a (t, log)) (g a (l, log))) :
    Ref (RelLog T) ((do f (← M.onUnwind x it.drop)) (t, log)) ((do g (← M.onUnwind y ls.drop)) (l, log)) := by
  simp only [M.bind_run, M.onUnwind]
  cases hh : x (t, log) <;> rw [hh] at hx <;> simp only [Ref, Sat] at hx
  · obtain ⟨⟨l', lg⟩, e, h1, h2⟩ := hx
    rename_i a s
    obtain ⟨t', lg'⟩ := s
    simp only at h1 h2; subst h2
    rw [e]
    exact hf _ _ _ _ h1
  · obtain ⟨⟨l', lg⟩, e, h1, h2⟩ := hx
    rename_i s
    obtain ⟨t', lg'⟩ := s
    simp only at h1 h2; subst h2
    rw [e]
    have hd := h.drop t' l' lg' h1
    dsimp only
    cases hh2 : it.drop (t', lg') <;> rw [hh2] at hd <;> simp only [Ref, Sat] at hd
    · obtain ⟨s2, e2, h3⟩ := hd; rw [e2]; exact ⟨_, rfl, h3⟩
    · obtain ⟨s2, e2, h3⟩ := hd; rw [e2]; exact rfl
    · rw [hd]; exact rfl
  · rw [hx]; exact rfl

theorem onFst {α : Type} {x : M τ α} {y : M (List B) α} {t : τ} {l : List B} {log : List A} (hx : Ref I (x t) (y l)) :
    Ref (RelLog I) (M.onFst x (t, log)) (M.onFst y (l, log)) := by
  simp only [M.onFst_run]
  cases hh : x t <;> rw [hh] at hx <;> simp only [Ref, Sat] at hx
  · obtain ⟨s, e, h⟩ := hx; rw [e]; exact ⟨_, rfl, h, rfl⟩
  · obtain ⟨s, e, h⟩ := hx; rw [e]; exact ⟨_, rfl, h, rfl⟩
  · rw [hx]; exact rfl

theorem walks (h : it.Sim ls both I T) {t : τ} {l : List B} (hi : I t l) : it.Walks ls both T t l := by
  intro R w
  induction w generalizing t l with
  | stop r =>
    intro log
    have hd := h.drop t l log hi
    simp only [Walker.run, M.bind_run]
    cases hh : it.drop (t, log) <;> rw [hh] at hd <;> simp only [Ref, Sat] at hd
    · obtain ⟨s2, e2, h3⟩ := hd; rw [e2]; exact ⟨_, rfl, h3⟩
    · obtain ⟨s2, e2, h3⟩ := hd; rw [e2]; exact ⟨_, rfl, h3⟩
    · rw [hd]; exact rfl
  | panic =>
    intro log
    have hd := h.drop t l log hi
    simp only [Walker.run, M.onUnwind, M.panic]
    cases hh : it.drop (t, log) <;> rw [hh] at hd <;> simp only [Ref, Sat] at hd
    · obtain ⟨s2, e2, h3⟩ := hd; rw [e2]; exact ⟨_, rfl, h3⟩
    · obtain ⟨s2, e2, h3⟩ := hd; rw [e2]; exact rfl
    · rw [hd]; exact rfl
  | next k ih => intro log; exact h.unwind (onFst (h.next t l hi)) fun a _ _ lg hi => ih a hi lg
  | nextBack hb k ih => intro log; exact h.unwind (onFst (h.nextBack hb t l hi)) fun a _ _ lg hi => ih a hi lg
  | hint k ih => intro log; exact h.unwind (onFst (h.hint t l hi)) fun a _ _ lg hi => ih a hi lg
  | toss b k ih => intro log; exact h.unwind (h.toss b t l log hi) fun _ _ _ lg hi => ih hi lg

end Ends.Sim

theorem toss_ref {I : τ → List B → Prop} (dp : A → Bool) (a : A) {t : τ} {l : List B} (log : List A) (h : I t l) :
    Ref (RelLog I) (dropOne dp a (t, log)) (dropOne dp a (l, log)) := by
  unfold dropOne
  split
  · exact ⟨_, rfl, h, rfl⟩
  · exact ⟨_, rfl, h, rfl⟩

theorem pure_ref {I : τ → List B → Prop} {t : τ} {l : List B} (log : List A) (h : I t l) :
    Ref (RelLog I) ((pure () : M (τ × List A) Unit) (t, log)) ((pure () : M (List B × List A) Unit) (l, log)) := ⟨_, rfl, h, rfl⟩

theorem hint_ref {I : τ → List B → Prop} {x : M τ (Nat × Option Nat)} {f : List B → Nat × Option Nat} {t : τ} {l : List B} (e : x t = .ok (f l) t) (h : I t l) :
    Ref I (x t) (.ok (f l) l) := by rw [e]; exact ⟨_, rfl, h⟩

theorem Ref.forget {o : Out (τ × List A) Unit} {o' : Out (List B × List A) Unit} {I : τ → List B → Prop} (h : Ref (RelLog I) o o') :
    Ref (RelLog fun _ _ => True) o o' :=
  Sat.imp h (fun _ _ ⟨t, e, _, h⟩ => ⟨t, e, trivial, h⟩) (fun _ ⟨t, e, _, h⟩ => ⟨t, e, trivial, h⟩) id

theorem stepping_some {next : S → M σ (Option (B × S))} {c c' : σ} {s s' : S} {b : B} (e : next s c = .ok (some (b, s')) c') :
    stepping next (c, s) = .ok (some b) (c', s') := by
  simp [stepping, e]
theorem stepping_none {next : S → M σ (Option (B × S))} {c c' : σ} {s : S} (e : next s c = .ok none c') :
    stepping next (c, s) = .ok none (c', s) := by
  simp [stepping, e]

namespace Chunk
variable {E : Env} {N : Nat} {c : Chunk A} {l : List A}

/-- C113. Whatever code does with `drain()` of a chunk, it sees, gets and destroys what it would with the list of the items; those not taken stay in
the chunk. -/
theorem C113_drain (hN : 2 * N < E.W) (dp : A → Bool) (h : View E N c l) : (drainEnds E N dp).Walks (ListIter.draining dp) true (View E N) c l := by
  refine Ends.Sim.walks (I := Rep N) ⟨fun t l h => iterNext_ref (by omega) h, fun _ t l h => iterNextBack_ref h, fun t l h => hint_ref (sizeHint_eq h) h,
    fun b t l log h => toss_ref dp b log h, fun t l log h => pure_ref log (h.view E)⟩ (h.rep hN)

/-- C113. Whatever code does with `into_iter()` of a chunk, it sees, gets and destroys what it would with the list of the items; those not taken are
destroyed with the iterator. -/
theorem C113_into_iter (hN : 2 * N < E.W) (dp : A → Bool) (h : View E N c l) : (intoIterEnds E N dp).Walks (ListIter.consuming dp) true (fun _ _ => True) c l := by
  refine Ends.Sim.walks (I := Rep N) ⟨fun t l h => iterNext_ref (by omega) h, fun _ t l h => iterNextBack_ref h, fun t l h => hint_ref (sizeHint_eq h) h,
    fun b t l log h => toss_ref dp b log h, fun t l log h => (drop_ref dp h log).forget⟩ (h.rep hN)

end Chunk

namespace Ring
variable {E : Env} {N : Nat} {c : Ring A} {l : List A}

/-- C113. `drain()` of a buffer. -/
theorem C113_drain (hW : 2 * N < E.W) (dp : A → Bool) (h : View E N c l) : (drainEnds E N dp).Walks (ListIter.draining dp) true (View E N) c l := by
  refine Ends.Sim.walks (I := Rep N) ⟨fun t l h => popFront_ref hW h, fun _ t l h => popBack_ref hW h, fun t l h => hint_ref (sizeHint_eq h) h,
    fun b t l log h => toss_ref dp b log h, fun t l log h => pure_ref log (h.view hW)⟩ (h.rep hW)

/-- C113. `into_iter()` of a buffer, which destroys the items not taken one at a time. -/
theorem C113_into_iter (hW : 2 * N < E.W) (dp : A → Bool) (h : View E N c l) : (intoIterEnds E N dp).Walks (ListIter.consumingSeq dp) true (fun _ _ => True) c l := by
  refine Ends.Sim.walks (I := Rep N) ⟨fun t l h => popFront_ref hW h, fun _ t l h => popBack_ref hW h, fun t l h => hint_ref (sizeHint_eq h) h,
    fun b t l log h => toss_ref dp b log h, fun t l log h => (drop_ref hW dp h log).forget⟩ (h.rep hW)

/-- Where an `Iter` is: the buffer is untouched, and the positions `a..` still to come hold `g`. -/
def AtIter (N : Nat) (c : Ring A) (t : Ring A × IdxIter) (g : List A) : Prop :=
  t.1 = c ∧ ∃ a, t.2 = idxOf N c.origin a g.length ∧ a + g.length ≤ N ∧ ∀ j, j < g.length → lm N c.origin c.mem (a + j) = g[j]?

theorem iter_sim (hW : 2 * N < E.W) (ho : c.origin < N) :
    (iterEnds E N : Ends _ A A).Sim (ListIter.lending ListIter.exactly) true (AtIter N c) (fun t _ => t.1 = c) where
  next := by
    rintro ⟨c', it⟩ g ⟨rfl, a, e, ha, hc⟩
    simp only at e ho; subst e
    cases g with
    | nil => exact Sat.of_eq_ok (stepping_none (by simp [iterNext, idxOf])) ⟨_, rfl, rfl, a, rfl, ha, hc⟩
    | cons x g =>
      simp only [List.length_cons] at ha
      have hx : lm N c'.origin c'.mem a = some x := by simpa using hc 0 (by simp)
      have e := iterNext_eq (E := E) (c := c') (right := ridx N c'.origin (a + (g.length + 1))) hW ho (show a + g.length + 1 ≤ N by omega)
      rw [hx] at e
      refine Sat.of_eq_ok (stepping_some e) ⟨g, rfl, rfl, a + 1, ?_, by omega, fun j hj => ?_⟩
      · simp only [idxOf]; rw [show a + (g.length + 1) = a + 1 + g.length by omega]
      · have := hc (j + 1) (by simp; omega)
        rw [show a + 1 + j = a + (j + 1) by omega, this]; simp
  nextBack := by
    rintro - ⟨c', it⟩ g ⟨rfl, a, e, ha, hc⟩
    simp only at e ho; subst e
    by_cases hg : g = []
    · subst hg
      exact Sat.of_eq_ok (stepping_none (by simp [iterNextBack, idxOf])) ⟨_, rfl, rfl, a, rfl, ha, hc⟩
    · have hlen : g.length = g.dropLast.length + 1 := by
        have := List.length_pos_iff.2 hg
        simp; omega
      have hx : lm N c'.origin c'.mem (a + g.dropLast.length) = some (g.getLast hg) := by
        rw [hc _ (by omega), ← List.getLast?_eq_some_getLast hg, List.getLast?_eq_getElem?, hlen]; rfl
      have e := iterNextBack_eq (E := E) (c := c') (b := a + g.dropLast.length) (r := g.dropLast.length) (left := ridx N c'.origin a) ho (by omega)
      rw [hx] at e
      refine Sat.of_eq_ok (stepping_some (s' := idxOf N c'.origin a g.dropLast.length) (b := g.getLast hg) (c' := c') ?_) ⟨g.dropLast, ?_, rfl, a, rfl, by omega, fun j hj => ?_⟩
      · simp only [idxOf, hlen]; exact e
      · simp [ListIter.lending, listEnds, Spec.popBack?, List.getLast?_eq_some_getLast hg]
      · rw [hc j (by omega), List.getElem?_dropLast, if_pos (by omega)]
  hint := by
    rintro ⟨c', it⟩ g ⟨rfl, a, e, ha, hc⟩
    simp only at e; subst e
    exact ⟨g, rfl, rfl, a, rfl, ha, hc⟩
  toss _ _ _ log h := pure_ref log h
  drop _ _ log h := pure_ref log h.1

/-- Where an `IterMut` is: the slots `g` are still to come. -/
def AtIterMut (N : Nat) (c : Ring A) (t : Ring A × IdxIter) (g : List Nat) : Prop :=
  t.1 = c ∧ ∃ a r, t.2 = idxOf N c.origin a r ∧ a + r ≤ N ∧ g = slotsFrom N c.origin a r

theorem iterMut_sim (hW : 2 * N < E.W) (ho : c.origin < N) :
    (iterMutEnds E N : Ends _ A Nat).Sim (ListIter.lending ListIter.exactly) true (AtIterMut N c) (fun t _ => t.1 = c) where
  next := by
    rintro ⟨c', it⟩ g ⟨rfl, a, r, e, ha, rfl⟩
    simp only at e ho; subst e
    cases r with
    | zero => exact Sat.of_eq_ok (stepping_none (by simp [idxNext, idxOf])) ⟨_, rfl, rfl, a, 0, rfl, ha, rfl⟩
    | succ r =>
      have e := idxNext_eq (E := E) (s := c') (right := ridx N c'.origin (a + (r + 1))) hW ho (show a + r + 1 ≤ N by omega)
      refine Sat.of_eq_ok (stepping_some e) ⟨slotsFrom N c'.origin (a + 1) r, ?_, rfl, a + 1, r, ?_, by omega, rfl⟩
      · have h1 := slots_head (N := N) c'.origin a r
        have h2 := slots_tail (N := N) c'.origin a r
        cases hs : slotsFrom N c'.origin a (r + 1) <;> rw [hs] at h1 h2 <;> simp_all [ListIter.lending, listEnds, Spec.popFront?]
      · simp only [idxOf]; rw [show a + (r + 1) = a + 1 + r by omega]
  nextBack := by
    rintro - ⟨c', it⟩ g ⟨rfl, a, r, e, ha, rfl⟩
    simp only at e ho; subst e
    cases r with
    | zero => exact Sat.of_eq_ok (stepping_none (by simp [idxNextBack, idxOf])) ⟨_, rfl, rfl, a, 0, rfl, ha, rfl⟩
    | succ r =>
      have e := idxNextBack_eq (E := E) (s := c') (b := a + r) (r := r) (left := ridx N c'.origin a) ho (by omega)
      refine Sat.of_eq_ok (stepping_some (s' := idxOf N c'.origin a r) e) ⟨slotsFrom N c'.origin a r, ?_, rfl, a, r, rfl, by omega, rfl⟩
      simp [ListIter.lending, listEnds, Spec.popBack?, slots_last, slots_dropLast]
  hint := by
    rintro ⟨c', it⟩ g ⟨rfl, a, r, e, ha, rfl⟩
    simp only at e; subst e
    refine ⟨_, ?_, rfl, a, r, rfl, ha, rfl⟩
    simp [ListIter.lending, listEnds, ListIter.exactly, slots_length, iterHint, idxOf]
  toss _ _ _ log h := pure_ref log h
  drop _ _ log h := pure_ref log h.1

/-- C113. `iter()` of a buffer, which is left alone. -/
theorem C113_iter (hW : 2 * N < E.W) (h : View E N c l) : ∃ it, iter E N c = .ok it c ∧
    (iterEnds E N : Ends _ A A).Walks (ListIter.lending ListIter.exactly) true (fun t _ => t.1 = c) (c, it) l := by
  have hr := h.rep hW
  exact ⟨_, iter_ok hW hr, (iter_sim hW hr.org).walks ⟨rfl, 0, rfl, by have := hr.le; omega, fun j hj => by rw [Nat.zero_add]; exact hr.cell j hj⟩⟩

/-- C113. `iter_mut()` of a buffer: the references point to pairwise distinct slots, which hold the items in order. -/
theorem C113_iter_mut (hW : 2 * N < E.W) (h : View E N c l) : ∃ it slots, iterMut E N c = .ok it c ∧
    slots.map c.mem = l.map some ∧ slots.Nodup ∧ (∀ p ∈ slots, p < N) ∧
    (iterMutEnds E N : Ends _ A Nat).Walks (ListIter.lending ListIter.exactly) true (fun t _ => t.1 = c) (c, it) slots := by
  have hr := h.rep hW
  have hle := hr.le
  exact ⟨_, _, iterMut_ok hW hr, slots_map (by omega) (fun j hj => by rw [Nat.zero_add]; exact hr.cell j hj), slots_nodup (by omega), slots_lt hr.org (by omega),
    (iterMut_sim hW hr.org).walks ⟨rfl, 0, _, rfl, by omega, rfl⟩⟩

/-- C113. `iter()` and `iter_mut()` of a slice showing the positions `a..b`. -/
theorem C113_slice_iterators (hW : 2 * N < E.W) (h : View E N c l) (a b : Nat) (h1 : a ≤ b) (h2 : b ≤ l.length) :
    (∃ it, sliceIter E N ⟨a, b⟩ c = .ok it c ∧
      (iterEnds E N : Ends _ A A).Walks (ListIter.lending ListIter.exactly) true (fun t _ => t.1 = c) (c, it) ((l.take b).drop a)) ∧
    (∃ it slots, sliceIterMut E N ⟨a, b⟩ c = .ok it c ∧ slots.map c.mem = ((l.take b).drop a).map some ∧ slots.Nodup ∧ (∀ p ∈ slots, p < N) ∧
      (iterMutEnds E N : Ends _ A Nat).Walks (ListIter.lending ListIter.exactly) true (fun t _ => t.1 = c) (c, it) slots) := by
  have hr := h.rep hW
  have hle := hr.le
  have hlen : ((l.take b).drop a).length = b - a := by simp; omega
  have hcell : ∀ j, j < ((l.take b).drop a).length → lm N c.origin c.mem (a + j) = ((l.take b).drop a)[j]? := by
    intro j hj
    rw [hr.cell _ (by omega), List.getElem?_drop, List.getElem?_take, if_pos (by omega)]
  have e1 : sliceIter E N ⟨a, b⟩ c = .ok (idxOf N c.origin a (b - a)) c := by
    have := sat_sliceIter (E := E) (N := N) (c := c) (P := fun _ => False) (B := False) (a := a) (b := b)
      (Q := fun r s' => r = idxOf N c.origin a (b - a) ∧ s' = c) hW hr.org h1 (by omega)
      ⟨by unfold idxOf; rw [show a + (b - a) = b by omega], rfl⟩
    cases hx : sliceIter E N ⟨a, b⟩ c <;> rw [hx] at this <;> simp [Sat] at this
    rw [this.1, this.2]
  have e2 : sliceIterMut E N ⟨a, b⟩ c = .ok (idxOf N c.origin a (b - a)) c := by
    have := sat_sliceIterMut (E := E) (N := N) (c := c) (P := fun _ => False) (B := False) (a := a) (b := b)
      (Q := fun r s' => r = idxOf N c.origin a (b - a) ∧ s' = c) hW hr.org h1 (by omega)
      ⟨by unfold idxOf; rw [show a + (b - a) = b by omega], rfl⟩
    cases hx : sliceIterMut E N ⟨a, b⟩ c <;> rw [hx] at this <;> simp [Sat] at this
    rw [this.1, this.2]
  have hm := slots_map (N := N) (c := c) (o := c.origin) (a := a) (by omega) hcell
  rw [hlen] at hm
  exact ⟨⟨_, e1, (iter_sim hW hr.org).walks ⟨rfl, a, by rw [hlen], by omega, hcell⟩⟩,
    ⟨_, _, e2, hm, slots_nodup (by omega), slots_lt hr.org (by omega), (iterMut_sim hW hr.org).walks ⟨rfl, a, _, rfl, by omega, rfl⟩⟩⟩

end Ring

namespace Inline
variable [DecidableEq A] {E : Env} {L : Layout A} {s : Inline A} {l : List A} {dp' : A → Bool} {cl : A → Option A}

/-- C113. `drain()` of an inline array. -/
theorem C113_drain (hv : L.Valid E) (dp : A → Bool) (hr : Reachable E L dp' cl s) (h : View E L s l) :
    (drainEnds E L dp).Walks (ListIter.draining dp) true (View E L) s l := by
  refine Ends.Sim.walks (I := Rep E L) ⟨fun t l h => iterNext_ref hv h, fun _ t l h => iterNextBack_ref hv h, fun t l h => hint_ref (sizeHint_eq hv h) h,
    fun b t l log h => toss_ref dp b log h, fun t l log h => pure_ref log (h.view hv)⟩ (hr.rep_of_view hv h)

/-- C113. `into_iter()` of an inline array. -/
theorem C113_into_iter (hv : L.Valid E) (dp : A → Bool) (hr : Reachable E L dp' cl s) (h : View E L s l) :
    (intoIterEnds E L dp).Walks (ListIter.consuming dp) true (fun _ _ => True) s l := by
  refine Ends.Sim.walks (I := Rep E L) ⟨fun t l h => iterNext_ref hv h, fun _ t l h => iterNextBack_ref hv h, fun t l h => hint_ref (sizeHint_eq hv h) h,
    fun b t l log h => toss_ref dp b log h, fun t l log h => (drop_ref hv h dp log).forget⟩ (hr.rep_of_view hv h)

end Inline
namespace Sparse
variable {E : Env} {N : Nat} {c : Sparse A} {m : SMap A}

theorem drain_sim (dp : A → Bool) : (drainEnds N dp).Sim (ListIter.consumingSeq dp) false (fun c k => ∃ m, Rep N c m ∧ m.vals N = k) (fun _ _ => True) where
  next := by
    rintro t l ⟨m, h, rfl⟩
    obtain ⟨s, e, hs, m', hm'⟩ := drain_rep h.view (items_eq h) 1
    simp only [drainMany, M.bind_run] at e
    rw [items_eq hm'] at hs
    injection hs with hs
    cases hp : pop N t <;> simp [hp] at e
    obtain ⟨rfl, rfl⟩ := e
    refine Sat.of_eq_ok hp ⟨(m.vals N).drop 1, ?_, m', hm', hs⟩
    cases hv : m.vals N <;> simp [ListIter.consumingSeq, listEnds, Spec.popFront?]
  nextBack h := by cases h
  hint := by
    rintro t l ⟨m, h, rfl⟩
    exact hint_ref (C49_drain_size_hint h.view (items_eq h)) ⟨m, h, rfl⟩
  toss b _ _ log h := toss_ref dp b log h
  drop := by
    rintro t l log ⟨m, h, rfl⟩
    have := drop_ref h dp log
    unfold MSpec.drop at this
    simp only [drainEnds, ListIter.consumingSeq, listEnds, Spec.dropSeq, Spec.droppingSeq]
    dsimp only at this
    by_cases hd : (m.vals N).any dp = true
    · rw [if_pos hd] at this ⊢
      obtain ⟨s, e, -, hs⟩ := this.of_panic rfl
      rw [e]; exact ⟨_, rfl, trivial, hs⟩
    · rw [if_neg hd] at this ⊢
      obtain ⟨s, e, -, hs⟩ := this.of_ok rfl
      rw [e]; exact ⟨_, rfl, trivial, hs⟩

/-- C113. `drain()` and `into_iter()` of a sparse chunk: over its elements by ascending index. -/
theorem C113_drain (dp : A → Bool) (h : View N c m) {k : List A} (hk : items N c = .ok k c) :
    (drainEnds N dp).Walks (ListIter.consumingSeq dp) false (fun _ _ => True) c k := by
  rw [items_eq h.rep] at hk
  injection hk with hk
  exact (drain_sim dp).walks ⟨m, h.rep, hk⟩

/-- C113. `iter()` of a sparse chunk, which is left alone. -/
theorem C113_iter (h : View N c m) {k : List A} (hk : items N c = .ok k c) :
    (iterEnds N : Ends _ A A).Walks (ListIter.lending fun _ => (0, some N)) false (fun t _ => t.1 = c) (c, 0) k := by
  have hr := h.rep
  rw [items_eq hr] at hk
  injection hk with hk
  refine Ends.Sim.walks (I := fun t k => t.1 = c ∧ k = (idxFrom N c.map t.2).filterMap m) ⟨?_, fun h => (by cases h), ?_, fun _ _ _ log h => pure_ref log h,
    fun _ _ log h => pure_ref log h.1⟩ ⟨rfl, by rw [idxFrom_zero, keys_eq hr, keys_filterMap, hk]⟩
  · rintro ⟨c', pos⟩ k ⟨rfl, rfl⟩
    simp only at hr
    have e := iterNext_eq hr pos
    rcases idxFrom_cons (N := N) c'.map pos with h0 | ⟨i, h1, h2, h3, h4⟩
    · rw [h0] at e
      exact Sat.of_eq_ok (stepping_none e) ⟨[], by simp [h0, ListIter.lending, listEnds, Spec.popFront?], rfl, by simp [h0]⟩
    · have hs : (m i).isSome = true := by rw [← hr.map i h2, h3]
      obtain ⟨a, ha⟩ := Option.isSome_iff_exists.1 hs
      rw [h4] at e
      simp only [List.head?_cons, Option.bind_some, ha, Option.map_some] at e
      exact Sat.of_eq_ok (stepping_some e) ⟨_, by simp [h4, ha, ListIter.lending, listEnds, Spec.popFront?], rfl, rfl⟩
  · rintro ⟨c', pos⟩ k ⟨rfl, rfl⟩
    exact ⟨_, rfl, rfl, rfl⟩

/-- C113. `indices()` of a sparse chunk. -/
theorem C113_indices (h : View N c m) {k : List Nat} (hk : indices N c = .ok k c) :
    (indicesEnds N : Ends _ A Nat).Walks (ListIter.lending fun _ => (0, none)) false (fun t _ => t.1 = c) (c, 0) k := by
  have hr := h.rep
  rw [indices_eq hr] at hk
  injection hk with hk
  refine Ends.Sim.walks (I := fun t k => t.1 = c ∧ k = idxFrom N c.map t.2) ⟨?_, fun h => (by cases h), ?_, fun _ _ _ log h => pure_ref log h,
    fun _ _ log h => pure_ref log h.1⟩ ⟨rfl, by rw [idxFrom_zero, keys_eq hr, hk]⟩
  · rintro ⟨c', pos⟩ k ⟨rfl, rfl⟩
    have e : indicesNext N pos c' = .ok ((idxFrom N c'.map pos).head?.map fun i => (i, i + 1)) c' := by
      simp [indicesNext, getMap, bmNext_eq]
    rcases idxFrom_cons (N := N) c'.map pos with h0 | ⟨i, h1, h2, h3, h4⟩
    · rw [h0] at e
      exact Sat.of_eq_ok (stepping_none e) ⟨[], by simp [h0, ListIter.lending, listEnds, Spec.popFront?], rfl, by simp [h0]⟩
    · rw [h4] at e
      exact Sat.of_eq_ok (stepping_some e) ⟨_, by simp [h4, ListIter.lending, listEnds, Spec.popFront?], rfl, rfl⟩
  · rintro ⟨c', pos⟩ k ⟨rfl, rfl⟩
    exact ⟨_, rfl, rfl, rfl⟩

/-- C113. `entries()` of a sparse chunk. -/
theorem C113_entries (h : View N c m) {k : List (Nat × A)} (hk : entries N c = .ok k c) :
    (entriesEnds N : Ends _ A (Nat × A)).Walks (ListIter.lending fun _ => (0, some N)) false (fun t _ => t.1 = c) (c, (0, 0)) k := by
  have hr := h.rep
  rw [entries_eq hr] at hk
  injection hk with hk
  refine Ends.Sim.walks (I := fun t k => t.1 = c ∧ t.2.1 = t.2.2 ∧ k = (idxFrom N c.map t.2.1).filterMap fun i => (m i).map fun a => (i, a))
    ⟨?_, fun h => (by cases h), ?_, fun _ _ _ log h => pure_ref log h, fun _ _ log h => pure_ref log h.1⟩
    ⟨rfl, rfl, by rw [idxFrom_zero, keys_eq hr, keys_pairs, hk]⟩
  · rintro ⟨c', pos, pos'⟩ k ⟨rfl, hp, rfl⟩
    simp only at hr hp ⊢
    subst hp
    have hb' : bmNext N c'.map pos = (idxFrom N c'.map pos).head? := bmNext_eq _ _
    rcases idxFrom_cons (N := N) c'.map pos with h0 | ⟨i, h1, h2, h3, h4⟩
    · have e : entriesNext N (pos, pos) c' = .ok none c' := by simp [entriesNext, indicesNext, getMap, hb', h0]
      exact Sat.of_eq_ok (stepping_none e) ⟨[], by simp [h0, ListIter.lending, listEnds, Spec.popFront?], rfl, rfl, by simp [h0]⟩
    · have hs : (m i).isSome = true := by rw [← hr.map i h2, h3]
      obtain ⟨a, ha⟩ := Option.isSome_iff_exists.1 hs
      have e' := iterNext_eq hr pos
      have e : entriesNext N (pos, pos) c' = .ok (some ((i, a), (i + 1, i + 1))) c' := by
        simp [entriesNext, indicesNext, getMap, hb', h4, e', ha]
      exact Sat.of_eq_ok (stepping_some e) ⟨_, by simp [h4, ha, ListIter.lending, listEnds, Spec.popFront?], rfl, rfl, rfl⟩
  · rintro ⟨c', pos⟩ k ⟨rfl, h1, h2⟩
    exact ⟨_, rfl, rfl, h1, h2⟩

/-- C113. `iter_mut()` of a sparse chunk: the references point to the slots of the indices in use, ascending. -/
theorem C113_iter_mut (h : View N c m) {k : List Nat} (hk : indices N c = .ok k c) :
    (iterMutEnds N : Ends _ A Nat).Walks (ListIter.lending fun _ => (0, some N)) false (fun t _ => t.1 = c) (c, c.map) k := by
  have hr := h.rep
  rw [indices_eq hr] at hk
  injection hk with hk
  refine Ends.Sim.walks (I := fun t k => t.1 = c ∧ k = (List.range N).filter t.2) ⟨?_, fun h => (by cases h), ?_, fun _ _ _ log h => pure_ref log h,
    fun _ _ log h => pure_ref log h.1⟩ ⟨rfl, by rw [← hk, keys_eq hr]⟩
  · rintro ⟨c', b⟩ k ⟨rfl, rfl⟩
    cases hf : (List.range N).filter b with
    | nil =>
      refine Sat.of_eq_ok (stepping_none (c' := c') ?_) ⟨[], rfl, rfl, by simp [hf]⟩
      simp only [iterMutNext, bmFirst, ← List.head?_filter, hf]; rfl
    | cons i r =>
      have hi : i < N := by
        have : i ∈ (List.range N).filter b := by rw [hf]; simp
        simpa using (List.mem_filter.1 this).1
      refine Sat.of_eq_ok (stepping_some (b := i) (c' := c') (s' := fun j => if j = i then false else b j) ?_) ⟨r, rfl, rfl, (filter_clear b hf).symm⟩
      simp only [iterMutNext, bmFirst, ← List.head?_filter, hf]
      simp [bmSet, hi, show ¬ N ≤ i by omega]
  · rintro ⟨c', pos⟩ k ⟨rfl, rfl⟩
    exact ⟨_, rfl, rfl, rfl⟩

theorem range'_step {i : Nat} (hi : i < N) : List.range' i (N - i) = i :: List.range' (i + 1) (N - (i + 1)) := by
  rw [show N - i = (N - (i + 1)) + 1 by omega, range'_cons]

theorem optionHint_eq {i : Nat} (hi : i ≤ N) (s : σ) : optionSizeHint N E i s = .ok (N - i, some (N - i)) s := by
  simp [optionSizeHint, usub, hi]

/-- C113. `option_iter()` of a sparse chunk: over every index. -/
theorem C113_option_iter (hW : N < E.W) (h : View N c m) :
    (optionIterEnds E N : Ends _ A (Option A)).Walks (ListIter.lending ListIter.exactly) false (fun t _ => t.1 = c) (c, 0) ((List.range N).map m) := by
  have hr := h.rep
  refine Ends.Sim.walks (I := fun t k => t.1 = c ∧ t.2 ≤ N ∧ k = (List.range' t.2 (N - t.2)).map m) ⟨?_, fun h => (by cases h), ?_, fun _ _ _ log h => pure_ref log h,
    fun _ _ log h => pure_ref log h.1⟩ ⟨rfl, Nat.zero_le _, by rw [List.range_eq_range']; rfl⟩
  · rintro ⟨c', i⟩ k ⟨rfl, hi, rfl⟩
    simp only at hi hr ⊢
    by_cases hl : i < N
    · refine Sat.of_eq_ok (stepping_some (b := m i) (c' := c') (s' := i + 1) ?_) ⟨_, ?_, rfl, hl, rfl⟩
      · simp [optionIterNext, hl, get_eq hr, uadd, show i + 1 < E.W by omega]
      · rw [range'_step hl]; rfl
    · refine Sat.of_eq_ok (stepping_none (c' := c') ?_) ⟨[], ?_, rfl, hi, ?_⟩
      · simp [optionIterNext, hl]
      · rw [show N - i = 0 by omega]; rfl
      · simp [show N - i = 0 by omega]
  · rintro ⟨c', i⟩ k ⟨rfl, hi, rfl⟩
    exact hint_ref (by simp [optionIterEnds, optionHint_eq hi, ListIter.exactly]) ⟨rfl, hi, rfl⟩

/-- C113. `option_iter_mut()` of a sparse chunk: over every index, with references to the slots in use. -/
theorem C113_option_iter_mut (hW : N < E.W) (h : View N c m) :
    (optionIterMutEnds E N : Ends _ A (Option Nat)).Walks (ListIter.lending ListIter.exactly) false (fun t _ => t.1 = c) (c, 0)
      ((List.range N).map fun i => (m i).map fun _ => i) := by
  have hr := h.rep
  refine Ends.Sim.walks (I := fun t k => t.1 = c ∧ t.2 ≤ N ∧ k = (List.range' t.2 (N - t.2)).map fun i => (m i).map fun _ => i) ⟨?_, fun h => (by cases h), ?_,
    fun _ _ _ log h => pure_ref log h, fun _ _ log h => pure_ref log h.1⟩ ⟨rfl, Nat.zero_le _, by rw [List.range_eq_range']; rfl⟩
  · rintro ⟨c', i⟩ k ⟨rfl, hi, rfl⟩
    simp only at hi hr ⊢
    by_cases hl : i < N
    · refine Sat.of_eq_ok (stepping_some (b := (m i).map fun _ => i) (c' := c') (s' := i + 1) ?_) ⟨_, ?_, rfl, hl, rfl⟩
      · have hb := hr.map i hl
        cases hm : m i <;> rw [hm] at hb <;>
          simp [optionIterMutNext, hl, getMap, bmGet, slotIf, hb, uadd, show i + 1 < E.W by omega, show ¬ N ≤ i by omega]
      · rw [range'_step hl]; rfl
    · refine Sat.of_eq_ok (stepping_none (c' := c') ?_) ⟨[], ?_, rfl, hi, ?_⟩
      · simp [optionIterMutNext, hl]
      · rw [show N - i = 0 by omega]; rfl
      · simp [show N - i = 0 by omega]
  · rintro ⟨c', i⟩ k ⟨rfl, hi, rfl⟩
    exact hint_ref (by simp [optionIterMutEnds, optionHint_eq hi, ListIter.exactly]) ⟨rfl, hi, rfl⟩

theorem above_vals {i : Nat} (hi : i ≤ N) (m : SMap A) : (above i m).vals N = ((List.range' i (N - i)).map m).filterMap id := by
  have e : List.range N = List.range' 0 i ++ List.range' i (N - i) := by
    rw [List.range_eq_range', show N = i + (N - i) by omega, ← List.range'_append_1]; simp
  have h1 : (List.range' 0 i).filterMap (above i m) = [] := by
    rw [List.filterMap_eq_nil_iff]
    intro j hj
    simp at hj
    simp [above, hj]
  have h2 : (List.range' i (N - i)).filterMap (above i m) = (List.range' i (N - i)).filterMap m := by
    apply filterMap_congr'
    intro j hj
    simp at hj
    simp [above, show ¬ j < i by omega]
  unfold SMap.vals
  rw [e, List.filterMap_append, h1, h2, List.filterMap_map]
  rfl

/-- Where an `option_drain()` is: the indices from `t.2` on are still to come. -/
def AtOptionDrain (N : Nat) (m : SMap A) (t : Sparse A × Nat) (k : List (Option A)) : Prop :=
  t.2 ≤ N ∧ Rep N t.1 (above t.2 m) ∧ k = (List.range' t.2 (N - t.2)).map m

theorem optionDrain_start (hr : Rep N c m) : AtOptionDrain N m (c, 0) ((List.range N).map m) :=
  ⟨Nat.zero_le _, by rwa [show above 0 m = m by funext j; simp [above]], by rw [List.range_eq_range']; rfl⟩

theorem optionDrain_sim (hW : N < E.W) (dp : A → Bool) (m : SMap A) :
    (optionDrainEnds E N dp).Sim (ListIter.consumingOptions dp) false (AtOptionDrain N m) (fun _ _ => True) := by
  refine ⟨?_, fun h => (by cases h), ?_, ?_, ?_⟩
  · rintro ⟨c', i⟩ k ⟨hi, hr, rfl⟩
    simp only at hi hr ⊢
    by_cases hl : i < N
    · have hrm := remove_ref hr i
      unfold MSpec.remove at hrm
      rw [if_pos hl] at hrm
      obtain ⟨s, e, hs⟩ := hrm.of_ok rfl
      rw [above_upd] at hs
      refine Sat.of_eq_ok (stepping_some (b := m i) (c' := s) (s' := i + 1) ?_) ⟨_, ?_, hl, hs, rfl⟩
      · simp [optionDrainNext, hl, e, above, uadd, show i + 1 < E.W by omega]
      · rw [range'_step hl]; rfl
    · refine Sat.of_eq_ok (stepping_none (c' := c') ?_) ⟨[], ?_, hi, hr, ?_⟩
      · simp [optionDrainNext, hl]
      · rw [show N - i = 0 by omega]; rfl
      · simp [show N - i = 0 by omega]
  · rintro ⟨c', i⟩ k ⟨hi, hr, rfl⟩
    exact hint_ref (by simp [optionDrainEnds, optionHint_eq hi, ListIter.exactly]) ⟨hi, hr, rfl⟩
  · intro b t k log h
    cases b with
    | none => exact pure_ref log h
    | some a => exact toss_ref dp a log h
  · rintro ⟨c', i⟩ k log ⟨hi, hr, rfl⟩
    simp only at hi hr
    have := drop_ref hr dp log
    unfold MSpec.drop at this
    rw [above_vals hi] at this
    simp only [optionDrainEnds, ListIter.consumingOptions, listEnds, Spec.dropSeq, Spec.droppingSeq]
    dsimp only at this ⊢
    by_cases hd : (((List.range' i (N - i)).map m).filterMap id).any dp = true
    · rw [if_pos hd] at this ⊢
      obtain ⟨s, e, -, hs⟩ := this.of_panic rfl
      rw [e]; exact ⟨_, rfl, trivial, hs⟩
    · rw [if_neg hd] at this ⊢
      obtain ⟨s, e, -, hs⟩ := this.of_ok rfl
      rw [e]; exact ⟨_, rfl, trivial, hs⟩

/-- C113. `option_drain()` of a sparse chunk: over every index, taking the elements. -/
theorem C113_option_drain (hW : N < E.W) (dp : A → Bool) (h : View N c m) :
    (optionDrainEnds E N dp).Walks (ListIter.consumingOptions dp) false (fun _ _ => True) (c, 0) ((List.range N).map m) :=
  (optionDrain_sim hW dp m).walks (optionDrain_start h.rep)

end Sparse
end Verif
