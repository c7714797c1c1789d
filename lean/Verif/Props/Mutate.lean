import Verif.Mutate
import Verif.Props.Walk
import Verif.Props.RingSlices
/-
C116: whatever code does with `iter_mut` and the references it gets.
-/
namespace Verif
variable {A C R σ τ ρ : Type}

/-- Step by step, `it` does what `ls` does; `f` maps the places of `ls` to those of `it`, `ok` holds of the places in use. -/
structure MutEnds.Sim (it : MutEnds τ A) (ls : MutEnds ρ A) (both : Bool) (f : Nat → Nat) (ok : Nat → Prop) (I : τ → ρ → Prop) : Prop where
  next : ∀ t s, I t s → ∃ r t' s', it.next t = .ok (r.map (Option.map f)) t' ∧ ls.next s = .ok r s' ∧ I t' s' ∧ ∀ p, r = some (some p) → ok p
  nextBack : both = true → ∀ t s, I t s → ∃ r t' s', it.nextBack t = .ok (r.map (Option.map f)) t' ∧ ls.nextBack s = .ok r s' ∧ I t' s' ∧ ∀ p, r = some (some p) → ok p
  hint : ∀ t s, I t s → ∃ r, it.hint t = .ok r t ∧ ls.hint s = .ok r s
  read : ∀ t s p, I t s → ok p → ∃ a, it.read (f p) t = .ok a t ∧ ls.read p s = .ok a s
  replace : ∀ t s p v, I t s → ok p → ∃ a t' s', it.replace (f p) v t = .ok a t' ∧ ls.replace p v s = .ok a s' ∧ I t' s'

namespace MutEnds.Sim
variable {it : MutEnds τ A} {ls : MutEnds ρ A} {both : Bool} {f : Nat → Nat} {ok : Nat → Prop} {I T : τ → ρ → Prop}

theorem keep (r : Option (Option Nat)) (k : Option Bool → Mutator both A R) (t : τ) (s : ρ) (ps : List Nat) (hi : I t s)
    (hr : ∀ p, r = some (some p) → ok p) (hp : ∀ p ∈ ps, ok p)
    (ih : ∀ b t s ps, I t s → (∀ p ∈ ps, ok p) → Ref (fun x y => T x.1 y.1) ((k b).run it (t, ps.map f)) ((k b).run ls (s, ps))) :
    Ref (fun x y => T x.1 y.1) ((do (k (← keepRef (r.map (Option.map f)))).run it) (t, ps.map f)) ((do (k (← keepRef r)).run ls) (s, ps)) := by
  rcases r with _ | _ | p
  · exact ih none t s ps hi hp
  · exact ih (some false) t s ps hi hp
  · have := ih (some true) t s (ps ++ [p]) hi (by
      intro q hq
      rcases List.mem_append.1 hq with hq | hq
      · exact hp q hq
      · simp at hq; subst hq; exact hr _ rfl)
    simpa [keepRef, M.bind_run] using this

theorem get (hT : ∀ t s, I t s → T t s) (i : Nat) (x : Nat → M τ A) (y : Nat → M ρ A) (k : A → Mutator both A R) (t : τ) (s : ρ) (ps : List Nat) (hi : I t s)
    (hp : ∀ p ∈ ps, ok p) (hx : ∀ p, ok p → ∃ a t' s', x (f p) t = .ok a t' ∧ y p s = .ok a s' ∧ I t' s')
    (ih : ∀ b t s ps, I t s → (∀ p ∈ ps, ok p) → Ref (fun x y => T x.1 y.1) ((k b).run it (t, ps.map f)) ((k b).run ls (s, ps))) :
    Ref (fun x y => T x.1 y.1) ((do (k (← M.onFst (x (← heldRef i)))).run it) (t, ps.map f)) ((do (k (← M.onFst (y (← heldRef i)))).run ls) (s, ps)) := by
  simp only [M.bind_run, heldRef, List.getElem?_map]
  cases hq : ps[i]? with
  | none => exact ⟨_, rfl, hT _ _ hi⟩
  | some p =>
    obtain ⟨a, t', s', e1, e2, h3⟩ := hx p (hp p (List.mem_of_getElem? hq))
    simp only [Option.map_some, Out.andThen_ok, M.onFst_run, e1, e2, Out.mapState_ok]
    exact ih a t' s' ps h3 hp

theorem run (h : it.Sim ls both f ok I) (hT : ∀ t s, I t s → T t s) (w : Mutator both A R) (t : τ) (s : ρ) (ps : List Nat) (hi : I t s) (hp : ∀ p ∈ ps, ok p) :
    Ref (fun x y => T x.1 y.1) (w.run it (t, ps.map f)) (w.run ls (s, ps)) := by
  induction w generalizing t s ps with
  | stop r => exact ⟨_, rfl, hT _ _ hi⟩
  | panic => exact ⟨_, rfl, hT _ _ hi⟩
  | next k ih =>
    obtain ⟨r, t', s', e1, e2, h3, h4⟩ := h.next t s hi
    have := keep r k t' s' ps h3 h4 hp ih
    simpa only [Mutator.run, M.bind_run, M.onFst_run, e1, e2, Out.mapState_ok, Out.andThen_ok] using this
  | nextBack hb k ih =>
    obtain ⟨r, t', s', e1, e2, h3, h4⟩ := h.nextBack hb t s hi
    have := keep r k t' s' ps h3 h4 hp ih
    simpa only [Mutator.run, M.bind_run, M.onFst_run, e1, e2, Out.mapState_ok, Out.andThen_ok] using this
  | hint k ih =>
    obtain ⟨r, e1, e2⟩ := h.hint t s hi
    simp only [Mutator.run, M.bind_run, M.onFst_run, e1, e2, Out.mapState_ok, Out.andThen_ok]
    exact ih r t s ps hi hp
  | read i k ih =>
    refine get hT i it.read ls.read k t s ps hi hp (fun p hp => ?_) ih
    obtain ⟨a, e1, e2⟩ := h.read t s p hi hp
    exact ⟨a, t, s, e1, e2, hi⟩
  | replace i v k ih => exact get hT i (it.replace · v) (ls.replace · v) k t s ps hi hp (fun p hp => h.replace t s p v hi hp) ih

theorem walks (h : it.Sim ls both f ok I) (hT : ∀ t s, I t s → T t s) {t : τ} {s : ρ} (hi : I t s) : it.Walks ls both T t s :=
  fun _ w => h.run hT w t s [] hi (by simp)

end MutEnds.Sim
theorem range'_getLast? (a r : Nat) : (List.range' a (r + 1)).getLast? = some (a + r) := by
  rw [List.range'_concat]; simp
theorem range'_dropLast (a r : Nat) : (List.range' a (r + 1)).dropLast = List.range' a r := by
  rw [List.range'_concat]; simp

namespace Ring
variable {E : Env} {N : Nat} {c : Ring A} {l : List A}

/-- Where an `IterMut` is that will still yield the positions `a..a + r`, the first slot being `o` and the items `n` in number. -/
def AtRefs (N o n : Nat) (t : Ring A × IdxIter) (s : List (Option Nat) × List A) : Prop :=
  Rep N t.1 s.2 ∧ t.1.origin = o ∧ s.2.length = n ∧ ∃ a r, t.2 = idxOf N o a r ∧ a + r ≤ n ∧ s.1 = (List.range' a r).map some

theorem swapAt_origin {s : Ring A} {p : Nat} {v a : A} (e : swapAt N p v c = .ok a s) : s.origin = c.origin := by
  by_cases hp : p < N
  · cases hm : c.mem p with
    | none => simp [swapAt, getMem, memRead, hp, hm] at e
    | some b => simp [swapAt, getMem, setMem, memRead, memWrite, hp, hm] at e; rw [← e.2]
  · simp [swapAt, getMem, memRead, hp] at e

theorem refs_sim (hW : 2 * N < E.W) (o n : Nat) :
    (iterMutRefs E N : MutEnds _ A).Sim (listRefs ListIter.exactly) true (ridx N o) (· < n) (AtRefs N o n) where
  next := by
    rintro ⟨c, it⟩ ⟨rest, l⟩ ⟨h, ho, hn, a, r, e, ha, hr⟩
    dsimp only at h ho hn e hr
    subst e hr hn ho
    have hle := h.le
    cases r with
    | zero =>
      refine ⟨none, (c, idxOf N c.origin a 0), ([], l), ?_, rfl, ⟨h, rfl, rfl, a, 0, rfl, ha, rfl⟩, by simp⟩
      simp [iterMutRefs, M.bind_run, stepping_none (next := idxNext E N) (c := c) (c' := c) (s := idxOf N c.origin a 0) (by simp [idxNext, idxOf])]
    | succ r =>
      have e := idxNext_eq (E := E) (s := c) (right := ridx N c.origin (a + (r + 1))) hW h.org (show a + r + 1 ≤ N by omega)
      refine ⟨some (some a), (c, idxOf N c.origin (a + 1) r), ((List.range' (a + 1) r).map some, l), ?_, ?_, ⟨h, rfl, rfl, a + 1, r, rfl, by omega, rfl⟩, ?_⟩
      · simp only [iterMutRefs, M.bind_run, idxOf, stepping_some e, Out.andThen_ok, M.pure_run, Option.map_some]
        rw [show a + (r + 1) = a + 1 + r by omega]
      · simp [listRefs, placesRefs, M.onFst_run, Spec.popFront?, List.range'_succ]
      · intro p hp; simp at hp; omega
  nextBack := by
    rintro - ⟨c, it⟩ ⟨rest, l⟩ ⟨h, ho, hn, a, r, e, ha, hr⟩
    dsimp only at h ho hn e hr
    subst e hr hn ho
    have hle := h.le
    cases r with
    | zero =>
      refine ⟨none, (c, idxOf N c.origin a 0), ([], l), ?_, rfl, ⟨h, rfl, rfl, a, 0, rfl, ha, rfl⟩, by simp⟩
      simp [iterMutRefs, M.bind_run, stepping_none (next := idxNextBack E N) (c := c) (c' := c) (s := idxOf N c.origin a 0) (by simp [idxNextBack, idxOf])]
    | succ r =>
      have e := idxNextBack_eq (E := E) (s := c) (b := a + r) (r := r) (left := ridx N c.origin a) h.org (by omega)
      refine ⟨some (some (a + r)), (c, idxOf N c.origin a r), ((List.range' a r).map some, l), ?_, ?_, ⟨h, rfl, rfl, a, r, rfl, by omega, rfl⟩, ?_⟩
      · simp only [iterMutRefs, M.bind_run, idxOf]
        rw [show a + (r + 1) = a + r + 1 by omega, stepping_some e]
        rfl
      · simp [listRefs, placesRefs, M.onFst_run, Spec.popBack?, List.range'_concat]
      · intro p hp; simp at hp; omega
  hint := by
    rintro ⟨c, it⟩ ⟨rest, l⟩ ⟨h, ho, hn, a, r, e, ha, hr⟩
    dsimp only at e hr
    subst e hr
    exact ⟨(r, some r), by simp [iterMutRefs, iterHint, idxOf], by simp [listRefs, placesRefs, ListIter.exactly]⟩
  read := by
    rintro ⟨c, it⟩ ⟨rest, l⟩ p ⟨h, ho, hn, -⟩ hp
    dsimp only at h ho hn hp
    subst hn ho
    have hle := h.le
    obtain ⟨s, e, -⟩ := swapAt_eq h hp l[p]
    have hm := (h.cell' (List.getElem?_eq_getElem hp)).2
    unfold lm at hm
    rw [if_pos (by omega)] at hm
    refine ⟨l[p], ?_, by simp [listRefs, placesRefs, hp]⟩
    simp [iterMutRefs, M.onFst_run, getMem, memRead, hm, ridx_lt h.org (show p ≤ N by omega)]
  replace := by
    rintro ⟨c, it⟩ ⟨rest, l⟩ p v ⟨h, ho, hn, a, r, e, ha, hr⟩ hp
    dsimp only at h ho hn hp e hr
    subst hn ho e hr
    obtain ⟨s, e, hs⟩ := swapAt_eq h hp v
    exact ⟨l[p], (s, idxOf N c.origin a r), ((List.range' a r).map some, l.set p v), by simp only [iterMutRefs, M.onFst_run, e, Out.mapState_ok],
      by simp [listRefs, placesRefs, hp], hs, swapAt_origin e, by simp, a, r, rfl, ha, rfl⟩

/-- C116. Whatever code does with `iter_mut()` of a buffer and with the references it gets, it gets and reads what it would with a list of the items
and references to its positions; when it is done, the buffer shows the list with what was written. -/
theorem C116_iter_mut (hW : 2 * N < E.W) (h : View E N c l) : ∃ it, iterMut E N c = .ok it c ∧
    (iterMutRefs E N : MutEnds _ A).Walks (listRefs ListIter.exactly) true (fun t s => View E N t.1 s.2) (c, it) ((List.range l.length).map some, l) := by
  have hr := h.rep hW
  refine ⟨_, iterMut_ok hW hr, (refs_sim hW c.origin l.length).walks (fun t s h => h.1.view hW) ⟨hr, rfl, rfl, 0, _, rfl, by omega, ?_⟩⟩
  rw [List.range_eq_range']

/-- C116. `iter_mut()` of a slice showing the positions `a..b`. -/
theorem C116_slice_iter_mut (hW : 2 * N < E.W) (h : View E N c l) {a b : Nat} (h1 : a ≤ b) (h2 : b ≤ l.length) : ∃ it, sliceIterMut E N ⟨a, b⟩ c = .ok it c ∧
    (iterMutRefs E N : MutEnds _ A).Walks (listRefs ListIter.exactly) true (fun t s => View E N t.1 s.2) (c, it) ((List.range' a (b - a)).map some, l) := by
  have hr := h.rep hW
  have hle := hr.le
  have e : sliceIterMut E N ⟨a, b⟩ c = .ok (idxOf N c.origin a (b - a)) c := by
    have := sat_sliceIterMut (E := E) (N := N) (c := c) (P := fun _ => False) (B := False) (a := a) (b := b)
      (Q := fun r s' => r = idxOf N c.origin a (b - a) ∧ s' = c) hW hr.org h1 (by omega)
      ⟨by unfold idxOf; rw [show a + (b - a) = b by omega], rfl⟩
    cases hx : sliceIterMut E N ⟨a, b⟩ c <;> rw [hx] at this <;> simp [Sat] at this
    rw [this.1, this.2]
  exact ⟨_, e, (refs_sim hW c.origin l.length).walks (fun t s h => h.1.view hW) ⟨hr, rfl, rfl, a, _, rfl, by omega, rfl⟩⟩

end Ring

namespace Sparse
variable {E : Env} {N : Nat} {c : Sparse A} {m : SMap A}

theorem read_refs (h : Rep N c m) {p : Nat} {a : A} (e : m p = some a) : getUnchecked N p c = .ok a c := by
  simp [getUnchecked, getMem, memRead, h.lt e, h.mem p a (h.lt e) e]

theorem replace_refs (h : Rep N c m) {p : Nat} {a : A} (e : m p = some a) (v : A) :
    ∃ s, replaceUnchecked N p v c = .ok a s ∧ Rep N s (m.upd p (some v)) :=
  ⟨⟨c.map, c.mem.put p v⟩, by simp [replaceUnchecked, getUnchecked, getMem, memRead, memWrite, setMem, h.lt e, h.mem p a (h.lt e) e], h.put e v⟩

theorem upd_isSome {p : Nat} (hp : (m p).isSome = true) (v : A) (i : Nat) : ((m.upd p (some v)) i).isSome = (m i).isSome := by
  unfold SMap.upd
  split
  · rename_i h; subst h; rw [hp]; rfl
  · rfl

/-- Where an `iter_mut()` is: the indices `bits` are still to come; the indices in use stay those of `m`. -/
def AtRefs (N : Nat) (m : SMap A) (t : Sparse A × Bitmap) (s : List (Option Nat) × SMap A) : Prop :=
  Rep N t.1 s.2 ∧ (∀ i, (s.2 i).isSome = (m i).isSome) ∧ s.1 = ((List.range N).filter t.2).map some ∧ ∀ i, i < N → t.2 i = true → (m i).isSome = true

theorem refs_sim (m : SMap A) :
    (iterMutRefs N : MutEnds _ A).Sim (mapRefs fun _ => (0, some N)) false id (fun p => (m p).isSome = true) (AtRefs N m) where
  next := by
    rintro ⟨c, b⟩ ⟨rest, m'⟩ ⟨h, hs, hr, hb⟩
    dsimp only at h hs hr hb
    subst hr
    cases hf : (List.range N).filter b with
    | nil =>
      refine ⟨none, (c, b), ([], m'), ?_, by simp [mapRefs, placesRefs, M.onFst_run, Spec.popFront?], ⟨h, hs, by simp [hf], hb⟩, by simp⟩
      have e : iterMutNext N b c = .ok none c := by simp only [iterMutNext, bmFirst, ← List.head?_filter, hf]; rfl
      simp [iterMutRefs, M.bind_run, stepping_none e]
    | cons i r =>
      have hi : i < N ∧ b i = true := by
        have : i ∈ (List.range N).filter b := by rw [hf]; simp
        simpa using List.mem_filter.1 this
      have e : iterMutNext N b c = .ok (some (i, fun j => if j = i then false else b j)) c := by
        simp only [iterMutNext, bmFirst, ← List.head?_filter, hf]
        simp [bmSet, hi.1, show ¬ N ≤ i by omega]
      refine ⟨some (some i), (c, fun j => if j = i then false else b j), (r.map some, m'), ?_, by simp [mapRefs, placesRefs, M.onFst_run, Spec.popFront?],
        ⟨h, hs, by rw [filter_clear b hf], ?_⟩, ?_⟩
      · simp [iterMutRefs, M.bind_run, stepping_some e]
      · intro j hj hbj
        dsimp only at hbj
        split at hbj
        · simp at hbj
        · exact hb j hj hbj
      · intro p hp; simp at hp; subst hp; exact hb i hi.1 hi.2
  nextBack h := by cases h
  hint := by
    rintro ⟨c, b⟩ ⟨rest, m'⟩ -
    exact ⟨_, rfl, rfl⟩
  read := by
    rintro ⟨c, b⟩ ⟨rest, m'⟩ p ⟨h, hs, -⟩ hp
    dsimp only at h hs
    obtain ⟨a, ha⟩ := Option.isSome_iff_exists.1 ((hs p).trans hp)
    exact ⟨a, by simp [iterMutRefs, M.onFst_run, read_refs h ha], by simp [mapRefs, placesRefs, ha]⟩
  replace := by
    rintro ⟨c, b⟩ ⟨rest, m'⟩ p v ⟨h, hs, hr, hb⟩ hp
    dsimp only at h hs hr hb
    obtain ⟨a, ha⟩ := Option.isSome_iff_exists.1 ((hs p).trans hp)
    obtain ⟨s, e, h'⟩ := replace_refs h ha v
    exact ⟨a, (s, b), (rest, m'.upd p (some v)), by simp [iterMutRefs, M.onFst_run, e], by simp [mapRefs, placesRefs, ha],
      h', fun i => (upd_isSome (by rw [ha]; rfl) v i).trans (hs i), hr, hb⟩

/-- C116. Whatever code does with `iter_mut()` of a sparse chunk and with the references it gets: as with a map and references to its indices in use, by
ascending index; when it is done, the chunk shows the map with what was written. -/
theorem C116_iter_mut (h : View N c m) {k : List Nat} (hk : indices N c = .ok k c) :
    (iterMutRefs N : MutEnds _ A).Walks (mapRefs fun _ => (0, some N)) false (fun t s => View N t.1 s.2) (c, c.map) (k.map some, m) := by
  have hr := h.rep
  rw [indices_eq hr] at hk
  injection hk with hk
  exact (refs_sim m).walks (fun t s h => h.1.view) ⟨hr, fun _ => rfl, by rw [← hk, keys_eq hr], fun i hi hb => by rw [← hr.map i hi]; exact hb⟩

/-- Where an `option_iter_mut()` is. -/
def AtOptionRefs (N : Nat) (m : SMap A) (t : Sparse A × Nat) (s : List (Option Nat) × SMap A) : Prop :=
  Rep N t.1 s.2 ∧ (∀ i, (s.2 i).isSome = (m i).isSome) ∧ t.2 ≤ N ∧ s.1 = (List.range' t.2 (N - t.2)).map fun i => (m i).map fun _ => i

theorem optionRefs_sim (hW : N < E.W) (m : SMap A) :
    (optionIterMutRefs E N : MutEnds _ A).Sim (mapRefs ListIter.exactly) false id (fun p => (m p).isSome = true) (AtOptionRefs N m) where
  next := by
    rintro ⟨c, i⟩ ⟨rest, m'⟩ ⟨h, hs, hi, hr⟩
    dsimp only at h hs hi hr
    subst hr
    by_cases hl : i < N
    · have hb := h.map i hl
      have e : optionIterMutNext N E i c = .ok (some ((m i).map fun _ => i, i + 1)) c := by
        have hsi := hs i
        cases hm : m i <;> rw [hm] at hsi <;> rw [hsi] at hb <;>
          simp [optionIterMutNext, hl, getMap, bmGet, slotIf, hb, uadd, show i + 1 < E.W by omega, show ¬ N ≤ i by omega]
      refine ⟨some ((m i).map fun _ => i), (c, i + 1), ((List.range' (i + 1) (N - (i + 1))).map fun i => (m i).map fun _ => i, m'), ?_, ?_,
        ⟨h, hs, hl, rfl⟩, ?_⟩
      · simp [optionIterMutRefs, stepping_some e]
      · rw [range'_step hl]; simp [mapRefs, placesRefs, M.onFst_run, Spec.popFront?]
      · intro p hp
        cases hm : m i <;> rw [hm] at hp <;> simp at hp
        subst hp; rw [hm]; rfl
    · have e : optionIterMutNext N E i c = .ok none c := by simp [optionIterMutNext, hl]
      refine ⟨none, (c, i), ([], m'), by simp [optionIterMutRefs, stepping_none e], ?_, ⟨h, hs, hi, by simp [show N - i = 0 by omega]⟩, by simp⟩
      rw [show N - i = 0 by omega]; simp [mapRefs, placesRefs, M.onFst_run, Spec.popFront?]
  nextBack h := by cases h
  hint := by
    rintro ⟨c, i⟩ ⟨rest, m'⟩ ⟨h, hs, hi, hr⟩
    dsimp only at hi hr
    subst hr
    exact ⟨(N - i, some (N - i)), by simp [optionIterMutRefs, optionHint_eq hi], by simp [mapRefs, placesRefs, ListIter.exactly]⟩
  read := by
    rintro ⟨c, b⟩ ⟨rest, m'⟩ p ⟨h, hs, -⟩ hp
    dsimp only at h hs
    obtain ⟨a, ha⟩ := Option.isSome_iff_exists.1 ((hs p).trans hp)
    exact ⟨a, by simp [optionIterMutRefs, M.onFst_run, read_refs h ha], by simp [mapRefs, placesRefs, ha]⟩
  replace := by
    rintro ⟨c, b⟩ ⟨rest, m'⟩ p v ⟨h, hs, hi, hr⟩ hp
    dsimp only at h hs hr hi
    obtain ⟨a, ha⟩ := Option.isSome_iff_exists.1 ((hs p).trans hp)
    obtain ⟨s, e, h'⟩ := replace_refs h ha v
    exact ⟨a, (s, b), (rest, m'.upd p (some v)), by simp [optionIterMutRefs, M.onFst_run, e], by simp [mapRefs, placesRefs, ha],
      h', fun i => (upd_isSome (by rw [ha]; rfl) v i).trans (hs i), hi, hr⟩

/-- C116. `option_iter_mut()` of a sparse chunk: over every index, with references to the elements there are. -/
theorem C116_option_iter_mut (hW : N < E.W) (h : View N c m) :
    (optionIterMutRefs E N : MutEnds _ A).Walks (mapRefs ListIter.exactly) false (fun t s => View N t.1 s.2) (c, 0)
      ((List.range N).map fun i => (m i).map fun _ => i, m) :=
  (optionRefs_sim hW m).walks (fun t s h => h.1.view) ⟨h.rep, fun _ => rfl, Nat.zero_le _, by rw [List.range_eq_range']; rfl⟩

end Sparse
/-- If it returns or panics, the contents are as `Inv` says. -/
def Leaves (Inv : C → Prop) (o : Out ((List (Option Nat) × C) × List Nat) R) : Prop :=
  (∀ r s, o = .ok r s → Inv s.1.2) ∧ (∀ s, o = .panic s → Inv s.1.2)

theorem placesRefs_keep {both : Bool} {ls : MutEnds (List (Option Nat) × C) A} {lent : Nat → Prop} {Inv : C → Prop} (k : Option Bool → Mutator both A R)
    (o : Option (Option Nat)) (rest : List (Option Nat)) (c : C) (ps : List Nat) (hr : ∀ p, some p ∈ rest → lent p) (ho : ∀ p, o = some (some p) → lent p)
    (hp : ∀ p ∈ ps, lent p) (hc : Inv c)
    (ih : ∀ b rest c ps, (∀ p, some p ∈ rest → lent p) → (∀ p ∈ ps, lent p) → Inv c → Leaves Inv ((k b).run ls ((rest, c), ps))) :
    Leaves Inv ((do (k (← keepRef o)).run ls) ((rest, c), ps)) := by
  rcases o with _ | _ | p
  · exact ih none rest c ps hr hp hc
  · exact ih (some false) rest c ps hr hp hc
  · simp only [M.bind_run, keepRef, Out.andThen_ok]
    exact ih (some true) rest c (ps ++ [p]) hr (by
      intro q hq
      rcases List.mem_append.1 hq with hq | hq
      · exact hp q hq
      · simp at hq; subst hq; exact ho _ rfl) hc

/-- What the specification does to the contents: anything that writing at the places lent preserves. -/
theorem placesRefs_inv {both : Bool} {hint : List (Option Nat) → Nat × Option Nat} {get : C → Nat → Option A} {set : C → Nat → A → C} {lent : Nat → Prop}
    {Inv : C → Prop} (hset : ∀ c p v, lent p → Inv c → Inv (set c p v)) (w : Mutator both A R) (rest : List (Option Nat)) (c : C) (ps : List Nat)
    (hr : ∀ p, some p ∈ rest → lent p) (hp : ∀ p ∈ ps, lent p) (hc : Inv c) :
    Leaves Inv (w.run (placesRefs hint get set) ((rest, c), ps)) := by
  induction w generalizing rest c ps with
  | stop r =>
    constructor
    · intro _ _ e; cases e; exact hc
    · intro _ e; cases e
  | panic =>
    constructor
    · intro _ _ e; cases e
    · intro _ e; cases e; exact hc
  | next k ih =>
    have := placesRefs_keep k rest.head? rest.tail c ps (fun p h => hr p (List.mem_of_mem_tail h)) (fun p h => hr p (List.mem_of_mem_head? h)) hp hc ih
    cases rest <;> exact this
  | nextBack hb k ih =>
    exact placesRefs_keep k rest.getLast? rest.dropLast c ps (fun p h => hr p (List.dropLast_subset _ h)) (fun p h => hr p (List.mem_of_mem_getLast? h)) hp hc ih
  | hint k ih => exact ih _ rest c ps hr hp hc
  | read i k ih =>
    simp only [Mutator.run, M.bind_run, heldRef]
    cases hq : ps[i]? with
    | none => exact ⟨fun _ _ e => by simp at e, fun _ e => by simp at e; rw [← e]; exact hc⟩
    | some p =>
      have e : M.onFst ((placesRefs hint get set).read p) ((rest, c), ps) = match get c p with
        | none => .ub
        | some a => .ok a ((rest, c), ps) := by
        rw [M.onFst_run]; simp only [placesRefs]; cases get c p <;> rfl
      simp only [Out.andThen_ok, e]
      cases hg : get c p with
      | none => exact ⟨fun _ _ e => by simp at e, fun _ e => by simp at e⟩
      | some a => exact ih a rest c ps hr hp hc
  | replace i v k ih =>
    simp only [Mutator.run, M.bind_run, heldRef]
    cases hq : ps[i]? with
    | none => exact ⟨fun _ _ e => by simp at e, fun _ e => by simp at e; rw [← e]; exact hc⟩
    | some p =>
      have e : M.onFst ((placesRefs hint get set).replace p v) ((rest, c), ps) = match get c p with
        | none => .ub
        | some a => .ok a ((rest, set c p v), ps) := by
        rw [M.onFst_run]; simp only [placesRefs]; cases get c p <;> rfl
      simp only [Out.andThen_ok, e]
      cases hg : get c p with
      | none => exact ⟨fun _ _ e => by simp at e, fun _ e => by simp at e⟩
      | some a => exact ih a rest _ ps hr hp (hset c p v (hp p (List.mem_of_getElem? hq)) hc)

/-- C116. Over a list, only the positions lent change, and the length does not. -/
theorem C116_only_what_is_lent {both : Bool} {hint : List (Option Nat) → Nat × Option Nat} (w : Mutator both A R) (rest : List (Option Nat)) (l : List A) :
    (∀ r s, w.run (listRefs hint) ((rest, l), []) = .ok r s → s.1.2.length = l.length ∧ ∀ p, some p ∉ rest → s.1.2[p]? = l[p]?) ∧
    (∀ s, w.run (listRefs hint) ((rest, l), []) = .panic s → s.1.2.length = l.length ∧ ∀ p, some p ∉ rest → s.1.2[p]? = l[p]?) := by
  refine placesRefs_inv (lent := fun p => some p ∈ rest) (Inv := fun l' => l'.length = l.length ∧ ∀ p, some p ∉ rest → l'[p]? = l[p]?) ?_ w rest l []
    (fun _ h => h) (by simp) ⟨rfl, fun _ _ => rfl⟩
  rintro l' p v hp ⟨h1, h2⟩
  refine ⟨by simpa using h1, fun q hq => ?_⟩
  rw [List.getElem?_set_ne (by rintro rfl; exact hq hp)]
  exact h2 q hq

/-- C116. Over a map, only the indices lent change. -/
theorem C116_only_what_is_lent_map {both : Bool} {hint : List (Option Nat) → Nat × Option Nat} (w : Mutator both A R) (rest : List (Option Nat)) (m : SMap A) :
    (∀ r s, w.run (mapRefs hint) ((rest, m), []) = .ok r s → ∀ p, some p ∉ rest → s.1.2 p = m p) ∧
    (∀ s, w.run (mapRefs hint) ((rest, m), []) = .panic s → ∀ p, some p ∉ rest → s.1.2 p = m p) := by
  refine placesRefs_inv (lent := fun p => some p ∈ rest) (Inv := fun m' => ∀ p, some p ∉ rest → m' p = m p) ?_ w rest m [] (fun _ h => h) (by simp) fun _ _ => rfl
  intro m' p v hp h q hq
  simp only [SMap.upd]
  rw [if_neg (by rintro rfl; exact hq hp)]
  exact h q hq

section
open Chunk (dbg64)

/-- Code that gets references from both ends, swaps the items while it still iterates, and asks for one more. -/
def crossing : Mutator true Nat (Nat × Nat × Option Bool) :=
  .next fun _ => .nextBack rfl fun _ => .read 0 fun a => .replace 1 (a + 1) fun b => .next fun r => .replace 0 (b + 1) fun a' => .stop (a', b, r)

/-- On a buffer whose items wrap around the end of its memory. -/
example : Ring.View dbg64 3 Ring.full [10, 20, 30] ∧ Ring.iterMut dbg64 3 Ring.full = .ok ⟨3, 2, 2⟩ Ring.full ∧
    (∃ t ps, crossing.run (Ring.iterMutRefs dbg64 3) ((Ring.full, ⟨3, 2, 2⟩), []) = .ok (10, 30, some true) (t, ps)) :=
  ⟨⟨rfl, by decide, by decide⟩, rfl, ⟨_, _, rfl⟩⟩

/-- … the same, by the theorem. -/
example : ∃ it t ps, Ring.iterMut dbg64 3 Ring.full = .ok it Ring.full ∧
    crossing.run (Ring.iterMutRefs dbg64 3) ((Ring.full, it), []) = .ok (10, 30, some true) (t, ps) ∧ Ring.View dbg64 3 t.1 [31, 20, 11] := by
  obtain ⟨it, e, h⟩ := Ring.C116_iter_mut (E := dbg64) (N := 3) (c := Ring.full) (l := [10, 20, 30]) (by decide) ⟨rfl, by decide, by decide⟩
  obtain ⟨⟨t, ps⟩, e2, h2⟩ := (h _ crossing).of_ok (a := (10, 30, some true)) (t := (([], [31, 20, 11]), [0, 2, 1])) rfl
  exact ⟨it, t, ps, e, e2, h2⟩

/-- Over the slice of the last two, the first stays as it is, and the third `next` has nothing to give. -/
example : ∃ it t ps, Ring.sliceIterMut dbg64 3 ⟨1, 3⟩ Ring.full = .ok it Ring.full ∧
    crossing.run (Ring.iterMutRefs dbg64 3) ((Ring.full, it), []) = .ok (20, 30, none) (t, ps) ∧ Ring.View dbg64 3 t.1 [10, 31, 21] := by
  obtain ⟨it, e, h⟩ := Ring.C116_slice_iter_mut (E := dbg64) (N := 3) (c := Ring.full) (l := [10, 20, 30]) (by decide) ⟨rfl, by decide, by decide⟩
    (a := 1) (b := 3) (by decide) (by decide)
  obtain ⟨⟨t, ps⟩, e2, h2⟩ := (h _ crossing).of_ok (a := (20, 30, none)) (t := (([], [10, 31, 21]), [1, 2])) rfl
  exact ⟨it, t, ps, e, e2, h2⟩

/-- Code that writes through its first reference twice, before and after it gets the second. -/
def twice : Mutator false Nat (Nat × Nat) :=
  .next fun r => if r = some true then .replace 0 7 fun _ => .next fun _ => .replace 0 8 fun b => .replace 1 9 fun c => .stop (b, c) else
    .next fun _ => .replace 0 7 fun _ => .next fun _ => .next fun _ => .replace 0 8 fun b => .replace 1 9 fun c => .stop (b, c)

/-- A sparse chunk with items at 1 and 3, by `iter_mut` and by `option_iter_mut`, which comes past 0 and 2 too. -/
example : Sparse.View 4 Sparse.sample Sparse.sampleMap ∧
    (∃ t ps, twice.run (Sparse.iterMutRefs 4) ((Sparse.sample, Sparse.sample.map), []) = .ok (7, 10) (t, ps) ∧
      Sparse.get 4 1 t.1 = .ok (some 8) t.1 ∧ Sparse.get 4 3 t.1 = .ok (some 9) t.1) ∧
    (∃ t ps, twice.run (Sparse.optionIterMutRefs dbg64 4) ((Sparse.sample, 0), []) = .ok (7, 10) (t, ps) ∧
      Sparse.get 4 1 t.1 = .ok (some 8) t.1 ∧ Sparse.get 4 3 t.1 = .ok (some 9) t.1) :=
  ⟨Sparse.sample_view, ⟨_, _, rfl, rfl, rfl⟩, ⟨_, _, rfl, rfl, rfl⟩⟩

/-- Code without a reference to write through panics, here as there. -/
example : ∃ t, (Mutator.replace 0 7 fun _ => .stop () : Mutator true Nat Unit).run (Ring.iterMutRefs dbg64 3) ((Ring.full, ⟨3, 2, 2⟩), []) = .panic t := ⟨_, rfl⟩
end
end Verif
