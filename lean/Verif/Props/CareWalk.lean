import Verif.CareWalk
import Verif.Props.Walk
import Verif.Props.CareChunk
import Verif.Props.CareRing
import Verif.Props.CareSparse
import Verif.Props.CareInline
/-
C115: whatever code does with an iterator, when it and the destructors have effects of their own.
-/
namespace Verif
variable {A B R S σ ρ τ υ α : Type}

theorem Out.Same.of_ref {I : σ → ρ → Prop} {o : Out σ α} {o' : Out ρ α} (h : Ref I o o') : Out.Same Eq I o o' := by
  cases o <;> simp only [Ref, Sat] at h
  · obtain ⟨t, e, h⟩ := h; rw [e]; exact ⟨rfl, h⟩
  · obtain ⟨t, e, h⟩ := h; rw [e]; exact h
  · rw [h]; trivial

/-- Two runs end the same way: if both return, with states related by `I`; if both panic, by `P`. -/
def Out.Same2 (I P : σ → ρ → Prop) : Out σ α → Out ρ α → Prop
  | .ok a s, .ok b t => a = b ∧ I s t
  | .panic s, .panic t => P s t
  | .abort, .abort => True
  | .ub, .ub => True
  | .diverge, .diverge => True
  | _, _ => False

theorem Out.Same.same2 {I : σ → ρ → Prop} {o : Out σ α} {o' : Out ρ α} (h : Out.Same Eq I o o') : Out.Same2 I I o o' := by
  cases o <;> cases o' <;> simp_all [Out.Same, Out.Same2]

theorem Out.Same2.onUnwind {I P P' : σ → ρ → Prop} {x : M σ α} {y : M ρ α} {c : M σ Unit} {d : M ρ Unit} {s : σ} {t : ρ}
    (hx : Out.Same2 I P (x s) (y t)) (hc : ∀ s t, P s t → Out.Same Eq P' (c s) (d t)) : Out.Same2 I P' (M.onUnwind x c s) (M.onUnwind y d t) := by
  unfold M.onUnwind
  cases hx1 : x s <;> cases hy1 : y t <;> simp only [hx1, hy1, Out.Same2] at hx ⊢ <;> try exact hx
  rename_i s' t'
  have := hc s' t' hx
  cases hc1 : c s' <;> cases hd1 : d t' <;> simp only [hc1, hd1, Out.Same] at this ⊢
  exact this.2

theorem Out.Same2.bind {I P : σ → ρ → Prop} {x : M σ α} {y : M ρ α} {f : α → M σ R} {g : α → M ρ R} {s : σ} {t : ρ}
    (hx : Out.Same2 I P (x s) (y t)) (hf : ∀ a s t, I s t → Out.Same Eq P (f a s) (g a t)) : Out.Same Eq P ((x >>= f) s) ((y >>= g) t) := by
  simp only [M.bind_run]
  cases hx1 : x s <;> cases hy1 : y t <;> simp only [hx1, hy1, Out.Same2] at hx <;> try (first | exact hx | trivial)
  obtain ⟨rfl, h⟩ := hx
  exact hf _ _ _ h

/-- Step by step, the iterator `it` does to states what `ls` does to lists; `I` relates them while the iterator lives, `T` afterwards. -/
structure EndsBy.Sim (it : EndsBy τ υ B) (ls : EndsBy (List B) υ B) (both : Bool) (I T : τ → List B → Prop) : Prop where
  next : ∀ t l, I t l → Ref I (it.next t) (ls.next l)
  nextBack : both = true → ∀ t l, I t l → Ref I (it.nextBack t) (ls.nextBack l)
  hint : ∀ t l, I t l → Ref I (it.hint t) (ls.hint l)
  drop : ∀ t l u, I t l → Out.Same Eq (RelBy T) (it.drop (t, u)) (ls.drop (l, u))
  forget : ∀ t l, I t l → T t l

namespace EndsBy.Sim
variable {it : EndsBy τ υ B} {ls : EndsBy (List B) υ B} {both : Bool} {I T : τ → List B → Prop}

theorem onFst {x : M τ α} {y : M (List B) α} {t : τ} {l : List B} {u : υ} (hx : Ref I (x t) (y l)) :
    Out.Same Eq (RelBy I) (M.onFst x (t, u)) (M.onFst y (l, u)) := by
  simp only [M.onFst_run]
  cases hh : x t <;> rw [hh] at hx <;> simp only [Ref, Sat] at hx
  · obtain ⟨s, e, h⟩ := hx; rw [e]; exact ⟨rfl, h, rfl⟩
  · obtain ⟨s, e, h⟩ := hx; rw [e]; exact ⟨h, rfl⟩
  · rw [hx]; trivial

theorem onSnd (x : M υ α) {T : τ → List B → Prop} {s : τ × υ} {t : List B × υ} (h : RelBy T s t) :
    Out.Same Eq (RelBy T) (M.onSnd x s) (M.onSnd x t) := by
  obtain ⟨s, u⟩ := s
  obtain ⟨t, v⟩ := t
  obtain ⟨h, e⟩ := h
  dsimp only at h e; subst e
  simp only [M.onSnd_run]
  cases x u <;> simp_all [Out.Same, RelBy]

theorem step (h : it.Sim ls both I T) {x : M (τ × υ) α} {y : M (List B × υ) α} {t : τ} {l : List B} {u : υ}
    (hx : Out.Same Eq (RelBy I) (x (t, u)) (y (l, u))) (clean : M υ Unit) {f : α → M (τ × υ) R} {g : α → M (List B × υ) R}
    (hf : ∀ a t l u, I t l → Out.Same Eq (RelBy T) (f a (t, u)) (g a (l, u))) :
    Out.Same Eq (RelBy T) ((do f (← M.onUnwind (M.onUnwind x it.drop) (M.onSnd clean))) (t, u))
      ((do g (← M.onUnwind (M.onUnwind y ls.drop) (M.onSnd clean))) (l, u)) := by
  refine Out.Same2.bind (I := RelBy I) (((hx.same2).onUnwind (P' := RelBy T) ?_).onUnwind fun _ _ h => onSnd clean h) ?_
  · rintro ⟨s, u⟩ ⟨t, v⟩ ⟨h1, h2⟩
    dsimp only at h1 h2; subst h2
    exact h.drop _ _ _ h1
  · rintro a ⟨s, u⟩ ⟨t, v⟩ ⟨h1, h2⟩
    dsimp only at h1 h2; subst h2
    exact hf _ _ _ _ h1

theorem walks (h : it.Sim ls both I T) {t : τ} {l : List B} (hi : I t l) : it.Walks ls both T t l := by
  intro R w
  induction w generalizing t l with
  | stop clean rest =>
    intro u
    exact (((h.drop t l u hi).same2).onUnwind fun _ _ h => onSnd clean h).bind fun _ _ _ h => onSnd rest h
  | forget rest =>
    intro u
    exact onSnd rest ⟨h.forget t l hi, rfl⟩
  | next clean k ih => intro u; exact h.step (onFst (h.next t l hi)) clean fun a _ _ u hi => ih a hi u
  | nextBack hb clean k ih => intro u; exact h.step (onFst (h.nextBack hb t l hi)) clean fun a _ _ u hi => ih a hi u
  | hint clean k ih => intro u; exact h.step (onFst (h.hint t l hi)) clean fun a _ _ u hi => ih a hi u
  | user clean x k ih =>
    intro u
    refine h.step (onSnd x (T := I) ⟨hi, rfl⟩) clean fun a t l u hi => ?_
    simp only [M.bind_run, M.onSnd_run, M.get_run, Out.mapState_ok, Out.andThen_ok]
    exact ih u hi u

end EndsBy.Sim

/-- From C113, for an iterator that does nothing when dropped: what it does to the list is a simulation. -/
theorem Ends.Walks.borrowed {it : Ends τ A B} {hint : List B → Nat × Option Nat} {toss : B → M (List B × List A) Unit} {both : Bool} {T : τ → List B → Prop}
    (hd : it.drop = pure ()) {t : τ} {l : List B} (h : it.Walks (listEnds hint toss (pure ())) both T t l) :
    (it.borrowed : EndsBy τ υ B).Walks (listBy hint fun _ => pure ()) both T t l := by
  have stop : ∀ t l, it.Walks (listEnds hint toss (pure ())) both T t l → T t l := by
    intro t l h
    have := h Unit (.stop ()) []
    simp only [Walker.run, hd, listEnds, M.bind_run, M.pure_run, Out.andThen_ok] at this
    obtain ⟨s, e, h', -⟩ := this
    cases e; exact h'
  -- one call, followed by anything
  have call : ∀ {α : Type} (x : M τ α) (y : M (List B) α) (mk : ∀ R, (α → Walker both B R) → Walker both B R) (t : τ) (l : List B),
      (∀ R k log, (mk R k).run it (t, log) = (do (k (← M.onUnwind (M.onFst x) it.drop)).run it) (t, log)) →
      (∀ R k log, (mk R k).run (listEnds hint toss (pure ())) (l, log) =
        (do (k (← M.onUnwind (M.onFst y) (pure ()))).run (listEnds hint toss (pure ()))) (l, log)) →
      (∃ a l', y l = .ok a l') → it.Walks (listEnds hint toss (pure ())) both T t l →
      Ref (fun t l => it.Walks (listEnds hint toss (pure ())) both T t l) (x t) (y l) := by
    rintro α x y mk t l h1 h2 ⟨a, l', hy⟩ h
    have h0 := h α (mk α fun a => .stop a) []
    rw [h1, h2] at h0
    simp only [M.bind_run, M.onUnwind, M.onFst_run, hy, Out.mapState_ok, Out.andThen_ok, Walker.run, hd, listEnds, M.pure_run] at h0
    cases hx : x t with
    | ok b t' =>
      rw [hx] at h0
      simp only [Out.mapState_ok, Out.andThen_ok] at h0
      obtain ⟨s, e, -⟩ := h0
      cases e
      refine ⟨l', hy, fun R w log => ?_⟩
      have := h R (mk R fun _ => w) log
      rw [h1, h2] at this
      simpa only [M.bind_run, M.onUnwind, M.onFst_run, hy, hx, Out.mapState_ok, Out.andThen_ok] using this
    | panic t' =>
      rw [hx] at h0
      simp [Ref, Sat] at h0
    | abort => rw [hx] at h0; simp [Ref, Sat] at h0
    | ub => rw [hx] at h0; simp [Ref, Sat] at h0
    | diverge => rw [hx] at h0; simp [Ref, Sat] at h0
  refine EndsBy.Sim.walks (I := fun t l => it.Walks (listEnds hint toss (pure ())) both T t l) ⟨fun t l h => ?_, fun hb t l h => ?_, fun t l h => ?_, fun t l u h => ?_, stop⟩ h
  · exact call it.next Spec.popFront? (fun R k => .next k) t l (fun _ _ _ => rfl) (fun _ _ _ => rfl) (by cases l <;> exact ⟨_, _, rfl⟩) h
  · exact call it.nextBack Spec.popBack? (fun R k => .nextBack hb k) t l (fun _ _ _ => rfl) (fun _ _ _ => rfl)
      (by unfold Spec.popBack?; cases l.getLast? <;> exact ⟨_, _, rfl⟩) h
  · exact call it.hint (fun l => .ok (hint l) l) (fun R k => .hint k) t l (fun _ _ _ => rfl) (fun _ _ _ => rfl) ⟨_, _, rfl⟩ h
  · exact ⟨rfl, stop t l h, rfl⟩

/-- A destructor that does the same to the user's state as the specification's, and leaves the rest alone. -/
theorem drop_same {T : τ → List B → Prop} {t : τ} {l : List B} {u : υ} {o : Out (τ × υ) Unit} {hint : List B → Nat × Option Nat} {drop : List B → M υ Unit}
    (e : o = (drop l u).mapState fun u' => (t, u')) (h : T t l) : Out.Same Eq (RelBy T) o ((listBy hint drop).drop (l, u)) := by
  subst e
  exact Out.Same.onSnd (R := RelBy T) _ _ _ fun _ => ⟨h, rfl⟩

/-- C115. The uses of C113 are those where the only effect of the user's is the log of destroyed items. -/
theorem C115_plain {both : Bool} (it : Ends τ A A) (dp : A → Bool) (h : it.toss = dropOne dp) (w : Walker both A R) :
    (WalkerBy.plain dp w).run (it.dropped it.drop) = w.run it := by
  have pure_clean : ∀ {α : Type} (x : M (τ × List A) α), M.onUnwind x (M.onSnd (pure ())) = x := by
    intro α x; funext s
    simp only [M.onUnwind]
    cases x s <;> rfl
  induction w with
  | stop r =>
    simp only [WalkerBy.plain, WalkerBy.run, pure_clean, Walker.run, Ends.dropped]; rfl
  | panic =>
    simp only [WalkerBy.plain, WalkerBy.run, pure_clean, Walker.run, Ends.dropped]
    funext s
    simp only [M.bind_run, M.onUnwind, M.onSnd_run, M.panic, Out.mapState_panic]
    cases it.drop s <;> rfl
  | next k ih => simp only [WalkerBy.plain, WalkerBy.run, pure_clean, Walker.run, ih]; rfl
  | nextBack hb k ih => simp only [WalkerBy.plain, WalkerBy.run, pure_clean, Walker.run, ih]; rfl
  | hint k ih => simp only [WalkerBy.plain, WalkerBy.run, pure_clean, Walker.run, ih]; rfl
  | toss b k ih =>
    simp only [WalkerBy.plain, WalkerBy.run, pure_clean, Walker.run, ih, h]
    funext s
    have e : (M.onSnd (fun log => if dp b = true then .panic (log ++ [b]) else .ok () (log ++ [b])) : M (τ × List A) Unit) = dropOne dp b := by
      funext s; simp only [dropOne]; split <;> rfl
    simp only [e, Ends.dropped, M.bind_run]
    cases M.onUnwind (dropOne dp b) it.drop s <;> rfl

namespace Chunk
variable {E : Env} {N : Nat} {c : Chunk A} {l : List A}

/-- C115. `drain()` of a chunk: whatever the code and the destructors do, it is as with the list of the items, and those not taken stay in the chunk. -/
theorem C115_drain (hN : 2 * N < E.W) (dp : A → Bool) (h : View E N c l) :
    ((drainEnds E N dp).borrowed : EndsBy _ υ A).Walks (listBy ListIter.exactly fun _ => pure ()) true (View E N) c l :=
  (C113_drain hN dp h).borrowed rfl

/-- C115. `into_iter()` of a chunk: as with the list of the items, those not taken being destroyed as a slice is when the iterator is dropped. -/
theorem C115_into_iter (hN : 2 * N < E.W) (el : Elem υ A) (h : View E N c l) :
    (intoIterBy E N el).Walks (listBy ListIter.exactly el.dropSlice) true (fun _ _ => True) c l := by
  exact EndsBy.Sim.walks (I := Rep N) ⟨fun t l h => iterNext_ref (by omega) h, fun _ t l h => iterNextBack_ref h, fun t l h => hint_ref (sizeHint_eq h) h,
    fun t l u h => drop_same (dropBy_same h u) trivial, fun _ _ _ => trivial⟩ (h.rep hN)

/-- C115. … which is C113's iterator when the destructors do no more than log. -/
theorem C115_into_iter_plain (dp : A → Bool) (cl : A → Option A) :
    intoIterBy E N (Elem.plain dp cl) = (intoIterEnds E N dp).dropped (intoIterEnds E N dp).drop := by
  simp only [intoIterBy, (C109_plain dp cl 0).1]; rfl

end Chunk

namespace Ring
variable {E : Env} {N : Nat} {c : Ring A} {l : List A}

/-- C115. `drain()` of a buffer. -/
theorem C115_drain (hW : 2 * N < E.W) (dp : A → Bool) (h : View E N c l) :
    ((drainEnds E N dp).borrowed : EndsBy _ υ A).Walks (listBy ListIter.exactly fun _ => pure ()) true (View E N) c l :=
  (C113_drain hW dp h).borrowed rfl

/-- C115. `into_iter()` of a buffer, which destroys the items not taken one at a time. -/
theorem C115_into_iter (hW : 2 * N < E.W) (el : Elem υ A) (h : View E N c l) :
    (intoIterBy E N el).Walks (listBy ListIter.exactly el.dropEach) true (fun _ _ => True) c l := by
  exact EndsBy.Sim.walks (I := Rep N) ⟨fun t l h => popFront_ref hW h, fun _ t l h => popBack_ref hW h, fun t l h => hint_ref (sizeHint_eq h) h,
    fun t l u h => drop_same (dropBy_same hW h u) trivial, fun _ _ _ => trivial⟩ (h.rep hW)

/-- C115. … which is C113's iterator when the destructors do no more than log. -/
theorem C115_into_iter_plain (dp : A → Bool) (cl : A → Option A) :
    intoIterBy E N (Elem.plain dp cl) = (intoIterEnds E N dp).dropped (intoIterEnds E N dp).drop := by
  simp only [intoIterBy, (C109_plain dp cl 0).1]; rfl

/-- C115. `iter()` of a buffer, which is left alone. -/
theorem C115_iter (hW : 2 * N < E.W) (h : View E N c l) : ∃ it, iter E N c = .ok it c ∧
    ((iterEnds E N : Ends _ A A).borrowed : EndsBy _ υ A).Walks (listBy ListIter.exactly fun _ => pure ()) true (fun t _ => t.1 = c) (c, it) l := by
  obtain ⟨it, e, hw⟩ := C113_iter hW h
  exact ⟨it, e, hw.borrowed rfl⟩

/-- C115. `iter_mut()` of a buffer: the references point to pairwise distinct slots, which hold the items in order. -/
theorem C115_iter_mut (hW : 2 * N < E.W) (h : View E N c l) : ∃ it slots, iterMut E N c = .ok it c ∧
    slots.map c.mem = l.map some ∧ slots.Nodup ∧ (∀ p ∈ slots, p < N) ∧
    ((iterMutEnds E N : Ends _ A Nat).borrowed : EndsBy _ υ Nat).Walks (listBy ListIter.exactly fun _ => pure ()) true (fun t _ => t.1 = c) (c, it) slots := by
  obtain ⟨it, slots, e, h1, h2, h3, hw⟩ := C113_iter_mut hW h
  exact ⟨it, slots, e, h1, h2, h3, hw.borrowed rfl⟩

/-- C115. `iter()` of a slice showing the positions `a..b`. -/
theorem C115_slice_iter (hW : 2 * N < E.W) (h : View E N c l) (a b : Nat) (h1 : a ≤ b) (h2 : b ≤ l.length) : ∃ it, sliceIter E N ⟨a, b⟩ c = .ok it c ∧
    ((iterEnds E N : Ends _ A A).borrowed : EndsBy _ υ A).Walks (listBy ListIter.exactly fun _ => pure ()) true (fun t _ => t.1 = c) (c, it)
      ((l.take b).drop a) := by
  obtain ⟨⟨it, e, hw⟩, -⟩ := C113_slice_iterators hW h a b h1 h2
  exact ⟨it, e, hw.borrowed rfl⟩

end Ring

namespace Inline
variable [DecidableEq A] {E : Env} {L : Layout A} {s : Inline A} {l : List A} {dp' : A → Bool} {cl : A → Option A}

/-- C115. `drain()` of an inline array. -/
theorem C115_drain (hv : L.Valid E) (dp : A → Bool) (hr : Reachable E L dp' cl s) (h : View E L s l) :
    ((drainEnds E L dp).borrowed : EndsBy _ υ A).Walks (listBy ListIter.exactly fun _ => pure ()) true (View E L) s l :=
  (C113_drain hv dp hr h).borrowed rfl

/-- C115. `into_iter()` of an inline array. -/
theorem C115_into_iter (hv : L.Valid E) (el : Elem υ A) (hr : Reachable E L dp' cl s) (h : View E L s l) :
    (intoIterBy E L el).Walks (listBy ListIter.exactly el.dropSlice) true (fun _ _ => True) s l := by
  exact EndsBy.Sim.walks (I := Rep E L) ⟨fun t l h => iterNext_ref hv h, fun _ t l h => iterNextBack_ref hv h, fun t l h => hint_ref (sizeHint_eq hv h) h,
    fun t l u h => drop_same (dropBy_same hv h u) trivial, fun _ _ _ => trivial⟩ (hr.rep_of_view hv h)

/-- C115. … which is C113's iterator when the destructors do no more than log. -/
theorem C115_into_iter_plain (dp : A → Bool) (cl : A → Option A) :
    intoIterBy E L (Elem.plain dp cl) = (intoIterEnds E L dp).dropped (intoIterEnds E L dp).drop := by
  simp only [intoIterBy, (C109_plain dp cl 0).1]; rfl

end Inline

namespace Sparse
variable {E : Env} {N : Nat} {c : Sparse A} {m : SMap A}

/-- C115. `drain()` and `into_iter()` of a sparse chunk: over its elements by ascending index, those not taken being destroyed one at a time. -/
theorem C115_drain (el : Elem υ A) (h : View N c m) {k : List A} (hk : items N c = .ok k c) :
    (drainBy N el).Walks (listBy ListIter.exactly el.dropEach) false (fun _ _ => True) c k := by
  rw [items_eq h.rep] at hk
  injection hk with hk
  have hs := drain_sim (N := N) (A := A) fun _ => false
  refine EndsBy.Sim.walks (I := fun c k => ∃ m, Rep N c m ∧ m.vals N = k) ⟨hs.next, hs.nextBack, hs.hint, ?_, fun _ _ _ => trivial⟩ ⟨m, h.rep, hk⟩
  rintro t l u ⟨m, h, rfl⟩
  exact drop_same (dropBy_same h u) trivial

/-- C115. … which is C113's iterator when the destructors do no more than log. -/
theorem C115_drain_plain (dp : A → Bool) (cl : A → Option A) :
    drainBy N (Elem.plain dp cl) = (drainEnds N dp).dropped (drainEnds N dp).drop := by
  simp only [drainBy, (C109_plain dp cl).1]; rfl

/-- C115. `option_drain()` of a sparse chunk: over every index, taking the elements; those not taken are destroyed one at a time. -/
theorem C115_option_drain (hW : N < E.W) (el : Elem υ A) (h : View N c m) :
    (optionDrainBy E N el).Walks (listBy ListIter.exactly fun k => el.dropEach (k.filterMap id)) false (fun _ _ => True) (c, 0) ((List.range N).map m) := by
  have hs := optionDrain_sim (N := N) (E := E) hW (fun _ => false) m
  refine EndsBy.Sim.walks (I := AtOptionDrain N m) ⟨hs.next, hs.nextBack, hs.hint, ?_, fun _ _ _ => trivial⟩ (optionDrain_start h.rep)
  rintro ⟨c', i⟩ l u ⟨hi, hr, rfl⟩
  simp only at hi hr
  refine drop_same (t := (c', i)) ?_ trivial
  simp only [optionDrainBy, Ends.dropped, dropBy_same hr, above_vals hi]
  cases el.dropEach (((List.range' i (N - i)).map m).filterMap id) u <;> rfl

/-- C115. The iterators that only lend: `iter()`, `indices()`, `entries()`, `iter_mut()`, `option_iter()` and `option_iter_mut()` of a sparse chunk, which is
left alone. -/
theorem C115_lending (hW : N < E.W) (h : View N c m) :
    ((iterEnds N : Ends _ A A).borrowed : EndsBy _ υ A).Walks (listBy (fun _ => (0, some N)) fun _ => pure ()) false (fun t _ => t.1 = c) (c, 0) (m.vals N) ∧
    ((indicesEnds N : Ends _ A Nat).borrowed : EndsBy _ υ Nat).Walks (listBy (fun _ => (0, none)) fun _ => pure ()) false (fun t _ => t.1 = c) (c, 0) (m.keys N) ∧
    ((entriesEnds N : Ends _ A (Nat × A)).borrowed : EndsBy _ υ (Nat × A)).Walks (listBy (fun _ => (0, some N)) fun _ => pure ()) false (fun t _ => t.1 = c)
      (c, (0, 0)) (m.pairs N) ∧
    ((iterMutEnds N : Ends _ A Nat).borrowed : EndsBy _ υ Nat).Walks (listBy (fun _ => (0, some N)) fun _ => pure ()) false (fun t _ => t.1 = c) (c, c.map) (m.keys N) ∧
    ((optionIterEnds E N : Ends _ A (Option A)).borrowed : EndsBy _ υ (Option A)).Walks (listBy ListIter.exactly fun _ => pure ()) false (fun t _ => t.1 = c)
      (c, 0) ((List.range N).map m) ∧
    ((optionIterMutEnds E N : Ends _ A (Option Nat)).borrowed : EndsBy _ υ (Option Nat)).Walks (listBy ListIter.exactly fun _ => pure ()) false (fun t _ => t.1 = c)
      (c, 0) ((List.range N).map fun i => (m i).map fun _ => i) :=
  ⟨(C113_iter h (items_eq h.rep)).borrowed rfl, (C113_indices h (indices_eq h.rep)).borrowed rfl, (C113_entries h (entries_eq h.rep)).borrowed rfl,
    (C113_iter_mut h (indices_eq h.rep)).borrowed rfl, (C113_option_iter hW h).borrowed rfl, (C113_option_iter_mut hW h).borrowed rfl⟩

end Sparse
section
open Chunk (dbg64 edge)

/-- Items whose destructor counts its calls, and panics the second time. -/
def second : Elem (Nat × List Nat) Nat where
  clone a := pure a
  drop a := fun s => if s.1 = 1 then .panic (s.1 + 1, s.2 ++ [a]) else .ok () (s.1 + 1, s.2 ++ [a])

/-- Code that takes an item, destroys it, has a look at the counter, and takes from the other end if it is 1. -/
def curious : WalkerBy true (Nat × List Nat) Nat (Option Nat) :=
  .next (pure ()) fun r => match r with
    | none => .forget (pure none)
    | some a => .user (second.drop 99) (second.drop a) fun u =>
      if u.1 = 1 then .nextBack rfl (pure ()) fun r => .stop (fun s => .ok () (s.1, s.2 ++ [77])) (pure r) else .forget (pure none)

/-- With two items in a chunk: the first is destroyed by the code, the second is given away, and nothing is left to destroy. -/
example : Chunk.View dbg64 3 edge [10, 20] ∧
    (∃ t, curious.run (Chunk.intoIterBy dbg64 3 second) (edge, (0, [])) = .ok (some 20) (t, (1, [10]))) ∧
    (∃ t, curious.run (Chunk.intoIterBy dbg64 3 second) (edge, (1, [])) = .panic (t, (4, [10, 20, 99]))) :=
  ⟨rfl, ⟨_, rfl⟩, ⟨_, rfl⟩⟩

/-- … the same, by the theorem. -/
example : ∃ t, curious.run (Chunk.intoIterBy dbg64 3 second) (edge, (1, [])) = .panic (t, (4, [10, 20, 99])) := by
  have h := Chunk.C115_into_iter (E := dbg64) (N := 3) (c := edge) (l := [10, 20]) (by decide) second rfl _ curious (1, [])
  cases hx : curious.run (Chunk.intoIterBy dbg64 3 second) (edge, (1, [])) <;> rw [hx] at h <;> try exact (show False from h).elim
  rename_i s
  obtain ⟨t, u⟩ := s
  obtain ⟨-, h⟩ := h
  dsimp only at h; subst h
  exact ⟨t, rfl⟩

/-- Code that takes one item and panics, holding it: the iterator goes first, then the item. -/
def dropsLate : WalkerBy true (Nat × List Nat) Nat Unit := .next (pure ()) fun _ => .user (second.drop 10) M.panic fun _ => .forget (pure ())

/-- On a buffer the second destructor call panics during unwinding, which aborts; so it does on the list.  Draining destroys only what the code holds. -/
example : Ring.View dbg64 3 Ring.seam [10, 20] ∧
    dropsLate.run (Ring.intoIterBy dbg64 3 second) (Ring.seam, (0, [])) = .abort ∧
    dropsLate.run (listBy ListIter.exactly second.dropEach) ([10, 20], (0, [])) = .abort ∧
    (∃ t, dropsLate.run (Ring.drainEnds dbg64 3 fun _ => false).borrowed (Ring.seam, (0, [])) = .panic (t, (1, [10])) ∧ Ring.View dbg64 3 t [20]) :=
  ⟨⟨rfl, by decide, by decide⟩, rfl, rfl, ⟨_, rfl, ⟨rfl, by decide, by decide⟩⟩⟩

/-- A sparse chunk with items at 1 and 3; `option_drain()` skips one index, takes an item, and the rest goes with the iterator. -/
def takeTwo : WalkerBy false (Nat × List Nat) (Option Nat) (Option (Option Nat)) :=
  .next (pure ()) fun _ => .next (pure ()) fun r => .stop (pure ()) (pure r)

example : Sparse.View 4 Sparse.sample Sparse.sampleMap ∧
    (∃ t, takeTwo.run (Sparse.optionDrainBy dbg64 4 second) ((Sparse.sample, 0), (0, [])) = .ok (some (some 20)) (t, (1, [10]))) ∧
    (∃ t, takeTwo.run (Sparse.optionDrainBy dbg64 4 second) ((Sparse.sample, 0), (1, [])) = .panic (t, (2, [10]))) ∧
    (∃ t, (WalkerBy.plain (fun _ => false) (Walker.last 3 .stop : Walker false Nat _)).run (Sparse.drainBy 4 (Elem.plain (fun _ => false) some)) (Sparse.sample, []) =
      .ok (some 10) (t, [20])) :=
  ⟨Sparse.sample_view, ⟨_, rfl⟩, ⟨_, rfl⟩, ⟨_, rfl⟩⟩

/-- An inline array of three words. -/
example : ∃ t, curious.run (Inline.intoIterBy dbg64 Inline.words second) (Inline.three, (0, [])) = .panic (t, (2, [10, 20, 77])) := by
  have h := Inline.C115_into_iter Inline.words_valid second Inline.three_spec.1 Inline.three_spec.2 _ curious (0, [])
  cases hx : curious.run (Inline.intoIterBy dbg64 Inline.words second) (Inline.three, (0, [])) <;> rw [hx] at h <;> try exact (show False from h).elim
  rename_i s
  obtain ⟨t, u⟩ := s
  obtain ⟨-, h⟩ := h
  dsimp only at h; subst h
  exact ⟨t, rfl⟩
end
end Verif
