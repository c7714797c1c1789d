import Verif.CareSpec
import Verif.Props.InlineOps
/-
C109 for the inline array.
-/
namespace Verif.Inline
variable {A τ : Type} [DecidableEq A] {E : Env} {L : Layout A} {el : Elem τ A} {dp : A → Bool} {cl : A → Option A}

/-- An array and the user's state against a list and the same state. -/
abbrev ViewS (E : Env) (L : Layout A) (s : Inline A × τ) (t : List A × τ) : Prop := View E L s.1 t.1 ∧ s.2 = t.2

theorem dropBy_same (hv : L.Valid E) {c : Inline A} {l : List A} (h : Rep E L c l) (u : τ) :
    dropBy E L el (c, u) = (el.dropSlice l u).mapState (fun u' => (c, u')) := by
  simp [dropBy, items_eq hv h]

/-- C109. Dropping an array runs `drop_in_place` of the slice of its items, on the user's state, and does nothing else. -/
theorem C109_drop (hv : L.Valid E) {c : Inline A} {l : List A} (hr : Reachable E L dp cl c) (h : View E L c l) (u : τ) :
    Out.Same Eq (ViewS E L) (dropBy E L el (c, u)) (Care.drop el.dropSlice (l, u)) := by
  rw [dropBy_same hv (hr.rep_of_view hv h)]
  exact Out.Same.onSnd _ _ _ (fun _ => ⟨h, rfl⟩)

/-- C109. `clear` runs `drop_in_place` of the slice of its items, then the array is empty; if a destructor panics, it still shows the same items. -/
theorem C109_clear (hv : L.Valid E) {c : Inline A} {l : List A} (hr : Reachable E L dp cl c) (h : View E L c l) (u : τ) :
    Out.Same Eq (ViewS E L) (clearBy E L el (c, u)) (Care.clear el.dropSlice (l, u)) := by
  have r := hr.rep_of_view hv h
  have g := r.geo hv
  simp only [clearBy, Care.clear, M.bind_run, M.onFst_run, dropBy_same hv r, Out.mapState_ok, Out.andThen_ok, M.get_run, M.onSnd_run]
  refine Out.Same.bind (Out.Same.onSnd (R := fun s t => s.1 = c ∧ t.1 = l ∧ s.2 = t.2) _ _ _ (fun _ => ⟨rfl, rfl, rfl⟩)) ?_ ?_
  · rintro ⟨_, _⟩ ⟨_, _⟩ ⟨h1, h2, h3⟩
    dsimp only at h1 h2 h3; subst h1 h2 h3; exact ⟨h, rfl⟩
  · rintro _ ⟨c', u'⟩ _ ⟨l', v'⟩ - ⟨h1, h2, h3⟩
    dsimp only at h1 h2 h3; subst h1 h2 h3
    simp only [setLen_eq g r.addr, M.set_run, Out.mapState_ok, Out.Same, true_and]
    refine ⟨Rep.view hv ⟨r.acc, r.addr, by simp, ?_, by simp⟩, rfl⟩
    exact withLen_hdr _ _

theorem cloneLoopBy_same (hv : L.Valid E) {s : Inline A} {l : List A} (h : Rep E L s l) (n i : Nat) (c : Inline A) (done : List A) (u : τ)
    (hi : i + n = l.length) (hd : done.length = i) (hc : Rep E L c []) (hs : ∀ j a, done[j]? = some a → Slot L c j a) :
    Out.Same Eq (fun x w => (Rep E L x.1.1 [] ∧ ∀ j a, w.1[j]? = some a → Slot L x.1.1 j a) ∧ x.1.2 = s ∧ x.2 = w.2)
      (cloneLoopBy E L el n i ((c, s), u)) (el.cloneEach (l.drop i) (done, u)) := by
  have hle := h.le
  have g := h.geo hv
  induction n generalizing c i done u with
  | zero =>
    rw [List.drop_eq_nil_of_le (by omega)]
    exact ⟨rfl, ⟨hc, hs⟩, rfl, rfl⟩
  | succ n ih =>
    have hi' : i < l.length := by omega
    have e : l[i]? = some l[i] := List.getElem?_eq_getElem hi'
    rw [List.drop_eq_getElem_cons hi']
    simp only [cloneLoopBy, M.bind_run, M.onFst_run, M.onSnd_run, itemAt, items_eq hv h, Out.andThen_ok, e, M.pure_run, Out.mapState_ok, Elem.cloneEach]
    cases hx : el.clone l[i] u with
    | ok b u' =>
      simp only [Out.mapState_ok, Out.andThen_ok, M.onFst_run, writeAt_eq g hc.addr (show i < cap E L by omega), M.bind_run, M.get_run, M.set_run]
      have hc' : Rep E L (withSlot L c i b) [] :=
        ⟨hc.acc, hc.addr, by simp, withSlot_hdr g (by omega) hc.hdr, by simp⟩
      refine ih (i + 1) _ (done ++ [b]) u' (by omega) (by simp [hd]) hc' ?_
      intro j a hj
      by_cases hji : j < i
      · rw [List.getElem?_append_left (by omega)] at hj
        exact withSlot_other (by omega) (hs j a hj)
      · have : j = i := by
          have := (List.getElem?_eq_some_iff.1 hj).1
          simp only [List.length_append, List.length_singleton] at this
          omega
        subst this
        rw [List.getElem?_append_right (by omega)] at hj
        simp only [hd, Nat.sub_self, List.getElem?_cons_zero, Option.some.injEq] at hj
        subst hj
        exact withSlot_same _ _ _
    | panic u' =>
      simp only [Out.mapState_panic, Out.andThen_panic, Out.Same]
      exact ⟨⟨hc, hs⟩, trivial, trivial⟩
    | _ => simp [Out.Same]

theorem cloneBy_same (hv : L.Valid E) (k : Nat) {c : Inline A} {l : List A} (r : Rep E L c l) (u : τ) :
    Out.Same (fun d bs => Rep E L d bs) (fun s w => s.1 = c ∧ s.2 = w) (cloneBy E L el k (c, u)) (Care.clone el (fun _ => pure ()) l u) := by
  have hle := r.le
  have g := r.geo hv
  obtain ⟨o, h1, h2⟩ := new_ok hv r.acc k
  have hb := cloneLoopBy_same (el := el) hv r l.length 0 o [] u (by omega) rfl h2 (by simp)
  rw [List.drop_zero] at hb
  have hfin := Care.finish (el := el) (run := fun _ => pure ()) (l := l) (t := o) (c := c) (u := u)
    (V := fun d bs => Rep E L d bs) (P := fun d _ => Rep E L d [])
    (body := do
      cloneLoopBy E L el (← M.onFst (M.onSnd (len E L))) 0
      M.onFst (do M.onFst (setLen E L (← M.onSnd (len E L))))) (dtor := M.atFst (dropBy E L el)) ?_ ?_ ?_ ?_
  · rw [M.bind_run] at hfin
    simp only [cloneBy, M.bind_run, make, h1, Out.mapState_ok, Out.andThen_ok]
    exact hfin
  all_goals
    try simp only [M.bind_run, M.onFst_run, M.onSnd_run, len_eq hv r, Out.mapState_ok, Out.andThen_ok]
  · intro v s e
    cases hx : cloneLoopBy E L el l.length 0 ((o, c), u) <;> rw [hx] at e <;>
      simp only [Out.andThen_ok, Out.andThen_panic, Out.andThen_abort, Out.andThen_ub, Out.andThen_diverge, reduceCtorEq] at e
    rename_i v' x
    obtain ⟨_, w, e1, -, ⟨e2, e3⟩, e4, e5⟩ := hb.ok_inv hx
    obtain ⟨⟨x1, x2⟩, x3⟩ := x
    dsimp only at e2 e3 e4 e5
    subst e4 e5
    simp only [len_eq hv r, Out.mapState_ok, Out.andThen_ok, setLen_eq g e2.addr, Out.ok.injEq] at e
    obtain ⟨-, rfl⟩ := e
    have hlen : w.1.length = l.length := by simpa using Elem.cloneEach_length el _ _ _ _ _ e1
    refine ⟨w, e1, ⟨r.acc, e2.addr, by omega, ?_, ?_⟩, rfl, rfl⟩
    · rw [hlen]; exact withLen_hdr _ _
    · intro j a hj
      have hj' := (List.getElem?_eq_some_iff.1 hj).1
      exact withLen_slot g (by omega) (e3 j a hj)
  · intro s e
    cases hx : cloneLoopBy E L el l.length 0 ((o, c), u) with
    | ok v' x =>
      obtain ⟨_, w, e1, -, ⟨e2, e3⟩, e4, e5⟩ := hb.ok_inv hx
      obtain ⟨⟨x1, x2⟩, x3⟩ := x
      dsimp only at e2 e3 e4 e5
      subst e4 e5
      rw [hx] at e
      simp [len_eq hv r, setLen_eq g e2.addr] at e
    | panic x =>
      obtain ⟨w, e1, ⟨e2, e3⟩, e4, e5⟩ := hb.panic_inv hx
      rw [hx] at e
      simp only [Out.andThen_panic, Out.panic.injEq] at e
      subst e
      exact ⟨w, e1, e2, e4, e5⟩
    | _ => rw [hx] at e; simp at e
  · cases hx : cloneLoopBy E L el l.length 0 ((o, c), u) with
    | ok v' x =>
      obtain ⟨_, w, e1, -, ⟨e2, e3⟩, e4, e5⟩ := hb.ok_inv hx
      obtain ⟨⟨x1, x2⟩, x3⟩ := x
      dsimp only at e2 e3 e4 e5
      subst e4 e5
      simp [len_eq hv r, setLen_eq g e2.addr]
    | panic x => simp
    | _ => rw [hx] at hb; cases hy : el.cloneEach l ([], u) <;> simp_all [Out.Same]
  · intro d bs u' hd
    simp [M.atFst, dropBy_same hv hd, Elem.dropSlice, Out.Same]

/-- C109. `clone` calls `clone` of the items front to back; the result shows what they returned, the original is unchanged.  If one panics, the panic goes on
and no destructor is run: the clones made so far are leaked. -/
theorem C109_clone (hv : L.Valid E) (k : Nat) {c : Inline A} {l : List A} (hr : Reachable E L dp cl c) (h : View E L c l) (u : τ) :
    Out.Same (fun d bs => View E L d bs) (fun s w => s.1 = c ∧ s.2 = w) (cloneBy E L el k (c, u)) (Care.clone el (fun _ => pure ()) l u) :=
  (cloneBy_same hv k (hr.rep_of_view hv h) u).imp (fun _ _ hd => hd.view hv) (fun _ _ h => h)

/-! ### The calls -/

/-- C109. Dropping, whether it returns or panics, calls the destructor of every item once, in order. -/
theorem C109_drop_calls (hv : L.Valid E) {c : Inline A} {l : List A} (hr : Reachable E L dp cl c) (h : View E L c l) (u : τ) (log : List (Call A)) :
    (∀ s, dropBy E L el.traced (c, (u, log)) = .ok () s → s.2.2 = log ++ l.map .drop) ∧
    (∀ s, dropBy E L el.traced (c, (u, log)) = .panic s → s.2.2 = log ++ l.map .drop) := by
  have hc := Elem.dropSlice_calls el l u log
  rw [dropBy_same hv (hr.rep_of_view hv h)]
  cases hx : el.traced.dropSlice l (u, log) <;> simp_all

/-- C109. `clone` calls `clone` of every item once, in order.  When one panics, the ones after it are not called, and no destructor is. -/
theorem C109_clone_calls (hv : L.Valid E) (k : Nat) {c : Inline A} {l : List A} (hr : Reachable E L dp cl c) (h : View E L c l) (u : τ)
    (log : List (Call A)) :
    (∀ d s, cloneBy E L el.traced k (c, (u, log)) = .ok d s → ∃ bs, View E L d bs ∧ bs.length = l.length ∧ s.2.2 = log ++ Call.clones l bs) ∧
    (∀ s, cloneBy E L el.traced k (c, (u, log)) = .panic s → ∃ l₁ a l₂ bs, l = l₁ ++ a :: l₂ ∧ bs.length = l₁.length ∧
      s.2.2 = log ++ Call.clones l₁ bs ++ [.clone a none]) := by
  have hc := Care.clone_calls el (fun _ => pure ()) (fun _ => []) (fun bs u lg s e => by
    simp only [M.pure_run, Out.ok.injEq, true_and] at e; subst e; simp) l u log
  have hs := C109_clone (el := el.traced) hv k hr h (u, log)
  refine ⟨fun d s e => ?_, fun s e => ?_⟩
  · obtain ⟨bs, t, e1, e2, e3⟩ := hs.ok_inv e
    obtain ⟨h1, h2⟩ := hc.1 bs t e1
    exact ⟨bs, e2, h1, by rw [e3.2]; exact h2⟩
  · obtain ⟨t, e1, e2⟩ := hs.panic_inv e
    obtain ⟨l₁, a, l₂, bs, h0, h1, h2⟩ := hc.2 t e1
    exact ⟨l₁, a, l₂, bs, h0, h1, by rw [e2.2]; simpa using h2⟩

/-! ### The elements of the other theorems are a special case -/

/-- C109. With destructors that log and perhaps panic, and a pure `clone` that may panic, these are the methods of the model used in all other theorems. -/
theorem C109_plain (dp : A → Bool) (cl : A → Option A) (k : Nat) :
    dropBy E L (Elem.plain dp cl) = drop E L dp ∧ clearBy E L (Elem.plain dp cl) = clear E L dp ∧
    cloneBy E L (Elem.plain dp cl) k = clone E L dp cl k := by
  have hd : dropBy E L (Elem.plain dp cl) = drop E L dp := by
    unfold dropBy drop; simp only [Elem.plain_dropSlice]
  have h2 : ∀ n i, cloneLoopBy E L (Elem.plain dp cl) n i = M.onFst (cloneLoop E L cl n i) := by
    intro n
    induction n with
    | zero => intro i; rfl
    | succ n ih =>
      intro i
      simp only [cloneLoopBy, cloneLoop, M.onFst_bind, Elem.plain_clone, ih]
      congr 1
      funext a
      cases hc : cl a with
      | none => simp only [cloneOne, hc]; rfl
      | some b => simp only [cloneOne, hc]; rfl
  refine ⟨hd, ?_, ?_⟩
  · unfold clearBy clear; simp only [hd]
  · unfold cloneBy clone
    simp only [h2, hd, M.onFst_bind]

/-! ### C109 is not vacuous -/

/-- Items whose clone is a fresh number, the fourth clone panicking, and whose destructors count, the second panicking. -/
def fussy : Elem (Nat × Nat) Nat where
  clone _ := fun s => if s.1 = 3 then .panic s else .ok (100 + s.1) (s.1 + 1, s.2)
  drop _ := fun s => if s.2 = 1 then .panic (s.1, 2) else .ok () (s.1, s.2 + 1)

/-- C109 is not vacuous: `three` (holding `[10, 20, 30]`) is a reachable array of a valid layout; its clone shows `[100, 101, 102]`; when a clone has been made
before, its third clone panics; dropping it panics at the second item, but all three destructors run. -/
example : words.Valid Chunk.dbg64 ∧ Reachable Chunk.dbg64 words (fun _ => false) some three ∧ View Chunk.dbg64 words three [10, 20, 30] ∧
    Care.clone fussy (fun _ => pure ()) [10, 20, 30] (0, 0) = .ok [100, 101, 102] (3, 0) ∧
    Care.clone fussy (fun _ => pure ()) [10, 20, 30] (1, 0) = .panic (3, 0) ∧
    fussy.dropSlice [10, 20, 30] (0, 0) = .panic (0, 3) :=
  ⟨words_valid, three_spec.1, three_spec.2, rfl, rfl, rfl⟩

end Verif.Inline
