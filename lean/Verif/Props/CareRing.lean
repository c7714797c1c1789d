import Verif.CareSpec
import Verif.Props.RingOps
/-
C109 for the ring buffer.
-/
namespace Verif.Ring
open Chunk (dbg64)
variable {A τ : Type} {E : Env} {N : Nat} {el : Elem τ A}

/-- A buffer and the user's state against a list and the same state. -/
abbrev ViewS (E : Env) (N : Nat) (s : Ring A × τ) (t : List A × τ) : Prop := View E N s.1 t.1 ∧ s.2 = t.2

theorem _root_.Verif.Sat.eq_ok {σ α : Type} {o : Out σ α} {a : α} {s : σ} (h : Sat o (fun b t => b = a ∧ t = s) (fun _ => False) False) : o = .ok a s := by
  cases o <;> simp_all [Sat]

theorem idxNext_step {σ : Type} (hW : 2 * N < E.W) {o a r right : Nat} (ho : o < N) (ha : a + (r + 1) ≤ N) (s : σ) :
    idxNext E N ⟨r + 1, ridx N o a, right⟩ s = .ok (some (ridx N o a, ⟨r, ridx N o (a + 1), right⟩)) s :=
  Sat.eq_ok (sat_idxNext hW ho ha (by omega) (fun _ => ⟨rfl, rfl⟩))

theorem range_run (hW : 2 * N < E.W) {c : Ring A} {l : List A} (h : Rep N c l) :
    range E N c = .ok ⟨l.length, c.origin, ridx N c.origin l.length⟩ c := by
  have := h.le
  have h2 := h.len
  exact Sat.eq_ok (sat_range hW h.org (by omega) ⟨by rw [h2], rfl⟩)

theorem forLoop_drop (hW : 2 * N < E.W) {c : Ring A} {l : List A} (h : Rep N c l) (r a f right : Nat) (u : τ) (ha : a + r ≤ l.length) (hf : r < f) :
    forLoop E N (forceDropBy E N el) f ⟨r, ridx N c.origin a, right⟩ (c, u) = (el.dropEach ((l.drop a).take r) u).mapState (fun u' => (c, u')) := by
  have h1 := h.org
  have h3 := h.le
  induction r generalizing a f u with
  | zero =>
    obtain ⟨f, rfl⟩ : ∃ g, f = g + 1 := ⟨f - 1, by omega⟩
    have e : idxNext (σ := Ring A × τ) E N ⟨0, ridx N c.origin a, right⟩ (c, u) = .ok none (c, u) :=
      Sat.eq_ok (sat_idxNext hW h1 (by omega) (fun _ => ⟨rfl, rfl⟩) (by omega))
    simp [forLoop, e, Elem.dropEach]
  | succ r ih =>
    obtain ⟨f, rfl⟩ : ∃ g, f = g + 1 := ⟨f - 1, by omega⟩
    have hk : a < l.length := by omega
    have e : l[a]? = some l[a] := List.getElem?_eq_getElem hk
    have er : forceRead E N (ridx N c.origin a) c = .ok l[a] c :=
      Sat.eq_ok (sat_forceReadL h1 (by omega) (h.cell' e).2 ⟨rfl, rfl⟩)
    rw [List.drop_eq_getElem_cons hk, List.take_succ_cons]
    simp only [forLoop, M.bind_run, idxNext_step hW h1 (show a + (r + 1) ≤ N by omega), Out.andThen_ok, forceDropBy, M.onFst_run, er, Out.mapState_ok,
      M.onSnd_run, Elem.dropEach]
    cases hx : el.drop l[a] u with
    | ok v u' =>
      simp only [Out.mapState_ok, Out.andThen_ok]
      exact ih (a + 1) f u' (by omega) (by omega)
    | _ => rfl

theorem forIdx_drop (hW : 2 * N < E.W) {c : Ring A} {l : List A} (h : Rep N c l) (r right : Nat) (u : τ) (ha : r ≤ l.length) :
    forIdx E N ⟨r, c.origin, right⟩ (forceDropBy E N el) (c, u) = (el.dropEach (l.take r) u).mapState (fun u' => (c, u')) := by
  have := forLoop_drop (el := el) hW h r 0 (r + 1) right u (by omega) (by omega)
  rw [ridx_zero h.org, List.drop_zero] at this
  exact this

theorem dropBy_same (hW : 2 * N < E.W) {c : Ring A} {l : List A} (h : Rep N c l) (u : τ) :
    dropBy E N el (c, u) = (el.dropEach l u).mapState (fun u' => (c, u')) := by
  simp only [dropBy, M.bind_run, M.onFst_run, range_run hW h, Out.mapState_ok, Out.andThen_ok]
  rw [forIdx_drop hW h _ _ _ (Nat.le_refl _), List.take_length]

/-- C109. Dropping a buffer runs the destructors of its items front to back, on the user's state, and stops at the first that panics. -/
theorem C109_drop (hW : 2 * N < E.W) {c : Ring A} {l : List A} (h : View E N c l) (u : τ) :
    Out.Same Eq (ViewS E N) (dropBy E N el (c, u)) (Care.drop el.dropEach (l, u)) := by
  rw [dropBy_same hW (h.rep hW)]
  exact Out.Same.onSnd _ _ _ (fun _ => ⟨h, rfl⟩)

/-- C109. `clear` runs the destructors front to back, then the buffer is empty; if one panics, the buffer still shows the same items. -/
theorem C109_clear (hN : 0 < N) (hW : 2 * N < E.W) {c : Ring A} {l : List A} (h : View E N c l) (u : τ) :
    Out.Same Eq (ViewS E N) (clearBy E N el (c, u)) (Care.clear el.dropEach (l, u)) := by
  have r := h.rep hW
  simp only [clearBy, Care.clear, M.bind_run, M.onFst_run, range_run hW r, Out.mapState_ok, Out.andThen_ok, M.get_run, M.onSnd_run,
    forIdx_drop hW r l.length _ u (Nat.le_refl _), List.take_length]
  refine Out.Same.bind (Out.Same.onSnd (R := ViewS E N) _ _ _ (fun _ => ⟨h, rfl⟩)) (fun _ _ h => h) ?_
  rintro _ ⟨c', u'⟩ _ ⟨l', v⟩ - ⟨h1, h2⟩
  have e : rawFrom (σ := Ring A) E N 0 c' = .ok 0 c' := by
    apply Sat.eq_ok
    unfold rawFrom
    vc
    exact ⟨rfl, rfl⟩
  simp only [M.bind_run, e, setOrigin, setLen, M.set_run, Out.andThen_ok, Out.mapState_ok, Out.Same, true_and]
  exact ⟨Rep.view hW (Rep.empty hN), h2⟩

/-- C109. `drop_left(i)` destroys exactly the first `i` items, and panics before touching anything if there are fewer. -/
theorem C109_drop_left (hW : 2 * N < E.W) {c : Ring A} {l : List A} (h : View E N c l) (u : τ) (i : Nat) :
    Out.Same Eq (ViewS E N) (dropLeftBy E N el i (c, u)) (Care.dropLeft el.dropEach i (l, u)) := by
  have r := h.rep hW
  obtain ⟨r1, r2, r3, r4⟩ := h.rep hW
  have hlen : getLen c = .ok l.length c := by simp [getLen, r2]
  unfold dropLeftBy Care.dropLeft
  simp only [M.bind_run, M.onFst_run, M.get_run, Out.mapState_ok, Out.andThen_ok, M.ite_run]
  by_cases hi : i > 0
  · rw [if_pos hi]
    simp only [M.bind_run, M.onFst_run, hlen, range_run hW r, Out.mapState_ok, Out.andThen_ok, M.panicIf_run]
    by_cases hl : i > l.length
    · simp only [hl, if_true, Out.andThen_panic]; exact ⟨h, rfl⟩
    · simp only [hl, if_false, M.bind_run, M.onFst_run, Out.mapState_ok, range_run hW r, Out.andThen_ok, M.onSnd_run, takeIdx, show min i l.length = i by omega,
        forIdx_drop hW r i _ u (show i ≤ l.length by omega)]
      refine Out.Same.bind (Out.Same.onSnd (R := fun s t => s.1 = c ∧ t.1 = l ∧ s.2 = t.2) _ _ _ (fun _ => ⟨rfl, rfl, rfl⟩)) ?_ ?_
      · rintro ⟨_, _⟩ ⟨_, _⟩ ⟨h1, h2, h3⟩
        dsimp only at h1 h2 h3; subst h1 h2 h3; exact ⟨h, rfl⟩
      · rintro _ ⟨c', u'⟩ _ ⟨l', v'⟩ - ⟨h1, h2, h3⟩
        dsimp only at h1 h2 h3; subst h1 h2 h3
        have e : (do setOrigin (← rawAddAssign E N (← getOrigin) i) : M (Ring A) Unit) c' = .ok () { c' with origin := ridx N c'.origin i } := by
          apply Sat.eq_ok
          vc
          exact ⟨rfl, rfl⟩
        have e2 : ∀ o, (do setLen (← usub E (← getLen) i) : M (Ring A) Unit) { c' with origin := o } = .ok () ⟨o, l'.length - i, c'.mem⟩ := by
          intro o
          apply Sat.eq_ok
          vc
          exact ⟨rfl, by simp [r2]⟩
        simp only [M.bind_run] at e e2
        simp only [M.bind_run, e, e2, M.set_run, Out.andThen_ok, Out.mapState_ok, Out.Same, true_and]
        refine ⟨Rep.view hW (Rep.mk' (ridx_lt r1 (by omega)) (by simp) (by simp; omega) ?_), rfl⟩
        intro j hj
        simp only [List.length_drop] at hj
        rw [lm_ridx r1 (by omega), r4 _ (by omega)]; grind
  · obtain rfl : i = 0 := by omega
    simp only [Nat.lt_irrefl, if_false, M.pure_run, M.panicIf_run, show ¬ (0 > l.length) by omega, Out.andThen_ok, List.take_zero, M.onSnd_run,
      Elem.dropEach, Out.mapState_ok, M.set_run, List.drop_zero, Out.Same, true_and]
    exact ⟨h, rfl⟩

/-- C109. `drop_right(i)` destroys exactly the items from position `i` on, and panics before touching anything if there are fewer than `i`. -/
theorem C109_drop_right (hW : 2 * N < E.W) {c : Ring A} {l : List A} (h : View E N c l) (u : τ) (i : Nat) :
    Out.Same Eq (ViewS E N) (dropRightBy E N el i (c, u)) (Care.dropRight el.dropEach i (l, u)) := by
  have r := h.rep hW
  obtain ⟨r1, r2, r3, r4⟩ := h.rep hW
  have hlen : getLen c = .ok l.length c := by simp [getLen, r2]
  unfold dropRightBy Care.dropRight
  simp only [M.bind_run, M.onFst_run, M.get_run, hlen, Out.mapState_ok, Out.andThen_ok, M.panicIf_run]
  by_cases hl : i > l.length
  · simp only [hl, if_true, Out.andThen_panic]; exact ⟨h, rfl⟩
  · simp only [hl, if_false, M.bind_run, M.onFst_run, hlen, Out.mapState_ok, Out.andThen_ok, M.ite_run]
    by_cases hi : i = l.length
    · subst hi
      simp only [if_true, M.pure_run, List.drop_length, M.onSnd_run, Elem.dropEach, Out.mapState_ok, Out.andThen_ok, M.set_run, List.take_length, Out.Same,
        true_and]
      exact ⟨h, rfl⟩
    · rw [if_neg hi]
      have e : skipIdx E N i ⟨l.length, c.origin, ridx N c.origin l.length⟩ (c, u)
          = .ok ⟨l.length - i, ridx N c.origin i, ridx N c.origin l.length⟩ (c, u) := by
        have := sat_skipIdx (N := N) (E := E) (right := ridx N c.origin l.length) hW r1 i 0 l.length (c, u) (by omega) (by omega)
          (Q := fun it s => it = ⟨l.length - i, ridx N c.origin i, ridx N c.origin l.length⟩ ∧ s = (c, u))
          (P := fun _ => False) (B := False) ⟨by simp, rfl⟩
        rw [ridx_zero r1] at this
        exact this.eq_ok
      have e2 : (l.drop i).take (l.length - i) = l.drop i := by
        rw [List.take_of_length_le]; simp
      simp only [M.bind_run, M.onFst_run, range_run hW r, Out.mapState_ok, Out.andThen_ok, M.onSnd_run, e, forIdx,
        forLoop_drop hW r (l.length - i) i _ _ u (show i + (l.length - i) ≤ l.length by omega) (Nat.lt_succ_self _), e2]
      refine Out.Same.bind (Out.Same.onSnd (R := fun s t => s.1 = c ∧ t.1 = l ∧ s.2 = t.2) _ _ _ (fun _ => ⟨rfl, rfl, rfl⟩)) ?_ ?_
      · rintro ⟨_, _⟩ ⟨_, _⟩ ⟨h1, h2, h3⟩
        dsimp only at h1 h2 h3; subst h1 h2 h3; exact ⟨h, rfl⟩
      · rintro _ ⟨c', u'⟩ _ ⟨l', v'⟩ - ⟨h1, h2, h3⟩
        dsimp only at h1 h2 h3; subst h1 h2 h3
        simp only [setLen, M.set_run, Out.mapState_ok, Out.Same, true_and]
        refine ⟨Rep.view hW (Rep.mk' r1 (by simp; omega) (by simp; omega) ?_), rfl⟩
        intro j hj
        simp only [List.length_take] at hj
        rw [r4 _ (by omega)]; grind

theorem forLoop_clone (hW : 2 * N < E.W) {c : Ring A} {l : List A} (h : Rep N c l) (r a f right : Nat) (done : List A) (out : Ring A) (u : τ)
    (ha : a + r = l.length) (hf : r < f) (hd : done.length = a) (ho : out.origin = c.origin) (hout : Rep N out done) :
    Out.Same Eq (fun s w => (Rep N s.1.1 w.1 ∧ s.1.1.origin = c.origin) ∧ s.1.2 = c ∧ s.2 = w.2)
      (M.atFst (forLoop E N (cloneBodyBy E N el c.mem) f ⟨r, ridx N c.origin a, right⟩) ((out, c), u)) (el.cloneEach (l.drop a) (done, u)) := by
  have h1 := h.org
  have h3 := h.le
  induction r generalizing a f u done out with
  | zero =>
    obtain ⟨f, rfl⟩ : ∃ g, f = g + 1 := ⟨f - 1, by omega⟩
    have e : idxNext (σ := Ring A × τ) E N ⟨0, ridx N c.origin a, right⟩ (out, u) = .ok none (out, u) :=
      Sat.eq_ok (sat_idxNext hW h1 (by omega) (fun _ => ⟨rfl, rfl⟩) (by omega))
    rw [List.drop_eq_nil_of_le (by omega)]
    simp only [M.atFst, forLoop, M.bind_run, e, Out.andThen_ok, M.pure_run, Out.mapState_ok, Elem.cloneEach, Out.Same]
    exact ⟨trivial, ⟨hout, ho⟩, trivial, trivial⟩
  | succ r ih =>
    obtain ⟨f, rfl⟩ : ∃ g, f = g + 1 := ⟨f - 1, by omega⟩
    have hk : a < l.length := by omega
    have e : l[a]? = some l[a] := List.getElem?_eq_getElem hk
    have hm := (h.cell' e).2
    simp only [lm, show a < N by omega, if_true] at hm
    have hlt := ridx_lt (j := a) h1 (by omega)
    have ea : M.debugAssert (σ := Ring A × τ) E (ridx N c.origin a < N) (out, u) = .ok () (out, u) := debugAssert_ok hlt _
    have er : memRead (σ := Ring A × τ) N c.mem (ridx N c.origin a) (out, u) = .ok l[a] (out, u) := by simp [memRead, hlt, hm]
    rw [List.drop_eq_getElem_cons hk]
    simp only [M.atFst, forLoop, M.bind_run, idxNext_step hW h1 (show a + (r + 1) ≤ N by omega), Out.andThen_ok, cloneBodyBy, ea, er,
      M.onSnd_run, Elem.cloneEach]
    cases hx : el.clone l[a] u with
    | ok b u' =>
      obtain ⟨o', n', m⟩ := out
      dsimp only at ho; subst ho
      obtain ⟨r1, r2, r3, r4⟩ := hout
      dsimp only at r1 r2 r4
      have e1 : forceWrite E N (ridx N c.origin a) b ⟨c.origin, n', m⟩ = .ok () ⟨c.origin, n', m.put (ridx N c.origin a) b⟩ :=
        Sat.eq_ok (sat_forceWrite hlt ⟨rfl, rfl⟩)
      have e2 : (do setLen (← uadd E (← getLen) 1) : M (Ring A) Unit) ⟨c.origin, n', m.put (ridx N c.origin a) b⟩
          = .ok () ⟨c.origin, a + 1, m.put (ridx N c.origin a) b⟩ := by
        apply Sat.eq_ok
        vc
        exact ⟨rfl, by simp [r2, hd]⟩
      simp only [M.bind_run] at e2
      simp only [Out.mapState_ok, Out.andThen_ok, M.onFst_run, e1, M.bind_run, e2, M.get_run, M.set_run]
      refine ih (a + 1) f (done ++ [b]) _ u' (by omega) (by omega) (by simp [hd]) rfl ?_
      refine Rep.mk' h1 (by simp; omega) (by simp; omega) ?_
      rw [lm_put (by omega)]
      grind [Mem.put]
    | panic u' =>
      simp only [Out.mapState_panic, Out.andThen_panic, Out.Same]
      exact ⟨⟨hout, ho⟩, trivial, trivial⟩
    | _ => simp [Out.Same]

/-- C109. `clone` calls `clone` of the items front to back; the result shows what they returned, with the same starting slot; the original is
unchanged.  If one panics, the clones made so far are destroyed one by one and the panic goes on. -/
theorem C109_clone (hN : 0 < N) (hW : 2 * N < E.W) {c : Ring A} {l : List A} (h : View E N c l) (u : τ) :
    Out.Same (fun d bs => View E N d bs ∧ d.origin = c.origin) (fun s w => s.1 = c ∧ s.2 = w) (cloneBy E N el (c, u)) (Care.clone el el.dropEach l u) := by
  have r := h.rep hW
  obtain ⟨r1, r2, r3, r4⟩ := h.rep hW
  have en : new (A := A) (σ := Ring A × τ) E N (c, u) = .ok ⟨0, 0, Mem.uninit⟩ (c, u) := Sat.eq_ok (sat_new hN ⟨rfl, rfl⟩)
  have hb := forLoop_clone (el := el) hW r l.length 0 (l.length + 1) (ridx N c.origin l.length) [] ⟨c.origin, 0, Mem.uninit⟩ u (by omega) (by omega) rfl rfl
    (Rep.empty r1)
  rw [ridx_zero r1, List.drop_zero] at hb
  have := Care.finish' (V := fun d bs => Rep N d bs ∧ d.origin = c.origin) (run := el.dropEach) (dtor := M.atFst (dropBy E N el)) hb ?_
  · rw [M.bind_run] at this
    simp only [cloneBy, M.bind_run, M.onFst_run, M.get_run, Out.mapState_ok, Out.andThen_ok, en, range_run hW r, forIdx]
    exact this.imp (fun d bs hd => ⟨hd.1.view hW, hd.2⟩) (fun _ _ h => h)
  · rintro d bs u' ⟨hd, -⟩
    simp only [M.atFst, dropBy_same hW hd]
    cases el.dropEach bs u' <;> simp [Out.Same]

/-! ### The calls -/

/-- C109. Dropping calls the destructor of every item once, in order; when one panics, those after it are not called (they are leaked). -/
theorem C109_drop_calls (hW : 2 * N < E.W) {c : Ring A} {l : List A} (h : View E N c l) (u : τ) (log : List (Call A)) :
    (∀ s, dropBy E N el.traced (c, (u, log)) = .ok () s → s.2.2 = log ++ l.map .drop) ∧
    (∀ s, dropBy E N el.traced (c, (u, log)) = .panic s → ∃ k, k < l.length ∧ s.2.2 = log ++ (l.take (k + 1)).map .drop) := by
  have hc := Elem.dropEach_calls el l u log
  rw [dropBy_same hW (h.rep hW)]
  cases hx : el.traced.dropEach l (u, log) <;> simp_all

/-- C109. `clone` calls `clone` of every item once, in order.  When one panics (and `clone` panics rather than aborting), the ones after it are not called,
and every clone already made is destroyed, once, in order. -/
theorem C109_clone_calls (hN : 0 < N) (hW : 2 * N < E.W) {c : Ring A} {l : List A} (h : View E N c l) (u : τ) (log : List (Call A)) :
    (∀ d s, cloneBy E N el.traced (c, (u, log)) = .ok d s → ∃ bs, View E N d bs ∧ bs.length = l.length ∧ s.2.2 = log ++ Call.clones l bs) ∧
    (∀ s, cloneBy E N el.traced (c, (u, log)) = .panic s → ∃ l₁ a l₂ bs, l = l₁ ++ a :: l₂ ∧ bs.length = l₁.length ∧
      s.2.2 = log ++ Call.clones l₁ bs ++ [.clone a none] ++ bs.map .drop) := by
  have hc := Care.clone_calls el el.traced.dropEach (List.map .drop) (fun bs u lg s e => (Elem.dropEach_calls el bs u lg).1 s e) l u log
  have hs := C109_clone (el := el.traced) hN hW h (u, log)
  refine ⟨fun d s e => ?_, fun s e => ?_⟩
  · obtain ⟨bs, t, e1, e2, e3⟩ := hs.ok_inv e
    obtain ⟨h1, h2⟩ := hc.1 bs t e1
    exact ⟨bs, e2.1, h1, by rw [e3.2]; exact h2⟩
  · obtain ⟨t, e1, e2⟩ := hs.panic_inv e
    obtain ⟨l₁, a, l₂, bs, h0, h1, h2⟩ := hc.2 t e1
    exact ⟨l₁, a, l₂, bs, h0, h1, by rw [e2.2]; exact h2⟩

/-! ### The elements of the other theorems are a special case -/

theorem idxNext_lift {σ : Type} (it : IdxIter) : (M.onFst (idxNext E N it : M σ _) : M (σ × τ) _) = idxNext E N it := by
  unfold idxNext rawInc
  simp only [M.onFst_ite, M.onFst_bind, M.onFst_pure, M.onFst_usub, M.onFst_uadd]

theorem forLoop_lift {σ : Type} (body : Nat → M σ Unit) (f : Nat) (it : IdxIter) :
    (M.onFst (forLoop E N body f it) : M (σ × τ) Unit) = forLoop E N (fun i => M.onFst (body i)) f it := by
  induction f generalizing it with
  | zero => rfl
  | succ f ih =>
    simp only [forLoop, M.onFst_bind, idxNext_lift]
    congr 1
    funext o
    cases o with
    | none => rfl
    | some p => simp only [M.onFst_bind, ih]

/-- C109. With destructors that log and perhaps panic, and a pure `clone` that may panic, these are the methods of the model used in all other theorems. -/
theorem C109_plain (dp : A → Bool) (cl : A → Option A) (i : Nat) :
    dropBy E N (Elem.plain dp cl) = drop E N dp ∧ clearBy E N (Elem.plain dp cl) = clear E N dp ∧
    dropLeftBy E N (Elem.plain dp cl) i = dropLeft E N dp i ∧ dropRightBy E N (Elem.plain dp cl) i = dropRight E N dp i ∧
    cloneBy E N (Elem.plain dp cl) = clone E N dp cl := by
  have h1 : forceDropBy E N (Elem.plain dp cl) = forceDrop E N dp := by
    funext i; unfold forceDropBy forceDrop; simp only [Elem.plain_drop]
  have hd : dropBy E N (Elem.plain dp cl) = drop E N dp := by
    unfold dropBy drop; simp only [h1]
  have h2 : ∀ src, cloneBodyBy E N (Elem.plain dp cl) src = fun i => M.onFst (cloneBody E N cl src i) := by
    intro src
    funext i
    unfold cloneBodyBy cloneBody
    simp only [M.onFst_bind, M.onFst_debugAssert, M.onFst_memRead, Elem.plain_clone, M.onFst_uadd]
    congr 1
    funext _
    congr 1
    funext a
    cases cl a with
    | none => rfl
    | some b => simp only [M.onFst_bind, M.onFst_uadd]; rfl
  refine ⟨hd, ?_, ?_, ?_, ?_⟩
  · unfold clearBy clear; simp only [h1]
  · unfold dropLeftBy dropLeft; simp only [h1]
  · unfold dropRightBy dropRight; simp only [h1]
  · unfold cloneBy clone
    simp only [h2, hd, forIdx, ← forLoop_lift, M.atFst_onFst]
    rfl

/-! ### C109 is not vacuous -/

/-- Items whose clone is a fresh number, the third clone panicking, and whose destructors count, the second panicking. -/
def fussy : Elem (Nat × Nat) Nat where
  clone _ := fun s => if s.1 = 3 then .panic s else .ok (100 + s.1) (s.1 + 1, s.2)
  drop _ := fun s => if s.2 = 1 then .panic (s.1, 2) else .ok () (s.1, s.2 + 1)

/-- C109 is not vacuous: `seam` (two items, wrapping) clones to `[100, 101]`; when more clones have been made before, its second clone panics and the first
is destroyed; dropping it panics at the second item; dropping it after another destructor has run stops at the first. -/
example : (∃ d, cloneBy dbg64 3 fussy (seam, (0, 0)) = .ok d (seam, (2, 0)) ∧ View dbg64 3 d [100, 101]) ∧
    cloneBy dbg64 3 fussy (seam, (2, 0)) = .panic (seam, (3, 1)) ∧
    dropBy dbg64 3 fussy (seam, (0, 0)) = .panic (seam, (0, 2)) ∧ dropBy dbg64 3 fussy (seam, (0, 2)) = .ok () (seam, (0, 4)) :=
  ⟨⟨_, rfl, rfl, Nat.lt_of_sub_pos (by decide : 0 < 3 - 2), Nat.le_of_ble_eq_true rfl⟩, rfl, rfl, rfl⟩

end Verif.Ring
