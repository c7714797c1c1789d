import Verif.CareSpec
import Verif.Props.ChunkOps
/-
C109 for the chunk: cloning and destroying call the items' own `clone` and destructor, once per item and in order, whatever these do.
-/
namespace Verif.Chunk
variable {A τ : Type} {E : Env} {N : Nat} {el : Elem τ A}

/-- A chunk and the user's state against a list and the same state. -/
abbrev ViewS (E : Env) (N : Nat) (s : Chunk A × τ) (t : List A × τ) : Prop := View E N s.1 t.1 ∧ s.2 = t.2

theorem dropBy_same {c : Chunk A} {l : List A} (h : Rep N c l) (u : τ) :
    dropBy E N el (c, u) = (el.dropSlice l u).mapState (fun u' => (c, u')) := by
  simp [dropBy, asSlice_eq h]

/-- C109. Dropping a chunk runs `drop_in_place` of the slice of its items, on the user's state, and does nothing else. -/
theorem C109_drop (hN : 2 * N < E.W) {c : Chunk A} {l : List A} (h : View E N c l) (u : τ) :
    Out.Same Eq (ViewS E N) (dropBy E N el (c, u)) (Care.drop el.dropSlice (l, u)) := by
  rw [dropBy_same (h.rep hN)]
  exact Out.Same.onSnd _ _ _ (fun _ => ⟨h, rfl⟩)

/-- C109. `clear` runs `drop_in_place` of the slice of its items, then the chunk is empty; if a destructor panics, it still shows the same items. -/
theorem C109_clear (hN : 2 * N < E.W) {c : Chunk A} {l : List A} (h : View E N c l) (u : τ) :
    Out.Same Eq (ViewS E N) (clearBy E N el (c, u)) (Care.clear el.dropSlice (l, u)) := by
  simp only [clearBy, Care.clear, M.bind_run, M.onFst_run, asSlice_eq (E := E) (h.rep hN), Out.mapState_ok, Out.andThen_ok, M.get_run, M.onSnd_run]
  refine Out.Same.bind (Out.Same.onSnd (R := ViewS E N) _ _ _ (fun _ => ⟨h, rfl⟩)) (fun _ _ h => h) ?_
  rintro _ ⟨c', u'⟩ _ ⟨l', v⟩ - ⟨h1, h2⟩
  simp only [setLeft, setRight, M.bind_run, M.get_run, M.set_run, Out.andThen_ok, Out.mapState_ok, Out.Same, true_and]
  exact ⟨Rep.view E ⟨by simp, by simp, by simp⟩, h2⟩

/-- C109. `drop_left(i)` destroys exactly the first `i` items, and panics before touching anything if there are fewer. -/
theorem C109_drop_left (hN : 2 * N < E.W) {c : Chunk A} {l : List A} (h : View E N c l) (u : τ) (i : Nat) :
    Out.Same Eq (ViewS E N) (dropLeftBy E N el i (c, u)) (Care.dropLeft el.dropSlice i (l, u)) := by
  have r := h.rep hN
  obtain ⟨r1, r2, r3⟩ := h.rep hN
  unfold dropLeftBy Care.dropLeft
  simp only [M.bind_run, M.onFst_run, M.get_run, Out.mapState_ok, Out.andThen_ok, M.ite_run]
  by_cases hi : i > 0
  · rw [if_pos hi]
    simp only [M.bind_run, M.onFst_run, asSlice_eq (E := E) r, Out.mapState_ok, Out.andThen_ok, M.panicIf_run]
    by_cases hl : i > l.length
    · rw [if_pos hl]; simp only [hl, if_true, Out.andThen_panic]; exact ⟨h, rfl⟩
    · simp only [hl, if_false, Out.andThen_ok, M.onSnd_run]
      refine Out.Same.bind (Out.Same.onSnd (R := fun s t => s.1 = c ∧ t.1 = l ∧ s.2 = t.2) _ _ _ (fun _ => ⟨rfl, rfl, rfl⟩)) ?_ ?_
      · rintro ⟨_, _⟩ ⟨_, _⟩ ⟨h1, h2, h3⟩
        dsimp only at h1 h2 h3; subst h1 h2 h3; exact ⟨h, rfl⟩
      · rintro _ ⟨c', u'⟩ _ ⟨l', v'⟩ - ⟨h1, h2, h3⟩
        dsimp only at h1 h2 h3; subst h1 h2 h3
        have e : uadd (σ := Chunk A) E c'.left i c' = .ok (c'.left + i) c' := uadd_ok (by omega) _
        simp only [getLeft, setLeft, M.bind_run, M.get_run, M.pure_run, M.set_run, Out.andThen_ok, Out.mapState_ok, e, Out.Same, true_and]
        refine ⟨Rep.view E ⟨?_, r2, ?_⟩, rfl⟩
        · simp only [List.length_drop]; omega
        · intro j h1 h2
          dsimp only at h1 h2 ⊢
          rw [r3 j (by omega) h2, List.getElem?_drop]; congr 1; omega
  · obtain rfl : i = 0 := by omega
    simp only [Nat.lt_irrefl, if_false, M.pure_run, M.panicIf_run, show ¬ (0 > l.length) by omega, Out.andThen_ok, List.take_zero, M.onSnd_run,
      Elem.dropSlice, Out.mapState_ok, M.set_run, List.drop_zero, Out.Same, true_and]
    exact ⟨h, rfl⟩

/-- C109. `drop_right(i)` destroys exactly the items from position `i` on, and panics before touching anything if there are fewer than `i`. -/
theorem C109_drop_right (hN : 2 * N < E.W) {c : Chunk A} {l : List A} (h : View E N c l) (u : τ) (i : Nat) :
    Out.Same Eq (ViewS E N) (dropRightBy E N el i (c, u)) (Care.dropRight el.dropSlice i (l, u)) := by
  have r := h.rep hN
  obtain ⟨r1, r2, r3⟩ := h.rep hN
  have hlen : len E c = .ok l.length c := len_eq r
  unfold dropRightBy Care.dropRight
  simp only [M.bind_run, M.onFst_run, M.get_run, hlen, Out.mapState_ok, Out.andThen_ok, M.ite_run]
  by_cases hi : i = l.length
  · subst hi
    simp only [ne_eq, not_true_eq_false, if_false, M.pure_run, M.panicIf_run, Nat.lt_irrefl, gt_iff_lt, Out.andThen_ok, List.drop_length, M.onSnd_run,
      Elem.dropSlice, Out.mapState_ok, M.set_run, List.take_length, Out.Same, true_and]
    exact ⟨h, rfl⟩
  · rw [if_pos hi]
    simp only [M.bind_run, M.onFst_run, asSlice_eq (E := E) r, Out.mapState_ok, Out.andThen_ok, M.panicIf_run]
    by_cases hl : i > l.length
    · rw [if_pos hl]; simp only [hl, if_true, Out.andThen_panic]; exact ⟨h, rfl⟩
    · simp only [hl, if_false, Out.andThen_ok, M.onSnd_run]
      refine Out.Same.bind (Out.Same.onSnd (R := fun s t => s.1 = c ∧ t.1 = l ∧ s.2 = t.2) _ _ _ (fun _ => ⟨rfl, rfl, rfl⟩)) ?_ ?_
      · rintro ⟨_, _⟩ ⟨_, _⟩ ⟨h1, h2, h3⟩
        dsimp only at h1 h2 h3; subst h1 h2 h3; exact ⟨h, rfl⟩
      · rintro _ ⟨c', u'⟩ _ ⟨l', v'⟩ - ⟨h1, h2, h3⟩
        dsimp only at h1 h2 h3; subst h1 h2 h3
        have e : uadd (σ := Chunk A) E c'.left i c' = .ok (c'.left + i) c' := uadd_ok (by omega) _
        simp only [getLeft, setRight, M.bind_run, M.get_run, M.pure_run, M.set_run, Out.andThen_ok, Out.mapState_ok, e, Out.Same, true_and]
        refine ⟨Rep.view E ⟨?_, ?_, ?_⟩, rfl⟩
        · simp only [List.length_take]; omega
        · dsimp only; omega
        · intro j h1 h2
          dsimp only at h1 h2 ⊢
          rw [r3 j (by omega) (by omega), List.getElem?_take, if_pos (by omega)]

theorem cloneLoopBy_same (hN : N < E.W) (src : Mem A) {C : Type} (self : C) (l done : List A) (i : Nat) (out : Chunk A) (u : τ)
    (hi : i + l.length ≤ N) (hs : ∀ j, j < l.length → src (i + j) = l[j]?) (hout : Rep N out done) (hr : out.right = i) :
    Out.Same Eq (fun s w => (Rep N s.1.1 w.1 ∧ s.1.1.left = out.left) ∧ s.1.2 = self ∧ s.2 = w.2)
      (M.atFst (cloneLoopBy E N el src l.length i) ((out, self), u)) (el.cloneEach l (done, u)) := by
  induction l generalizing i done out u with
  | nil => exact ⟨rfl, ⟨hout, rfl⟩, rfl, rfl⟩
  | cons a r ih =>
    simp only [List.length_cons] at hi
    have h0 := hs 0 (by simp)
    simp only [Nat.add_zero, List.getElem?_cons_zero] at h0
    have hm : memRead (σ := Chunk A × τ) N src i (out, u) = .ok a (out, u) := by simp [memRead, h0, show i < N by omega]
    simp only [M.atFst, List.length_cons, cloneLoopBy, Elem.cloneEach, M.bind_run, hm, Out.andThen_ok, M.onSnd_run]
    cases hx : el.clone a u with
    | ok b u' =>
      have hrep : Rep N { left := out.left, right := i + 1, mem := out.mem.put i b } (done ++ [b]) := by
        have hl := hout.right_eq
        have hcell := hout.cell
        rep
      have e : forceWrite N i b out = .ok () { out with mem := out.mem.put i b } := by
        simp [forceWrite, getMem, setMem, memWrite, show i < N by omega]
      have e2 : ∀ s : Chunk A, uadd (σ := Chunk A) E i 1 s = .ok (i + 1) s := fun s => uadd_ok (by omega) _
      simp only [Out.mapState_ok, Out.andThen_ok, M.onFst_run, e, M.bind_run, e2, setRight, M.get_run, M.set_run]
      refine ih (done ++ [b]) (i + 1) _ u' (by omega) ?_ hrep rfl
      intro j hj
      have := hs (j + 1) (by simp; omega)
      simp only [List.getElem?_cons_succ] at this
      rw [← this]; congr 1; omega
    | panic u' =>
      simp only [Out.mapState_panic, Out.andThen_panic, Out.Same]
      exact ⟨⟨hout, trivial⟩, trivial, trivial⟩
    | _ => simp [Out.Same]

/-- C109. `clone` calls `clone` of the items front to back; the result shows what they returned (with the same free room on both sides), the original is
unchanged.  If one panics, the clones made so far are destroyed as a slice and the panic goes on. -/
theorem C109_clone (hN : 2 * N < E.W) {c : Chunk A} {l : List A} (h : View E N c l) (u : τ) :
    Out.Same (fun d bs => View E N d bs ∧ d.left = c.left) (fun s w => s.1 = c ∧ s.2 = w) (cloneBy E N el (c, u)) (Care.clone el el.dropSlice l u) := by
  have r := h.rep hN
  obtain ⟨r1, r2, r3⟩ := h.rep hN
  have h0 : Rep N { left := c.left, right := c.left, mem := (Mem.uninit : Mem A) } [] := by
    constructor <;> simp <;> omega
  have hb := cloneLoopBy_same (E := E) (el := el) (by omega) c.mem c l [] c.left _ u (by omega) (fun j hj => by
    rw [r3 _ (by omega) (by omega)]; congr 1; omega) h0 rfl
  rw [show l.length = c.right - c.left by omega] at hb
  have := Care.finish' (V := fun d bs => Rep N d bs ∧ d.left = c.left) (run := el.dropSlice) (dtor := M.atFst (dropBy E N el)) hb ?_
  · exact this.imp (fun d bs hd => ⟨hd.1.view E, hd.2⟩) (fun _ _ h => h)
  · rintro d bs u' ⟨hd, -⟩
    simp only [M.atFst, dropBy_same hd]
    cases el.dropSlice bs u' <;> simp [Out.Same]

/-! ### The calls -/

/-- C109. Dropping, whether it returns or panics, calls the destructor of every item once, in order. -/
theorem C109_drop_calls (hN : 2 * N < E.W) {c : Chunk A} {l : List A} (h : View E N c l) (u : τ) (log : List (Call A)) :
    (∀ s, dropBy E N el.traced (c, (u, log)) = .ok () s → s.2.2 = log ++ l.map .drop) ∧
    (∀ s, dropBy E N el.traced (c, (u, log)) = .panic s → s.2.2 = log ++ l.map .drop) := by
  have hc := Elem.dropSlice_calls el l u log
  rw [dropBy_same (h.rep hN)]
  cases hx : el.traced.dropSlice l (u, log) <;> simp_all

/-- C109. `clone` calls `clone` of every item once, in order.  When one panics, the ones after it are not called, and every clone already made is
destroyed, once, in order. -/
theorem C109_clone_calls (hN : 2 * N < E.W) {c : Chunk A} {l : List A} (h : View E N c l) (u : τ) (log : List (Call A)) :
    (∀ d s, cloneBy E N el.traced (c, (u, log)) = .ok d s → ∃ bs, View E N d bs ∧ bs.length = l.length ∧ s.2.2 = log ++ Call.clones l bs) ∧
    (∀ s, cloneBy E N el.traced (c, (u, log)) = .panic s → ∃ l₁ a l₂ bs, l = l₁ ++ a :: l₂ ∧ bs.length = l₁.length ∧
      s.2.2 = log ++ Call.clones l₁ bs ++ [.clone a none] ++ bs.map .drop) := by
  have hc := Care.clone_calls el el.traced.dropSlice (List.map .drop) (fun bs u lg s e => (Elem.dropSlice_calls el bs u lg).1 s e) l u log
  have hs := C109_clone (el := el.traced) hN h (u, log)
  refine ⟨fun d s e => ?_, fun s e => ?_⟩
  · obtain ⟨bs, t, e1, e2, e3⟩ := hs.ok_inv e
    obtain ⟨h1, h2⟩ := hc.1 bs t e1
    exact ⟨bs, e2.1, h1, by rw [e3.2]; exact h2⟩
  · obtain ⟨t, e1, e2⟩ := hs.panic_inv e
    obtain ⟨l₁, a, l₂, bs, h0, h1, h2⟩ := hc.2 t e1
    exact ⟨l₁, a, l₂, bs, h0, h1, by rw [e2.2]; exact h2⟩

/-! ### The elements of the other theorems are a special case -/

/-- C109. With destructors that log and perhaps panic, and a pure `clone` that may panic, these are the methods of the model used in all other theorems. -/
theorem C109_plain (dp : A → Bool) (cl : A → Option A) (i : Nat) :
    dropBy E N (Elem.plain dp cl) = drop E N dp ∧ clearBy E N (Elem.plain dp cl) = clear E N dp ∧
    dropLeftBy E N (Elem.plain dp cl) i = dropLeft E N dp i ∧ dropRightBy E N (Elem.plain dp cl) i = dropRight E N dp i ∧
    cloneBy E N (Elem.plain dp cl) = clone E N dp cl := by
  have hd : dropBy E N (Elem.plain dp cl) = drop E N dp := by
    unfold dropBy drop; simp only [Elem.plain_dropSlice]
  have hl : ∀ (src : Mem A) (n i : Nat), cloneLoopBy E N (Elem.plain dp cl) src n i = M.onFst (cloneLoop E N cl src n i) := by
    intro src n
    induction n with
    | zero => intro i; rfl
    | succ n ih =>
      intro i
      funext s
      simp only [cloneLoopBy, cloneLoop, M.bind_run, M.onFst_run, ih]
      have hm : ∀ (σ ρ : Type) (s : σ) (t : ρ), memRead N src i s = .ub ∧ memRead N src i t = (Out.ub : Out ρ A) ∨
          ∃ a, memRead N src i s = .ok a s ∧ memRead N src i t = .ok a t := by
        intro σ ρ s t
        unfold memRead
        by_cases hi : i < N
        · simp only [if_pos hi]
          cases src i with
          | none => exact .inl ⟨rfl, rfl⟩
          | some a => exact .inr ⟨a, rfl, rfl⟩
        · simp only [if_neg hi]
          exact .inl ⟨rfl, rfl⟩
      rcases hm _ _ s s.1 with ⟨e1, e2⟩ | ⟨a, e1, e2⟩
      · rw [e1, e2]; rfl
      · rw [e1, e2]
        simp only [Out.andThen_ok, M.onSnd_run]
        cases hc : cl a with
        | none => simp [Elem.plain, hc]
        | some b =>
          simp only [Elem.plain, hc, M.pure_run, Out.mapState_ok, Out.andThen_ok, M.bind_run]
          cases forceWrite N i b s.1 <;> simp only [Out.mapState_ok, Out.mapState_panic, Out.mapState_abort, Out.mapState_ub, Out.mapState_diverge,
            Out.andThen_ok, Out.andThen_panic, Out.andThen_abort, Out.andThen_ub, Out.andThen_diverge]
          rename_i v s'
          cases uadd (σ := Chunk A) E i 1 s' <;> simp [setRight]
  refine ⟨hd, ?_, ?_, ?_, ?_⟩
  · unfold clearBy clear; simp only [Elem.plain_dropSlice]
  · unfold dropLeftBy dropLeft; simp only [Elem.plain_dropSlice]
  · unfold dropRightBy dropRight; simp only [Elem.plain_dropSlice]
  · unfold cloneBy clone
    simp only [hl, hd, M.atFst_onFst]
    rfl

/-! ### C109 is not vacuous -/

/-- Items whose clone is a fresh number, the third clone panicking, and whose destructors count. -/
def fussy : Elem (Nat × Nat) Nat where
  clone _ := fun s => if s.1 = 3 then .panic s else .ok (100 + s.1) (s.1 + 1, s.2)
  drop _ := fun s => .ok () (s.1, s.2 + 1)

/-- C109 is not vacuous: `edge` (two items) clones to `[100, 101]`; when one more clone has been made before, its second clone panics and the first is
destroyed. -/
example : (∃ d, cloneBy dbg64 3 fussy (edge, (0, 0)) = .ok d (edge, (2, 0)) ∧ asSlice dbg64 3 d = .ok [100, 101] d) ∧
    (cloneBy dbg64 3 fussy (edge, (2, 0))).final = some (edge, (3, 1)) ∧
    dropBy dbg64 3 fussy (edge, (0, 0)) = .ok () (edge, (0, 2)) :=
  ⟨⟨_, rfl, rfl⟩, rfl, by rfl⟩

end Verif.Chunk
