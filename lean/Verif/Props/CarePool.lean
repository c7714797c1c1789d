import Verif.CarePool
import Verif.Props.CareChunk
import Verif.Props.CareRing
import Verif.Props.CareSparse
import Verif.Props.Pool
/-
C114: `clone_uninit`, with items whose `clone` does whatever it likes.
-/
namespace Verif.Chunk
variable {A τ : Type} {E : Env} {N : Nat} {el : Elem τ A}

theorem cloneUninitLoopBy_same (src : Mem A) (l done : List A) (i : Nat) (t : Chunk A) (u : τ)
    (hi : i + l.length ≤ N) (hs : ∀ j, j < l.length → src (i + j) = l[j]?) (h0 : i = t.left + done.length)
    (hd : ∀ j, j < done.length → t.mem (t.left + j) = done[j]?) :
    Out.Same Eq (fun s w => s.1.left = t.left ∧ s.1.right = t.right ∧ done.length ≤ w.1.length ∧ (∀ j, j < w.1.length → s.1.mem (t.left + j) = w.1[j]?) ∧
        (∀ j, j < t.left ∨ t.left + w.1.length ≤ j → s.1.mem j = t.mem j) ∧ s.2 = w.2)
      (cloneUninitLoopBy N el src l.length i (t, u)) (el.cloneEach l (done, u)) := by
  induction l generalizing i done t u with
  | nil => exact ⟨rfl, rfl, rfl, Nat.le_refl _, hd, fun _ _ => rfl, rfl⟩
  | cons a r ih =>
    simp only [List.length_cons] at hi
    have hz := hs 0 (by simp)
    simp only [Nat.add_zero, List.getElem?_cons_zero] at hz
    have hm : memRead (σ := Chunk A × τ) N src i (t, u) = .ok a (t, u) := by simp [memRead, hz, show i < N by omega]
    simp only [List.length_cons, cloneUninitLoopBy, Elem.cloneEach, M.bind_run, hm, Out.andThen_ok, M.onSnd_run]
    cases hx : el.clone a u with
    | ok b u' =>
      have e : forceWrite N i b t = .ok () { t with mem := t.mem.put i b } := by
        simp [forceWrite, getMem, setMem, memWrite, show i < N by omega]
      simp only [Out.mapState_ok, Out.andThen_ok, M.onFst_run, e, M.bind_run, M.get_run, M.set_run]
      refine (ih (done ++ [b]) (i + 1) { t with mem := t.mem.put i b } u' (by omega)
        (fun j hj => by
          have := hs (j + 1) (by simp; omega)
          simp only [List.getElem?_cons_succ] at this
          rw [← this]; congr 1; omega)
        (by simp; omega)
        (fun j hj => by
          simp only [List.length_append, List.length_cons, List.length_nil] at hj
          simp only [Mem.put]
          by_cases h : t.left + j = i
          · rw [if_pos h]; simp [show j = done.length by omega]
          · rw [if_neg h, hd j (by omega), List.getElem?_append_left (by omega)])).imp (fun _ _ h => h) ?_
      rintro s w ⟨e1, e2, e3, e4, e5, e6⟩
      simp only [List.length_append, List.length_cons, List.length_nil] at e3
      refine ⟨e1, e2, by omega, e4, fun j hj => ?_, e6⟩
      have hj' : j ≠ i := by omega
      rw [e5 j hj]
      simp only [Mem.put, if_neg hj']
    | panic u' => exact ⟨rfl, rfl, Nat.le_refl _, hd, fun _ _ => rfl, rfl⟩
    | _ => simp [Out.Same]

/-- C114. `clone_uninit` calls `clone` of the items front to back and ends as these calls do, whatever `target` held.  When they all return, `target` is a
chunk showing what they returned, with the original's free room on both sides; when one panics, nothing else is called, neither on the items nor on the
clones made so far, which are leaked.  The cells of `target` which get no clone keep what they held. -/
theorem C114_chunk (hN : 2 * N < E.W) {c : Chunk A} {l : List A} (h : View E N c l) (t : Chunk A) (u : τ) :
    Out.Same (fun _ _ => True)
      (fun s w => s.1.left = c.left ∧ s.1.right = c.right ∧ (w.1.length = l.length → View E N s.1 w.1) ∧
        (∀ j, j < c.left ∨ c.left + w.1.length ≤ j → s.1.mem j = t.mem j) ∧ s.2 = w.2)
      (cloneUninitBy N el c (t, u)) (el.cloneEach l ([], u)) := by
  obtain ⟨r1, r2, r3⟩ := h.rep hN
  have := cloneUninitLoopBy_same (N := N) (el := el) c.mem l [] c.left ⟨c.left, c.right, t.mem⟩ u (by omega)
    (fun j hj => by rw [r3 _ (by omega) (by omega)]; congr 1; omega) (by simp) (fun j hj => by simp at hj)
  rw [show l.length = c.right - c.left by omega] at this
  refine Out.Same.imp this (fun _ _ _ => trivial) ?_
  rintro s w ⟨e1, e2, -, e3, e4, e5⟩
  dsimp only at e1 e2 e3
  refine ⟨e1, e2, fun hl => Rep.view E ⟨by rw [e1, e2]; omega, by rw [e2]; omega, fun j h1 h2 => ?_⟩, e4, e5⟩
  have := e3 (j - s.1.left) (by omega)
  rwa [← e1, show s.1.left + (j - s.1.left) = j by omega] at this

/-- C114. `clone_uninit` calls `clone` of every item once, in order, and nothing else.  When one panics the ones after it are not called, and no destructor
is. -/
theorem C114_chunk_calls (hN : 2 * N < E.W) {c : Chunk A} {l : List A} (h : View E N c l) (t : Chunk A) (u : τ) (log : List (Call A)) :
    (∀ s, cloneUninitBy N el.traced c (t, (u, log)) = .ok () s → ∃ bs, View E N s.1 bs ∧ bs.length = l.length ∧ s.2.2 = log ++ Call.clones l bs) ∧
    (∀ s, cloneUninitBy N el.traced c (t, (u, log)) = .panic s → ∃ l₁ a l₂ bs, l = l₁ ++ a :: l₂ ∧ bs.length = l₁.length ∧
      s.2.2 = log ++ Call.clones l₁ bs ++ [.clone a none]) := by
  have hc := Elem.cloneEach_calls el l [] u log
  have hs := C114_chunk (el := el.traced) hN h t (u, log)
  refine ⟨fun s e => ?_, fun s e => ?_⟩
  · obtain ⟨_, w, e1, -, -, -, e2, -, e3⟩ := hs.ok_inv e
    obtain ⟨bs, h1, h2, h3⟩ := hc.1 w e1
    rw [List.nil_append] at h2
    subst h2
    exact ⟨w.1, e2 h1, h1, by rw [e3]; exact h3⟩
  · obtain ⟨w, e1, -, -, -, -, e3⟩ := hs.panic_inv e
    obtain ⟨l₁, a, l₂, bs, h0, h1, -, h2⟩ := hc.2 w e1
    exact ⟨l₁, a, l₂, bs, h0, h1, by rw [e3]; exact h2⟩

/-- C114. With a pure `clone` that may panic, this is the method of the model used in C66. -/
theorem C114_chunk_plain (dp : A → Bool) (cl : A → Option A) (c : Chunk A) :
    cloneUninitBy N (Elem.plain dp cl) c = M.onFst (cloneUninit N cl c) := by
  have hl : ∀ (src : Mem A) (n i : Nat), cloneUninitLoopBy N (Elem.plain dp cl) src n i = M.onFst (cloneUninitLoop N cl src n i) := by
    intro src n
    induction n with
    | zero => intro i; rfl
    | succ n ih =>
      intro i
      rw [cloneUninitLoopBy, cloneUninitLoop, M.onFst_bind, M.onFst_memRead]
      congr 1
      funext a
      rw [Elem.plain_clone]
      cases cl a with
      | none => rfl
      | some b => simp only [M.onFst_bind, ih]; rfl
  unfold cloneUninitBy cloneUninit
  simp only [hl, M.onFst_bind]

/-- C114 is not vacuous: `edge` (two items) is cloned into memory full of fives as `[100, 101]`; when one more clone has been made before, its second clone
panics, and no destructor is called. -/
example : (∃ t, cloneUninitBy 3 fussy edge (⟨7, 99, fun _ => some 5⟩, (0, 0)) = .ok () (t, (2, 0)) ∧ asSlice dbg64 3 t = .ok [100, 101] t) ∧
    (cloneUninitBy 3 fussy edge (⟨7, 99, fun _ => some 5⟩, (2, 0))).final.map (·.2) = some (3, 0) := ⟨⟨_, rfl, rfl⟩, rfl⟩
end Verif.Chunk

namespace Verif.Ring
open Verif.Chunk (dbg64 rel64)
variable {A τ : Type} {E : Env} {N : Nat} {el : Elem τ A}

theorem forLoop_cloneUninit (hW : 2 * N < E.W) {c : Ring A} {l : List A} (h : Rep N c l) (r a f right : Nat) (done : List A) (t : Ring A) (u : τ)
    (ha : a + r = l.length) (hf : r < f) (hd : done.length = a) (ho : t.origin = c.origin)
    (ht : ∀ j, j < a → lm N c.origin t.mem j = done[j]?) :
    Out.Same Eq (fun s w => s.1.origin = c.origin ∧ s.1.length = t.length ∧ a ≤ w.1.length ∧ w.1.length ≤ l.length ∧
        (∀ j, j < w.1.length → lm N c.origin s.1.mem j = w.1[j]?) ∧
        (∀ p, (∀ j, j < w.1.length → ridx N c.origin j ≠ p) → s.1.mem p = t.mem p) ∧ s.2 = w.2)
      (forLoop E N (cloneUninitBodyBy E N el c.mem) f ⟨r, ridx N c.origin a, right⟩ (t, u)) (el.cloneEach (l.drop a) (done, u)) := by
  have h1 := h.org
  have h3 := h.le
  induction r generalizing a f u done t with
  | zero =>
    obtain ⟨f, rfl⟩ : ∃ g, f = g + 1 := ⟨f - 1, by omega⟩
    have e : idxNext (σ := Ring A × τ) E N ⟨0, ridx N c.origin a, right⟩ (t, u) = .ok none (t, u) :=
      Sat.eq_ok (sat_idxNext hW h1 (by omega) (fun _ => ⟨rfl, rfl⟩) (by omega))
    rw [List.drop_eq_nil_of_le (by omega)]
    simp only [forLoop, M.bind_run, e, Out.andThen_ok, M.pure_run, Elem.cloneEach, Out.Same]
    exact ⟨trivial, ho, trivial, by omega, by omega, fun j hj => ht j (by omega), fun _ _ => trivial, trivial⟩
  | succ r ih =>
    obtain ⟨f, rfl⟩ : ∃ g, f = g + 1 := ⟨f - 1, by omega⟩
    have hk : a < l.length := by omega
    have e : l[a]? = some l[a] := List.getElem?_eq_getElem hk
    have hm := (h.cell' e).2
    simp only [lm, show a < N by omega, if_true] at hm
    have hlt := ridx_lt (j := a) h1 (by omega)
    have ea : M.debugAssert (σ := Ring A × τ) E (ridx N c.origin a < N) (t, u) = .ok () (t, u) := debugAssert_ok hlt _
    have er : memRead (σ := Ring A × τ) N c.mem (ridx N c.origin a) (t, u) = .ok l[a] (t, u) := by simp [memRead, hlt, hm]
    rw [List.drop_eq_getElem_cons hk]
    simp only [forLoop, M.bind_run, idxNext_step hW h1 (show a + (r + 1) ≤ N by omega), Out.andThen_ok, cloneUninitBodyBy, ea, er,
      M.onSnd_run, Elem.cloneEach]
    cases hx : el.clone l[a] u with
    | ok b u' =>
      have e1 : (do setMem (← memWrite N (← getMem) (ridx N c.origin a) b) : M (Ring A) Unit) t
          = .ok () ⟨t.origin, t.length, t.mem.put (ridx N c.origin a) b⟩ := by
        simp [getMem, setMem, memWrite, hlt]
      simp only [M.bind_run] at e1
      simp only [Out.mapState_ok, Out.andThen_ok, M.onFst_run, M.bind_run, e1, M.get_run, M.set_run]
      refine (ih (a + 1) f (done ++ [b]) ⟨t.origin, t.length, t.mem.put (ridx N c.origin a) b⟩ u' (by omega) (by omega) (by simp [hd]) ho ?_).imp
        (fun _ _ h => h) ?_
      · rw [lm_put (by omega)]
        intro j hj
        simp only [Mem.put]
        split
        · subst j; simp [hd]
        · rw [ht j (by omega), List.getElem?_append_left (by omega)]
      · rintro s w ⟨g1, g2, g3, g4, g5, g6, g7⟩
        refine ⟨g1, g2, by omega, g4, g5, fun p hp => ?_, g7⟩
        have : p ≠ ridx N c.origin a := fun e => hp a (by omega) e.symm
        rw [g6 p hp]
        simp only [Mem.put, if_neg this]
    | panic u' =>
      simp only [Out.mapState_panic, Out.andThen_panic, Out.Same]
      exact ⟨ho, trivial, by omega, by omega, fun j hj => ht j (by omega), fun _ _ => trivial, trivial⟩
    | _ => simp [Out.Same]

/-- C114. The same for the ring buffer: `clone` of the items is called front to back; when the calls return, `target` is a buffer showing what they
returned, with the original's first slot; when one panics, nothing else is called, and the clones made so far are leaked.  The slots of `target` which
get no clone keep what they held. -/
theorem C114_ring (hW : 2 * N < E.W) {c : Ring A} {l : List A} (h : View E N c l) (t : Ring A) (u : τ) :
    Out.Same (fun _ _ => True)
      (fun s w => s.1.origin = c.origin ∧ s.1.length = c.length ∧ (w.1.length = l.length → View E N s.1 w.1) ∧
        (∀ p, (∀ j, j < w.1.length → (c.origin + j) % N ≠ p) → s.1.mem p = t.mem p) ∧ s.2 = w.2)
      (cloneUninitBy E N el c (t, u)) (el.cloneEach l ([], u)) := by
  have r := h.rep hW
  obtain ⟨r1, r2, r3, r4⟩ := h.rep hW
  have e : rawAdd (σ := Ring A) E N c.origin c.length ⟨c.origin, c.length, t.mem⟩ = .ok (ridx N c.origin c.length) ⟨c.origin, c.length, t.mem⟩ :=
    Sat.eq_ok (sat_rawAdd hW r1 (by omega) ⟨rfl, rfl⟩)
  have := forLoop_cloneUninit (el := el) hW r l.length 0 (l.length + 1) (ridx N c.origin c.length) [] ⟨c.origin, c.length, t.mem⟩ u (by omega) (by omega)
    rfl rfl (fun j hj => by omega)
  simp only [ridx_zero r1, List.drop_zero] at this
  simp only [cloneUninitBy, M.bind_run, M.onFst_run, setOrigin, setLen, Out.mapState_ok, Out.andThen_ok, e, forIdx]
  rw [r2] at this ⊢
  refine this.imp (fun _ _ _ => trivial) ?_
  rintro s w ⟨e1, e2, -, hle, e3, e4, e5⟩
  refine ⟨e1, e2, fun hl => Rep.view hW (Rep.mk' (e1 ▸ r1) (e2.trans hl.symm) (by omega) (fun j hj => by rw [e1]; exact e3 j (by omega))), fun p hp => ?_, e5⟩
  apply e4 p
  intro j hj
  have := hp j hj
  unfold ridx
  split
  · rwa [Nat.mod_eq_of_lt (by omega)] at this
  · rwa [Nat.mod_eq_sub_mod (by omega), Nat.mod_eq_of_lt (by omega)] at this

/-- C114. `clone_uninit` calls `clone` of every item once, in order, and nothing else.  When one panics the ones after it are not called, and no destructor
is. -/
theorem C114_ring_calls (hW : 2 * N < E.W) {c : Ring A} {l : List A} (h : View E N c l) (t : Ring A) (u : τ) (log : List (Call A)) :
    (∀ s, cloneUninitBy E N el.traced c (t, (u, log)) = .ok () s → ∃ bs, View E N s.1 bs ∧ bs.length = l.length ∧ s.2.2 = log ++ Call.clones l bs) ∧
    (∀ s, cloneUninitBy E N el.traced c (t, (u, log)) = .panic s → ∃ l₁ a l₂ bs, l = l₁ ++ a :: l₂ ∧ bs.length = l₁.length ∧
      s.2.2 = log ++ Call.clones l₁ bs ++ [.clone a none]) := by
  have hc := Elem.cloneEach_calls el l [] u log
  have hs := C114_ring (el := el.traced) hW h t (u, log)
  refine ⟨fun s e => ?_, fun s e => ?_⟩
  · obtain ⟨_, w, e1, -, -, -, e2, -, e3⟩ := hs.ok_inv e
    obtain ⟨bs, h1, h2, h3⟩ := hc.1 w e1
    rw [List.nil_append] at h2
    subst h2
    exact ⟨w.1, e2 h1, h1, by rw [e3]; exact h3⟩
  · obtain ⟨w, e1, -, -, -, -, e3⟩ := hs.panic_inv e
    obtain ⟨l₁, a, l₂, bs, h0, h1, -, h2⟩ := hc.2 w e1
    exact ⟨l₁, a, l₂, bs, h0, h1, by rw [e3]; exact h2⟩

/-- C114. With a pure `clone` that may panic, this is the method of the model used in C66. -/
theorem C114_ring_plain (dp : A → Bool) (cl : A → Option A) (c : Ring A) :
    cloneUninitBy E N (Elem.plain dp cl) c = M.onFst (cloneUninit E N cl c) := by
  have hb : cloneUninitBodyBy E N (Elem.plain dp cl) c.mem = fun i => M.onFst (cloneUninitBody E N cl c.mem i) := by
    funext i
    unfold cloneUninitBodyBy cloneUninitBody
    simp only [M.onFst_bind, M.onFst_debugAssert, M.onFst_memRead, Elem.plain_clone]
    congr 1
    funext _
    congr 1
    funext a
    cases cl a with
    | none => rfl
    | some b => simp only [M.onFst_bind]; rfl
  unfold cloneUninitBy cloneUninit
  simp only [hb, M.onFst_bind, forIdx, forLoop_lift]

/-- C114 is not vacuous: `seam` (two items, wrapping) is cloned into memory full of fives as `[100, 101]`; when one more clone has been made before, its
second clone panics, and no destructor is called. -/
example : (∃ t, cloneUninitBy dbg64 3 fussy seam (⟨7, 99, fun _ => some 5⟩, (0, 0)) = .ok () (t, (2, 0)) ∧ items dbg64 3 t = .ok [100, 101] t) ∧
    (cloneUninitBy dbg64 3 fussy seam (⟨7, 99, fun _ => some 5⟩, (2, 0))).final.map (·.2) = some (3, 0) := ⟨⟨_, rfl, rfl⟩, rfl⟩

end Verif.Ring

namespace Verif.Sparse
variable {A τ : Type} {N : Nat} {el : Elem τ A}

theorem each_cloneUninitBy {c : Sparse A} {m : SMap A} (h : Rep N c m) (ks : List Nat) (hk : ∀ i ∈ ks, (m i).isSome = true) (done : List A)
    (t : Sparse A) (u : τ) :
    Out.Same Eq (fun s w => (∃ bs, w.1 = done ++ bs ∧ bs.length ≤ ks.length ∧ s.1.1 = ⟨t.map, fun i => (SMap.overwrite ks bs t.mem) i⟩) ∧ s.1.2 = c ∧
        s.2 = w.2)
      (each (cloneUninitBodyBy N el) ks ((t, c), u)) (el.cloneEach (ks.filterMap m) (done, u)) := by
  induction ks generalizing t u done with
  | nil => exact ⟨rfl, ⟨[], by simp, by simp, rfl⟩, rfl, rfl⟩
  | cons i ks ih =>
    obtain ⟨a, ha⟩ := Option.isSome_iff_exists.1 (hk i (by simp))
    have hi := h.lt ha
    rw [List.filterMap_cons_some ha]
    have hx : index N i c = .ok a c := by simp [index, get_eq h, ha, unwrap]
    simp only [each, M.bind_run, cloneUninitBodyBy, M.onFst_run, M.onSnd_run, hx, Out.mapState_ok, Out.andThen_ok, Elem.cloneEach]
    cases hc : el.clone a u with
    | ok b u' =>
      simp only [Out.mapState_ok, Out.andThen_ok, getMem, memWrite, hi, if_true, M.pure_run, setMem, M.get_run, M.set_run]
      refine (ih (fun j hj => hk j (by simp [hj])) (done ++ [b]) ⟨t.map, t.mem.put i b⟩ u').imp (fun _ _ h => h) ?_
      rintro s w ⟨⟨bs, h1, h2, h3⟩, h4⟩
      exact ⟨⟨b :: bs, by simpa using h1, by simpa using h2, h3⟩, h4⟩
    | panic u' => exact ⟨⟨[], by simp, by simp, rfl⟩, rfl, rfl⟩
    | _ => simp [Out.Same]

theorem overwrite_agree (ks : List Nat) (vs : List A) (m m' : SMap A) (i : Nat) (h : m i = m' i ∨ i ∈ ks ∧ vs.length = ks.length) :
    SMap.overwrite ks vs m i = SMap.overwrite ks vs m' i := by
  induction ks generalizing vs m m' with
  | nil => rcases h with h | ⟨h, -⟩ <;> simp_all [SMap.overwrite]
  | cons k ks ih =>
    cases vs with
    | nil => rcases h with h | ⟨-, h⟩ <;> simp_all [SMap.overwrite]
    | cons v vs =>
      apply ih
      by_cases e : i = k
      · left; simp [SMap.upd, e]
      · rcases h with h | ⟨h1, h2⟩
        · left; simp [SMap.upd, e, h]
        · right; exact ⟨by simpa [e] using h1, by simpa using h2⟩

theorem overwrite_untouched (ks : List Nat) (vs : List A) (m : SMap A) (i : Nat) (h : i ∉ ks.take vs.length) : SMap.overwrite ks vs m i = m i := by
  induction ks generalizing vs m with
  | nil => cases vs <;> rfl
  | cons k ks ih =>
    cases vs with
    | nil => rfl
    | cons v vs =>
      simp only [List.length_cons, List.take_succ_cons, List.mem_cons, not_or] at h
      rw [SMap.overwrite, ih _ _ h.2]
      simp [SMap.upd, h.1]

/-- C114. The same for the sparse chunk: `clone` of the items is called in index order; when the calls return, `target` is a chunk with the same indices
showing what they returned; when one panics, nothing else is called, and the clones made so far are leaked.  The original is unchanged, and the cells of
`target` which get no clone keep what they held. -/
theorem C114_sparse {c : Sparse A} {m : SMap A} (h : View N c m) (t : Sparse A) (u : τ) :
    Out.Same (fun _ _ => True)
      (fun s w => s.1.2 = c ∧ (w.1.length = (m.vals N).length → ∃ m', View N s.1.1 m' ∧ m'.keys N = m.keys N ∧ m'.vals N = w.1) ∧
        (∀ i, i ∉ (m.keys N).take w.1.length → s.1.1.mem i = t.mem i) ∧ s.2 = w.2)
      (cloneUninitBy N el ((t, c), u)) (el.cloneEach (m.vals N) ([], u)) := by
  have r := h.rep
  have hb := each_cloneUninitBy (el := el) r (m.keys N) (fun i hi => (mem_keys.1 hi).2) [] ⟨c.map, t.mem⟩ u
  rw [keys_filterMap] at hb
  simp only [cloneUninitBy, M.bind_run, M.onFst_run, M.onSnd_run, getMap, Out.mapState_ok, Out.andThen_ok, forBits_eq, keys_eq r]
  refine hb.imp (fun _ _ _ => trivial) ?_
  rintro ⟨⟨t', c'⟩, v⟩ ⟨ws, v'⟩ ⟨⟨bs, e1, e2, e3⟩, e4, e5⟩
  dsimp only at e1 e3 e4 e5
  rw [List.nil_append] at e1
  subst e1 e3 e4 e5
  refine ⟨rfl, fun hl => ?_, fun i hi => ?_, rfl⟩
  · rw [vals_length] at hl
    dsimp only at hl ⊢
    have hs : ∀ i, (SMap.overwrite (m.keys N) ws SMap.empty i).isSome = decide (i ∈ m.keys N) := by
      intro i
      by_cases hm : i ∈ m.keys N
      · rw [overwrite_isSome _ _ _ (keys_nodup m) hl i hm]; simp [hm]
      · rw [overwrite_not_mem _ _ _ _ hm]; simp [hm, SMap.empty]
    refine ⟨SMap.overwrite (m.keys N) ws SMap.empty, Rep.view ⟨fun i hi => ?_, fun i a hi ha => ?_, fun i hi => ?_⟩, ?_, overwrite_vals m _ e2⟩
    · rw [hs, r.map i hi]
      cases hm : m i <;> simp [mem_keys, hi, hm]
    · have : i ∈ m.keys N := by
        have := hs i
        rw [ha] at this
        simpa using this.symm
      rw [← ha]
      exact overwrite_agree _ _ _ _ _ (.inr ⟨this, hl⟩)
    · have := hs i
      cases hx : SMap.overwrite (m.keys N) ws SMap.empty i with
      | none => rfl
      | some a => rw [hx] at this; simp [mem_keys, Nat.not_lt.2 hi] at this
    · unfold SMap.keys
      apply List.filter_congr
      intro i hi
      rw [show List.filter (fun i => (m i).isSome) (List.range N) = m.keys N from rfl, hs]
      simp only [List.mem_range] at hi
      cases hm : m i <;> simp [mem_keys, hi, hm]
  · exact overwrite_untouched _ _ _ _ hi

/-- C114. `clone_uninit` calls `clone` of every item once, in index order, and nothing else.  When one panics the ones after it are not called, and no
destructor is. -/
theorem C114_sparse_calls {c : Sparse A} {m : SMap A} (h : View N c m) (t : Sparse A) (u : τ) (log : List (Call A)) :
    (∀ s, cloneUninitBy N el.traced ((t, c), (u, log)) = .ok () s → ∃ m', View N s.1.1 m' ∧ m'.keys N = m.keys N ∧
      s.2.2 = log ++ Call.clones (m.vals N) (m'.vals N)) ∧
    (∀ s, cloneUninitBy N el.traced ((t, c), (u, log)) = .panic s → ∃ l₁ a l₂ bs, m.vals N = l₁ ++ a :: l₂ ∧ bs.length = l₁.length ∧
      s.2.2 = log ++ Call.clones l₁ bs ++ [.clone a none]) := by
  have hc := Elem.cloneEach_calls el (m.vals N) [] u log
  have hs := C114_sparse (el := el.traced) h t (u, log)
  refine ⟨fun s e => ?_, fun s e => ?_⟩
  · obtain ⟨_, w, e1, -, -, e2, -, e3⟩ := hs.ok_inv e
    obtain ⟨bs, h1, h2, h3⟩ := hc.1 w e1
    rw [List.nil_append] at h2
    subst h2
    obtain ⟨m', g1, g2, g3⟩ := e2 h1
    exact ⟨m', g1, g2, by rw [e3, g3]; exact h3⟩
  · obtain ⟨w, e1, -, -, -, e3⟩ := hs.panic_inv e
    obtain ⟨l₁, a, l₂, bs, h0, h1, -, h2⟩ := hc.2 w e1
    exact ⟨l₁, a, l₂, bs, h0, h1, by rw [e3]; exact h2⟩

/-- C114. With a pure `clone` that may panic, this is the method of the model used in C66. -/
theorem C114_sparse_plain (dp : A → Bool) (cl : A → Option A) : cloneUninitBy N (Elem.plain dp cl) = M.onFst (cloneUninit N cl) := by
  have hb : ∀ i, cloneUninitBodyBy N (Elem.plain dp cl) i = M.onFst (do writeClone N i (cl (← M.onSnd (index N i)))) := by
    intro i
    unfold cloneUninitBodyBy
    rw [M.onFst_bind]
    congr 1
    funext a
    rw [Elem.plain_clone]
    cases cl a <;> rfl
  have hl : ∀ (bits : Bitmap) (body : Nat → M (Sparse A × Sparse A) Unit) (f p : Nat),
      (M.onFst (forBits N bits body f p) : M ((Sparse A × Sparse A) × List A) Unit) = forBits N bits (fun i => M.onFst (body i)) f p := by
    intro bits body f
    induction f with
    | zero => intro p; rfl
    | succ f ih =>
      intro p
      simp only [forBits]
      cases bmNext N bits p with
      | none => rfl
      | some i => simp only [M.onFst_bind, ih]
  unfold cloneUninitBy cloneUninit
  simp only [M.onFst_bind, hl]
  congr 1
  funext bits
  congr 1
  funext _
  congr 1
  funext i
  rw [hb i, M.onFst_bind]

/-- C114 is not vacuous: `sample` (items at 1 and 3) is cloned into memory full of fives to 100 and 101 there; when one more clone has been made before, its
second clone panics, and no destructor is called. -/
example : (∃ t, cloneUninitBy 4 fussy ((⟨fun _ => true, fun _ => some 5⟩, sample), (0, 0)) = .ok () ((t, sample), (2, 0)) ∧
      entries 4 t = .ok [(1, 100), (3, 101)] t) ∧
    (cloneUninitBy 4 fussy ((⟨fun _ => true, fun _ => some 5⟩, sample), (2, 0))).final.map (·.2) = some (3, 0) := ⟨⟨_, rfl, rfl⟩, rfl⟩

end Verif.Sparse
