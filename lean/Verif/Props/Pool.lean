import Verif.Props.ChunkBulk
import Verif.Props.RingBulk
import Verif.Props.SparseOps
/-
C66: the `refpool` instances (src/*/refpool.rs).  `t` stands for the uninitialised memory the pool hands out: any bits at all.
-/
namespace Verif.Chunk
variable {A : Type} {E : Env} {N : Nat} {dp : A → Bool} {cl : A → Option A} {c : Chunk A} {l : List A}

theorem cloneUninitLoop_ok (src : Mem A) (l cs : List A) (i : Nat) (t : Chunk A) (hi : i + l.length ≤ N)
    (hs : ∀ j, j < l.length → src (i + j) = l[j]?) (hc : l.map cl = cs.map some) :
    ∃ t', cloneUninitLoop N cl src l.length i t = .ok () t' ∧ t'.left = t.left ∧ t'.right = t.right ∧
      (∀ j, j < i → t'.mem j = t.mem j) ∧ ∀ j, j < cs.length → t'.mem (i + j) = cs[j]? := by
  induction l generalizing i t cs with
  | nil =>
    have : cs = [] := by cases cs <;> simp_all
    subst this
    exact ⟨t, rfl, rfl, rfl, fun _ _ => rfl, fun j hj => absurd hj (by simp)⟩
  | cons a r ih =>
    obtain ⟨b, bs, rfl⟩ : ∃ b bs, cs = b :: bs := by cases cs <;> simp_all
    simp only [List.map_cons, List.cons.injEq, List.length_cons] at hc hi ⊢
    have h0 : src i = some a := by simpa using hs 0 (by simp)
    obtain ⟨t', e, h1, h2, h3, h4⟩ := ih bs (i + 1) { t with mem := t.mem.put i b } (by omega)
      (fun j hj => by have := hs (j + 1) (by simpa using hj); simpa [Nat.add_assoc, Nat.add_comm 1 j] using this) hc.2
    refine ⟨t', ?_, h1, h2, fun j hj => ?_, fun j hj => ?_⟩
    · simp only [cloneUninitLoop, M.bind_run, memRead_ok (show i < N by omega) h0, Out.andThen_ok, hc.1, forceWrite, getMem,
        memWrite_ok (show i < N by omega), setMem]
      exact e
    · rw [h3 j (by omega)]; simp [Mem.put]; omega
    · cases j with
      | zero => rw [Nat.add_zero, h3 i (by omega)]; simp [Mem.put]
      | succ j =>
        have := h4 j (by simpa using hj)
        rw [show i + 1 + j = i + (j + 1) by omega] at this
        simpa using this

theorem cloneUninitLoop_panic (src : Mem A) (l₁ l₂ : List A) (x : A) (i : Nat) (t : Chunk A) (hi : i + (l₁ ++ x :: l₂).length ≤ N)
    (hs : ∀ j, j < (l₁ ++ x :: l₂).length → src (i + j) = (l₁ ++ x :: l₂)[j]?) (hc : ∀ a ∈ l₁, (cl a).isSome = true) (hx : cl x = none) :
    ∃ t', cloneUninitLoop N cl src (l₁ ++ x :: l₂).length i t = .panic t' := by
  induction l₁ generalizing i t with
  | nil =>
    have h0 : src i = some x := by simpa using hs 0 (by simp)
    simp only [List.nil_append, List.length_cons] at hi ⊢
    exact ⟨t, by simp only [cloneUninitLoop, M.bind_run, memRead_ok (show i < N by omega) h0, Out.andThen_ok, hx]; rfl⟩
  | cons a r ih =>
    have h0 : src i = some a := by simpa using hs 0 (by simp)
    obtain ⟨b, hb⟩ := Option.isSome_iff_exists.1 (hc a (by simp))
    simp only [List.cons_append, List.length_cons] at hi hs ⊢
    obtain ⟨t', e⟩ := ih (i + 1) { t with mem := t.mem.put i b } (by omega)
      (fun j hj => by have := hs (j + 1) (by simpa using hj); simpa [Nat.add_assoc, Nat.add_comm 1 j] using this)
      (fun y hy => hc y (by simp [hy]))
    refine ⟨t', ?_⟩
    simp only [cloneUninitLoop, M.bind_run, memRead_ok (show i < N by omega) h0, Out.andThen_ok, hb, forceWrite, getMem,
        memWrite_ok (show i < N by omega), setMem]
    exact e

theorem rep_cells (h : Rep N c l) (j : Nat) (hj : j < l.length) : c.mem (c.left + j) = l[j]? := by
  rw [h.cell _ (by omega) (by rw [h.right_eq]; omega)]; congr 1; omega

/-- C66 for `Chunk`, cloning: `clone_uninit` into any memory gives a chunk showing what `clone` gives. -/
theorem C66_chunk_clone (hN : 2 * N < E.W) (h : View E N c l) (t : Chunk A) (log cs : List A) (hc : l.map cl = cs.map some) :
    ∃ t' d, cloneUninit N cl c t = .ok () t' ∧ View E N t' cs ∧ clone E N dp cl (c, log) = .ok d (c, log) ∧ View E N d cs ∧
      t'.left = d.left ∧ t'.right = d.right := by
  have hr := h.rep hN
  obtain ⟨d, e, h1, h2, h3⟩ := C16_clone (dp := dp) hN h log cs hc
  have hlen : cs.length = l.length := by have := congrArg List.length hc; simpa using this.symm
  have h5 := hr.right_eq
  have h6 := hr.le
  obtain ⟨t', e', g1, g2, g3, g4⟩ := cloneUninitLoop_ok (N := N) (cl := cl) c.mem l cs c.left { t with left := c.left, right := c.right }
    (by omega) (rep_cells hr) hc
  dsimp only at g1 g2
  refine ⟨t', d, ?_, Rep.view E ⟨by omega, by omega, fun j h7 h8 => ?_⟩, e, h1, by omega, by omega⟩
  · rw [← e', show l.length = c.right - c.left by omega]; rfl
  · have := g4 (j - c.left) (by omega)
    rw [show c.left + (j - c.left) = j by omega] at this
    rw [this, g1]

/-- C66 for `Chunk`, a clone that panics: `clone_uninit` panics where `clone` does not return. -/
theorem C66_chunk_clone_panics (hN : 2 * N < E.W) (l₁ l₂ : List A) (x : A) (h : View E N c (l₁ ++ x :: l₂)) (t : Chunk A)
    (hc : ∀ a ∈ l₁, (cl a).isSome = true) (hx : cl x = none) : ∃ t', cloneUninit N cl c t = .panic t' := by
  have hr := h.rep hN
  have h5 := hr.right_eq
  have h6 := hr.le
  obtain ⟨t', e'⟩ := cloneUninitLoop_panic (N := N) (cl := cl) c.mem l₁ l₂ x c.left { t with left := c.left, right := c.right }
    (by omega) (rep_cells hr) hc hx
  refine ⟨t', ?_⟩
  rw [← e', show (l₁ ++ x :: l₂).length = c.right - c.left by omega]; rfl

/-- C66 for `Chunk`, the default: `default_uninit` in any memory gives an empty chunk. -/
theorem C66_chunk_default (E : Env) (N : Nat) (t : Chunk A) : View E N (defaultUninit t) [] :=
  Rep.view E ⟨rfl, Nat.zero_le _, fun _ _ h => absurd h (by simp [defaultUninit])⟩

/-- C66 is not vacuous: cloning `edge` over a chunk full of rubbish. -/
example : ∃ t', cloneUninit 3 (fun a => some (a + 1)) edge ⟨7, 99, fun _ => some 5⟩ = .ok () t' ∧ View rel64 3 t' [11, 21] := ⟨_, rfl, rfl⟩
end Verif.Chunk

namespace Verif.Ring
variable {A : Type} {E : Env} {N : Nat} {dp : A → Bool} {cl : A → Option A} {c : Ring A} {l : List A}

theorem cloneUninit_sat (hW : 2 * N < E.W) (h : Rep N c l) (t : Ring A) :
    Sat (cloneUninit E N cl c t)
      (fun _ s => (Spec.bornOf cl l).length = l.length ∧ s.origin = c.origin ∧ Rep N s (Spec.bornOf cl l))
      (fun _ => (Spec.bornOf cl l).length < l.length) False := by
  obtain ⟨h1, h2, h3, h4⟩ := id h
  unfold cloneUninit
  apply Sat.bind
  refine sat_setOrigin ?_
  apply Sat.bind
  refine sat_setLen ?_
  apply Sat.bind
  refine sat_rawAdd hW h1 (by omega) ?_
  rw [h2]
  refine sat_forIdx0 hW h1 (I := fun k s => s.origin = c.origin ∧ s.length = l.length ∧ (Spec.bornOf cl (l.take k)).length = k ∧
      ∀ j, j < k → lm N c.origin s.mem j = (Spec.bornOf cl (l.take k))[j]?) _ _ h3 ?_ ?_ ?_
  · exact ⟨rfl, rfl, by simp [Spec.bornOf], fun j hj => absurd hj (by omega)⟩
  · rintro k ⟨o', n', m⟩ hk ⟨e1, e0, e2, e3⟩
    dsimp only at e1 e0 e3; subst e1; subst e0
    have hl : l[k]? = some l[k] := List.getElem?_eq_getElem hk
    have hm := (h.cell' hl).2
    simp only [lm, show k < N by omega, if_true] at hm
    have hlt := ridx_lt (j := k) h1 (by omega)
    unfold cloneUninitBody
    vc
    refine Sat.memRead hlt hm ?_
    cases hca : cl l[k] with
    | none =>
      simp only
      apply Sat.panic
      have := bornOf_stop cl l k _ hl hca e2
      rw [this]
      omega
    | some b =>
      have e4 := bornOf_take_succ cl l k _ hl e2
      rw [hca] at e4
      simp only [Option.toList_some] at e4
      simp only
      vc
      rw [e4]
      refine ⟨rfl, rfl, by simp [e2], ?_⟩
      rw [lm_put (by omega)]
      intro j hj
      simp only [Mem.put]
      split
      · subst j; simp [e2]
      · rw [e3 j (by omega), List.getElem?_append_left (by omega)]
  · rintro s ⟨e1, e0, e2, e3⟩
    rw [List.take_length] at e2 e3
    exact ⟨e2, e1, by omega, by omega, by omega, fun j hj => by rw [e1]; exact e3 j (by omega)⟩

/-- C66 for `RingBuffer`, cloning: `clone_uninit` into any memory gives a buffer showing what `clone` gives. -/
theorem C66_ring_clone (hN : 0 < N) (hW : 2 * N < E.W) (h : View E N c l) (t : Ring A) (log cs : List A) (hc : l.map cl = cs.map some) :
    ∃ t' d, cloneUninit E N cl c t = .ok () t' ∧ View E N t' cs ∧ clone E N dp cl (c, log) = .ok d (c, log) ∧ View E N d cs ∧
      t'.origin = d.origin := by
  obtain ⟨d, e, h1, h2⟩ := C36_clone (dp := dp) hN hW h log cs hc
  have hlen : cs.length = l.length := by have := congrArg List.length hc; simpa using this.symm
  have hs := cloneUninit_sat (cl := cl) hW (h.rep hW) t
  have hb := Chunk.bornOf_all hc
  rw [hb] at hs
  cases hx : cloneUninit E N cl c t <;> rw [hx] at hs <;> simp only [Sat] at hs
  · exact ⟨_, d, rfl, hs.2.2.view hW, e, h1, by rw [hs.2.1, h2]⟩
  · omega

/-- C66 for `RingBuffer`, a clone that panics: `clone_uninit` panics where `clone` does not return. -/
theorem C66_ring_clone_panics (hW : 2 * N < E.W) (l₁ l₂ : List A) (x : A) (h : View E N c (l₁ ++ x :: l₂)) (t : Ring A)
    (hx : cl x = none) : ∃ t', cloneUninit E N cl c t = .panic t' := by
  have hs := cloneUninit_sat (cl := cl) hW (h.rep hW) t
  have hb : (Spec.bornOf cl (l₁ ++ x :: l₂)).length ≤ l₁.length := by
    clear hs h
    induction l₁ with
    | nil => simp [Spec.bornOf, hx]
    | cons a r ih =>
      simp only [List.cons_append, Spec.bornOf]
      cases cl a <;> simp [ih]
  cases hy : cloneUninit E N cl c t <;> rw [hy] at hs <;> simp only [Sat] at hs
  · have := hs.1; simp at this; omega
  · exact ⟨_, rfl⟩

/-- C66 for `RingBuffer`, the default: `default_uninit` in any memory gives an empty buffer. -/
theorem C66_ring_default (hN : 0 < N) (hW : 2 * N < E.W) (t : Ring A) :
    ∃ t', defaultUninit E N t = .ok () t' ∧ View E N t' [] := by
  have : Sat (defaultUninit E N t) (fun _ s => Rep N s []) (fun _ => False) False := by
    unfold defaultUninit
    apply Sat.bind
    refine sat_rawFrom hN ?_
    apply Sat.bind
    refine sat_setOrigin ?_
    refine sat_setLen ?_
    exact ⟨hN, rfl, Nat.zero_le _, fun j hj => absurd hj (by simp)⟩
  cases hx : defaultUninit E N t <;> rw [hx] at this <;> simp only [Sat] at this
  exact ⟨_, rfl, this.view hW⟩

/-- C66 is not vacuous: a wrapped buffer cloned over rubbish. -/
example : (cloneUninit Chunk.rel64 3 (fun a => some (a + 1)) ⟨2, 2, fun i => if i = 2 then some 10 else if i = 0 then some 20 else none⟩
    ⟨9, 9, fun _ => some 5⟩).final.map (fun t => (items Chunk.rel64 3 t).seen) = some (some [11, 21]) := by decide +kernel
end Verif.Ring

namespace Verif.Sparse
variable {A : Type} {E : Env} {N : Nat} {dp : A → Bool} {cl : A → Option A} {c : Sparse A} {m : SMap A}

/-- C66 for `SparseChunk`, cloning: `clone_uninit` into any memory gives a chunk showing what `clone` gives; the source is unchanged. -/
theorem C66_sparse_clone (h : View N c m) (t : Sparse A) (log : List A) (hc : ∀ i a, m i = some a → (cl a).isSome = true) :
    ∃ t' d s, cloneUninit N cl (t, c) = .ok () (t', c) ∧ View N t' (fun i => (m i).bind cl) ∧
      clone N dp cl (c, log) = .ok d (s, log) ∧ View N d (fun i => (m i).bind cl) := by
  obtain ⟨d, s, e, h1, _⟩ := C55_clone (dp := dp) h log hc
  obtain ⟨t', e', h2⟩ := cloneUninit_eq cl h.rep t
  have hb : (Spec.bornOf cl (m.vals N)).length = (m.vals N).length := by
    have : ∀ a ∈ m.vals N, (cl a).isSome = true := by
      intro a ha
      simp only [SMap.vals, List.mem_filterMap] at ha
      obtain ⟨i, _, hi⟩ := ha
      exact hc i a hi
    generalize m.vals N = l at this
    induction l with
    | nil => rfl
    | cons a r ih =>
      obtain ⟨b, hb⟩ := Option.isSome_iff_exists.1 (this a (by simp))
      simp only [Spec.bornOf, hb, List.length_cons]
      rw [ih fun x hx => this x (by simp [hx])]
  exact ⟨t', d, s, by rw [e', if_pos hb], (h2 hb).view, e, h1⟩

/-- C66 for `SparseChunk`, a clone that panics: `clone_uninit` panics, the source is unchanged. -/
theorem C66_sparse_clone_panics (h : View N c m) (t : Sparse A) (i : Nat) (a : A) (hi : m i = some a) (ha : cl a = none) :
    ∃ t', cloneUninit N cl (t, c) = .panic (t', c) := by
  obtain ⟨t', e', h2⟩ := cloneUninit_eq cl h.rep t
  have hb : ¬ (Spec.bornOf cl (m.vals N)).length = (m.vals N).length := by
    have : a ∈ m.vals N := by
      simp only [SMap.vals, List.mem_filterMap, List.mem_range]
      exact ⟨i, h.rep.lt hi, hi⟩
    generalize m.vals N = l at this
    have hle : ∀ l : List A, (Spec.bornOf cl l).length ≤ l.length := fun l => bornOf_le cl l
    induction l with
    | nil => simp at this
    | cons b r ih =>
      simp only [Spec.bornOf]
      cases hb : cl b with
      | none => simp
      | some b' =>
        simp only [List.length_cons, Nat.add_right_cancel_iff]
        rcases List.mem_cons.1 this with rfl | h
        · rw [ha] at hb; cases hb
        · exact ih h
  exact ⟨t', by rw [e', if_neg hb]⟩

/-- C66 for `SparseChunk`, the default: `default_uninit` in any memory gives an empty chunk. -/
theorem C66_sparse_default (N : Nat) (t : Sparse A) : View N (defaultUninit t) SMap.empty := (defaultUninit_rep t).view

/-- C66 is not vacuous. -/
example : (cloneUninit 3 (fun a => some (a + 1)) (⟨fun _ => true, fun _ => some 5⟩, ⟨fun i => i == 1, fun i => if i = 1 then some 10 else none⟩)).final.map
    (fun s => ((get 3 0 s.1).seen, (get 3 1 s.1).seen, (get 3 2 s.1).seen)) = some (some none, some (some 11), some none) := by decide +kernel
end Verif.Sparse
