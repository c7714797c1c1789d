import Verif.Props.InlineOps
/-
C85: how many bytes of an `InlineArray` a call rewrites.
-/
namespace Verif.Inline
variable {A : Type} {E : Env} {L : Layout A} {dp : A → Bool} {cl : A → Option A}

/-- At most `k` bytes hold something different afterwards. -/
def Rewritten (k : Nat) (before after : Nat → Byte A) : Prop :=
  ∃ offs : List Nat, offs.length ≤ k ∧ ∀ j, j ∉ offs → after j = before j

theorem Rewritten.none (k : Nat) (b : Nat → Byte A) : Rewritten k b b := ⟨[], by simp, fun _ _ => rfl⟩

theorem Rewritten.splice {k n : Nat} {b b' : Nat → Byte A} (h : Rewritten k b b') (off : Nat) (f : Nat → Byte A) :
    Rewritten (k + n) b (splice b' off n f) := by
  obtain ⟨s, h1, h2⟩ := h
  refine ⟨List.range' off n ++ s, by simp; omega, fun j hj => ?_⟩
  simp only [List.mem_append, List.mem_range'_1, not_or] at hj
  rw [Verif.splice, if_neg hj.1, h2 j hj.2]

theorem Rewritten.mono {k k' : Nat} {b b' : Nat → Byte A} (h : Rewritten k b b') (hk : k ≤ k') : Rewritten k' b b' := by
  obtain ⟨s, h1, h2⟩ := h
  exact ⟨s, by omega, h2⟩

variable [DecidableEq A] {s : Inline A} {l : List A}

/-- C85. `push` writes the length and one item. -/
theorem C85_push (hv : L.Valid E) (hr : Reachable E L dp cl s) (h : View E L s l) (v : A) {s' : Inline A} (e : push E L v s = .ok () s') :
    Rewritten (L.headerSize + L.elemSize) s.bytes s'.bytes := by
  have h := hr.rep_of_view hv h
  have g := h.geo hv
  have hle := h.le
  have hW := g.cap_lt
  unfold push at e
  simp only [M.bind_run, isFull_eq hv h, Out.andThen_ok, M.panicIf_run, decide_eq_true_eq] at e
  by_cases hf : l.length = cap E L
  · rw [if_pos hf] at e; cases e
  · have hl : l.length < cap E L := by omega
    rw [if_neg hf] at e
    have hh := withSlot_hdr g (v := v) hl h.hdr
    simp only [Out.andThen_ok, len_eq hv h, writeAt_eq g h.addr hl,
      incLen_eq g (s := withSlot L s l.length v) h.addr hh (show l.length + 1 < E.W by omega)] at e
    cases e
    exact (((Rewritten.none 0 _).splice _ _).splice _ _).mono (by omega)

/-- C85. `pop` writes the length only: nothing is moved. -/
theorem C85_pop (hv : L.Valid E) (hr : Reachable E L dp cl s) (h : View E L s l) {a : Option A} {s' : Inline A} (e : pop E L s = .ok a s') :
    Rewritten L.headerSize s.bytes s'.bytes := by
  have h := hr.rep_of_view hv h
  have g := h.geo hv
  have hle := h.le
  unfold pop at e
  simp only [M.bind_run, isEmpty_eq hv h, Out.andThen_ok] at e
  cases hl : l with
  | nil => subst hl; simp at e; rw [← e.2]; exact Rewritten.none ..
  | cons x r =>
    have hne : l ≠ [] := by rw [hl]; simp
    have hlen : 1 ≤ l.length := by rw [hl]; simp
    have hemp : l.isEmpty = false := by rw [hl]; rfl
    simp only [hemp, Bool.false_eq_true, if_false] at e
    have hs : Slot L s (l.length - 1) (l.getLast hne) := h.slots _ _ (by
      rw [← List.getLast?_eq_getElem?, List.getLast?_eq_some_getLast hne])
    have hs' : Slot L (withLen E L s (l.length - 1)) (l.length - 1) (l.getLast hne) := withLen_slot g (by omega) hs
    simp only [M.bind_run, decLen_eq g h.addr h.hdr hlen, Out.andThen_ok,
      len_eq' g (s := withLen E L s (l.length - 1)) h.addr (withLen_hdr s _),
      readAt_eq g hv (s := withLen E L s (l.length - 1)) h.addr (show l.length - 1 < cap E L by omega) hs', M.pure_run] at e
    cases e
    exact ((Rewritten.none 0 _).splice _ _).mono (by omega)

/-- C85. `insert(i, v)` writes the length and the new item and moves no item before `i`. -/
theorem C85_insert (hv : L.Valid E) (hr : Reachable E L dp cl s) (h : View E L s l) (i : Nat) (v : A) {s' : Inline A}
    (e : insert E L i v s = .ok () s') : Rewritten (L.headerSize + (l.length - i + 1) * L.elemSize) s.bytes s'.bytes := by
  have h := hr.rep_of_view hv h
  have g := h.geo hv
  have hle := h.le
  have hW := g.cap_lt
  unfold insert at e
  simp only [M.bind_run, isFull_eq hv h, Out.andThen_ok, M.panicIf_run, decide_eq_true_eq] at e
  by_cases hf : l.length = cap E L
  · rw [if_pos hf] at e; cases e
  · rw [if_neg hf] at e
    simp only [Out.andThen_ok] at e
    by_cases hi : i > l.length
    · simp only [len_eq hv h, Out.andThen_ok, hi, if_true] at e
      cases e
    · have hl : l.length < cap E L := by omega
      simp only [len_eq hv h, Out.andThen_ok, hi, if_false] at e
      have h1 : i < cap E L := by omega
      have hh1 : Hdr E L (withCopy L s.bytes i s (i + 1) (l.length - i)) l.length := withCopy_hdr g (by omega) h.hdr
      have hh2 : Hdr E L (withSlot L (withCopy L s.bytes i s (i + 1) (l.length - i)) i v) l.length := withSlot_hdr g h1 hh1
      simp only [ptrAt_eq g h.addr h1, Out.andThen_ok, ptrAdd_slot g (show i + 1 ≤ cap E L by omega) (by omega), len_eq hv h,
        usub_ok (show i ≤ l.length by omega), copyWithin_eq g h.addr (show i + (l.length - i) ≤ cap E L by omega)
          (show i + 1 + (l.length - i) ≤ cap E L by omega) (by omega),
        storeElem_eq g (s := withCopy L s.bytes i s (i + 1) (l.length - i)) h.addr h1,
        incLen_eq g (s := withSlot L (withCopy L s.bytes i s (i + 1) (l.length - i)) i v) h.addr hh2 (show l.length + 1 < E.W by omega)] at e
      cases e
      have := ((((Rewritten.none 0 s.bytes).splice (n := (l.length - i) * L.elemSize) (slotOff L (i + 1)) fun k => s.bytes (slotOff L i + k)).splice
        (n := L.elemSize) (slotOff L i) (.elem v)).splice (n := L.headerSize) (hdrOff E L) (.len (l.length + 1)))
      refine this.mono ?_
      rw [Nat.succ_mul]; omega

/-- C85. `remove(i)` writes the length and moves only the items after `i`. -/
theorem C85_remove (hv : L.Valid E) (hr : Reachable E L dp cl s) (h : View E L s l) (i : Nat) {a : Option A} {s' : Inline A}
    (e : remove E L i s = .ok a s') : Rewritten (L.headerSize + (l.length - 1 - i) * L.elemSize) s.bytes s'.bytes := by
  have h := hr.rep_of_view hv h
  have g := h.geo hv
  have hle := h.le
  unfold remove at e
  simp only [M.bind_run, len_eq hv h, Out.andThen_ok] at e
  by_cases hi : i ≥ l.length
  · simp only [hi, if_true, M.pure_run] at e
    cases e
    exact Rewritten.none ..
  · have h1 : i < cap E L := by omega
    have hil : i < l.length := by omega
    simp only [hi, if_false] at e
    have ha : l[i]? = some l[i] := List.getElem?_eq_getElem hil
    simp only [M.bind_run, ptrAt_eq g h.addr h1, Out.andThen_ok, loadElem_eq g hv h.addr h1 (h.slots i _ ha),
      decLen_eq g h.addr h.hdr (show 1 ≤ l.length by omega), ptrAdd_slot g (show i + 1 ≤ cap E L by omega) (by omega),
      len_eq' g (s := withLen E L s (l.length - 1)) h.addr (withLen_hdr s _), usub_ok (show i ≤ l.length - 1 by omega),
      copyWithin_eq g (s := withLen E L s (l.length - 1)) h.addr (show i + 1 + (l.length - 1 - i) ≤ cap E L by omega)
        (show i + (l.length - 1 - i) ≤ cap E L by omega) (by omega), M.pure_run] at e
    cases e
    have := ((Rewritten.none 0 s.bytes).splice (n := L.headerSize) (hdrOff E L) (.len (l.length - 1))).splice
      (n := (l.length - 1 - i) * L.elemSize) (slotOff L i) (fun k => (withLen E L s (l.length - 1)).bytes (slotOff L (i + 1) + k))
    exact this.mono (by omega)

/-- C85. `split_off(i)` writes the length only in the array that is split. -/
theorem C85_split_off (hv : L.Valid E) (hr : Reachable E L dp cl s) (h : View E L s l) (k i : Nat) {d s' : Inline A}
    (e : splitOff E L k i s = .ok d s') : Rewritten L.headerSize s.bytes s'.bytes := by
  have h := hr.rep_of_view hv h
  have hle := h.le
  have g := h.geo hv
  unfold splitOff at e
  simp only [M.bind_run, len_eq hv h, Out.andThen_ok, M.panicIf_run] at e
  by_cases hi : i > l.length
  · rw [if_pos hi] at e; cases e
  · rw [if_neg hi] at e
    obtain ⟨o, h1, h2⟩ := new_ok hv h.acc k
    simp only [Out.andThen_ok, make, h1, Out.mapState_ok, len_eq hv h] at e
    by_cases hi2 : i < l.length
    · have hc : cap E L ≠ 0 := by omega
      have hdp := dataPtr_eq g h2.addr
      rw [dptr, if_neg hc, ← slot_zero] at hdp
      simp only [hi2, if_true] at e
      simp only [withOut, splitOffMove, M.bind_run, M.onFst_run, M.onSnd_run, ptrAt_eq g h.addr (show i < cap E L by omega), Out.mapState_ok, Out.andThen_ok,
        hdp, len_eq hv h, usub_ok (show i ≤ l.length by omega),
        copyAcross_eq g h.addr h2.addr (show i + (l.length - i) ≤ cap E L by omega) (show 0 + (l.length - i) ≤ cap E L by omega) (by omega),
        setLen_eq g (s := withCopy L s.bytes i o 0 (l.length - i)) h2.addr, setLen_eq g h.addr] at e
      cases e
      exact ((Rewritten.none 0 _).splice _ _).mono (by omega)
    · have : i = l.length := by omega
      subst this
      simp only [Nat.lt_irrefl, if_false, M.pure_run] at e
      cases e
      exact Rewritten.none ..

/-- C85 is not vacuous: `three` is reachable, holds `[10, 20, 30]`, and can be pushed to, popped from, inserted into and split. -/
example : words.Valid Chunk.dbg64 ∧ Reachable Chunk.dbg64 words (fun _ => false) some three ∧ View Chunk.dbg64 words three [10, 20, 30] ∧
    (push Chunk.dbg64 words 9 three).seen = some () ∧ (pop Chunk.dbg64 words three).seen = some (some 30) ∧
    (insert Chunk.dbg64 words 1 9 three).seen = some () ∧ (remove Chunk.dbg64 words 1 three).seen = some (some 20) :=
  ⟨words_valid, three_spec.1, three_spec.2, by decide +kernel⟩

end Verif.Inline
