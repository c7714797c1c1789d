import Verif.AliasInline
import Verif.Inline.View
import Verif.Props.AliasMethods
import Verif.Props.InlineMoves
/-
C100: the calls listed for the methods of `InlineArray` are what the byte model does.
-/
namespace Verif.Alias
open Verif Inline
variable {A : Type} {E : Env} {L : Layout A}

theorem atBox0 {s t s' : Inline A} : atBox (both s t) 0 s' = both s' t := by
  funext y; by_cases hy : y = 0 <;> simp [atBox, both, hy]
theorem atBox1 {s t t' : Inline A} : atBox (both s t) 1 t' = both s t' := by
  funext y
  by_cases hy : y = 1
  · subst hy; simp [atBox, both]
  · simp [atBox, both, hy]

theorem ActsInlineAll.append {cs ds : List Call} {m m' m'' : Nat → Inline A} (h : ActsInlineAll E L cs m m') (h' : ActsInlineAll E L ds m' m'') :
    ActsInlineAll E L (cs ++ ds) m m'' := by
  induction h with
  | nil => exact h'
  | cons h _ ih => exact .cons h (ih h')

section
variable {s t s' t' : Inline A} {l : List A} {cs : List Call} {m' : Nat → Inline A}

theorem step_setLen0 (n : Nat) (h : ActsInlineAll E L cs (both (withLen E L s n) t) m') : ActsInlineAll E L (.inlineSetLen 0 :: cs) (both s t) m' := by
  refine .cons (.inlineSetLen n) ?_
  rw [atBox0]
  exact h
theorem step_setLen1 (n : Nat) (h : ActsInlineAll E L cs (both s (withLen E L t n)) m') : ActsInlineAll E L (.inlineSetLen 1 :: cs) (both s t) m' := by
  refine .cons (.inlineSetLen n) ?_
  rw [atBox1]
  exact h
theorem step_write0 {i : Nat} (v : A) (h : ActsInlineAll E L cs (both (withSlot L s i v) t) m') : ActsInlineAll E L (.inlineWrite 0 i :: cs) (both s t) m' := by
  refine .cons (.inlineWrite v) ?_
  rw [atBox0]
  exact h
theorem step_write1 {i : Nat} (v : A) (h : ActsInlineAll E L cs (both s (withSlot L t i v)) m') : ActsInlineAll E L (.inlineWrite 1 i :: cs) (both s t) m' := by
  refine .cons (.inlineWrite v) ?_
  rw [atBox1]
  exact h

theorem filled (h : Rep E L s l) : Filled L s l.length := fun j hj => ⟨l[j], h.slots j _ (List.getElem?_eq_getElem hj)⟩

theorem iacts_push (v : A) (hv : L.Valid E) (h : Rep E L s l) (e : push E L v s = .ok () s') :
    ActsInlineAll E L (InlineMethod.calls (cap E L) l.length .push) (both s t) (both s' t) := by
  have g := h.geo hv
  have hle := h.le
  unfold push at e
  simp only [M.bind_run, isFull_eq hv h, Out.andThen_ok, M.panicIf_run, decide_eq_true_eq] at e
  simp only [InlineMethod.calls]
  by_cases hf : l.length = cap E L
  · rw [if_pos hf] at e; simp at e
  · have hl : l.length < cap E L := by omega
    have hW := g.cap_lt
    rw [if_neg hf] at e
    have hh := withSlot_hdr g (v := v) hl h.hdr
    simp only [Out.andThen_ok, len_eq hv h, writeAt_eq g h.addr hl,
      incLen_eq g (s := withSlot L s l.length v) h.addr hh (show l.length + 1 < E.W by omega), Out.ok.injEq, true_and] at e
    subst e
    rw [if_neg (by omega)]
    exact .cons .inlineLen (.cons .inlineLen (step_write0 v (step_setLen0 _ .nil)))

theorem iacts_insert (i : Nat) (v : A) (hv : L.Valid E) (h : Rep E L s l) (e : Inline.insert E L i v s = .ok () s') :
    ActsInlineAll E L (InlineMethod.calls (cap E L) l.length (.insert i)) (both s t) (both s' t) := by
  have g := h.geo hv
  have hle := h.le
  have hW := g.cap_lt
  unfold Inline.insert at e
  simp only [M.bind_run, isFull_eq hv h, Out.andThen_ok, M.panicIf_run, decide_eq_true_eq] at e
  simp only [InlineMethod.calls]
  by_cases hf : l.length = cap E L
  · rw [if_pos hf] at e; simp at e
  rw [if_neg hf] at e
  simp only [Out.andThen_ok, len_eq hv h] at e
  by_cases hi : i > l.length
  · rw [if_pos hi] at e; simp at e
  have hl : l.length < cap E L := by omega
  have h1 : i < cap E L := by omega
  have hh1 : Hdr E L (withCopy L s.bytes i s (i + 1) (l.length - i)) l.length := withCopy_hdr g (by omega) h.hdr
  have hh2 : Hdr E L (withSlot L (withCopy L s.bytes i s (i + 1) (l.length - i)) i v) l.length := withSlot_hdr g h1 hh1
  rw [if_neg hi] at e
  simp only [ptrAt_eq g h.addr h1, Out.andThen_ok, ptrAdd_slot g (show i + 1 ≤ cap E L by omega) (by omega), len_eq hv h,
    usub_ok (show i ≤ l.length by omega), copyWithin_eq g h.addr (show i + (l.length - i) ≤ cap E L by omega)
      (show i + 1 + (l.length - i) ≤ cap E L by omega) (by omega),
    storeElem_eq g (s := withCopy L s.bytes i s (i + 1) (l.length - i)) h.addr h1,
    incLen_eq g (s := withSlot L (withCopy L s.bytes i s (i + 1) (l.length - i)) i v) h.addr hh2 (show l.length + 1 < E.W by omega),
    Out.ok.injEq, true_and] at e
  subst e
  rw [if_neg (by omega), if_neg hi]
  refine .cons .inlineLen (.cons .inlineLen (.cons (.inlineInsert v) ?_))
  rw [atBox0]
  exact .nil

theorem iacts_splitOff (i k : Nat) (hv : L.Valid E) (h : Rep E L s l) (e : splitOff E L k i s = .ok t' s') :
    ActsInlineAll E L (InlineMethod.calls (cap E L) l.length (.splitOff i)) (both s (blank L k)) (both s' t') := by
  have hle := h.le
  have g := h.geo hv
  unfold splitOff at e
  simp only [M.bind_run, len_eq hv h, Out.andThen_ok, M.panicIf_run] at e
  simp only [InlineMethod.calls]
  by_cases hi : i > l.length
  · rw [if_pos hi] at e; simp at e
  rw [if_neg hi] at e ⊢
  have hnew := new_eq hv h.acc k
  have hb : L.align ∣ (fresh E L k).addr := Nat.dvd_mul_left _ _
  simp only [Out.andThen_ok, make, hnew, Out.mapState_ok, len_eq hv h] at e
  refine .cons .inlineLen (step_setLen1 0 (.cons .inlineLen ?_))
  change ActsInlineAll E L _ (both s (fresh E L k)) _
  by_cases hi2 : i < l.length
  · have hc : cap E L ≠ 0 := by omega
    have hdp := dataPtr_eq g hb
    rw [dptr, if_neg hc, ← slot_zero] at hdp
    simp only [hi2, if_true] at e ⊢
    simp only [withOut, splitOffMove, M.bind_run, M.onFst_run, M.onSnd_run, ptrAt_eq g h.addr (show i < cap E L by omega), Out.mapState_ok, Out.andThen_ok,
      hdp, len_eq hv h, usub_ok (show i ≤ l.length by omega),
      copyAcross_eq g h.addr hb (show i + (l.length - i) ≤ cap E L by omega) (show 0 + (l.length - i) ≤ cap E L by omega) (by omega),
      setLen_eq g (s := withCopy L s.bytes i (fresh E L k) 0 (l.length - i)) hb, setLen_eq g h.addr, Out.ok.injEq] at e
    obtain ⟨rfl, rfl⟩ := e
    refine .cons .inlineCopy ?_
    rw [atBox1]
    exact .cons .inlineLen (step_setLen1 _ (step_setLen0 _ .nil))
  · simp only [hi2, if_false, M.pure_run, Out.ok.injEq] at e ⊢
    obtain ⟨rfl, rfl⟩ := e
    exact .nil

variable [DecidableEq A]

theorem iacts_pop {v : Option A} (hv : L.Valid E) (h : Rep E L s l) (e : pop E L s = .ok v s') :
    ActsInlineAll E L (InlineMethod.calls (cap E L) l.length .pop) (both s t) (both s' t) := by
  have g := h.geo hv
  have hle := h.le
  unfold pop at e
  simp only [M.bind_run, isEmpty_eq hv h, Out.andThen_ok] at e
  simp only [InlineMethod.calls]
  by_cases hl : l = []
  · subst hl
    simp only [List.isEmpty_nil, if_true, M.pure_run, Out.ok.injEq] at e
    obtain ⟨-, rfl⟩ := e
    exact .cons .inlineLen .nil
  · have hlen : 1 ≤ l.length := List.length_pos_iff.2 hl
    have hemp : l.isEmpty = false := by simpa using hl
    have hs : Slot L s (l.length - 1) (l.getLast hl) := h.slots _ _ (by
      rw [← List.getLast?_eq_getElem?, List.getLast?_eq_some_getLast hl])
    have hs' : Slot L (withLen E L s (l.length - 1)) (l.length - 1) (l.getLast hl) := withLen_slot g (by omega) hs
    simp only [hemp, Bool.false_eq_true, if_false, M.bind_run, decLen_eq g h.addr h.hdr hlen, Out.andThen_ok,
      len_eq' g (s := withLen E L s (l.length - 1)) h.addr (withLen_hdr s _),
      readAt_eq g hv (s := withLen E L s (l.length - 1)) h.addr (show l.length - 1 < cap E L by omega) hs', M.pure_run, Out.ok.injEq] at e
    obtain ⟨-, rfl⟩ := e
    rw [if_neg (by omega)]
    exact .cons .inlineLen (step_setLen0 _ (.cons .inlineLen (.cons (.inlineRead ⟨_, hs'⟩) .nil)))

theorem iacts_remove (i : Nat) {v : Option A} (hv : L.Valid E) (h : Rep E L s l) (e : remove E L i s = .ok v s') :
    ActsInlineAll E L (InlineMethod.calls (cap E L) l.length (.remove i)) (both s t) (both s' t) := by
  have g := h.geo hv
  have hle := h.le
  unfold remove at e
  simp only [M.bind_run, len_eq hv h, Out.andThen_ok] at e
  simp only [InlineMethod.calls]
  by_cases hi : i ≥ l.length
  · simp only [hi, if_true, M.pure_run, Out.ok.injEq] at e ⊢
    obtain ⟨-, rfl⟩ := e
    exact .cons .inlineLen .nil
  · have h1 : i < cap E L := by omega
    have hil : i < l.length := by omega
    have ha : l[i]? = some l[i] := List.getElem?_eq_getElem hil
    simp only [hi, if_false] at e ⊢
    simp only [M.bind_run, ptrAt_eq g h.addr h1, Out.andThen_ok, loadElem_eq g hv h.addr h1 (h.slots i _ ha),
      decLen_eq g h.addr h.hdr (show 1 ≤ l.length by omega), ptrAdd_slot g (show i + 1 ≤ cap E L by omega) (by omega),
      len_eq' g (s := withLen E L s (l.length - 1)) h.addr (withLen_hdr s _), usub_ok (show i ≤ l.length - 1 by omega),
      copyWithin_eq g (s := withLen E L s (l.length - 1)) h.addr (show i + 1 + (l.length - 1 - i) ≤ cap E L by omega)
        (show i + (l.length - 1 - i) ≤ cap E L by omega) (by omega), M.pure_run, Out.ok.injEq] at e
    obtain ⟨-, rfl⟩ := e
    refine .cons .inlineLen (.cons (.inlineRemove ⟨_, h.slots i _ ha⟩) ?_)
    rw [atBox0]
    exact .nil

theorem iacts_clear {dp : A → Bool} {log log' : List A} (hv : L.Valid E) (h : Rep E L s l) (e : clear E L dp (s, log) = .ok () (s', log')) :
    ActsInlineAll E L (InlineMethod.calls (cap E L) l.length .clear) (both s t) (both s' t) := by
  have g := h.geo hv
  have hs : Sat (clear E L dp (s, log)) (fun _ x => x.1 = withLen E L s 0) (fun _ => True) True := by
    unfold clear drop
    simp only [M.bind_run, M.onFst_run, items_eq hv h, Out.mapState_ok, Out.andThen_ok]
    refine Sat.bind (x := dropSlice dp l) (Sat.dropSlice (fun _ => ?_) (fun _ => trivial) (fun _ => trivial))
    simp only [setLen_eq g h.addr, Out.mapState_ok]
    rfl
  rw [e] at hs
  have hs : s' = _ := hs
  subst hs
  simp only [InlineMethod.calls]
  have : ∀ is : List Nat, ActsInlineAll E L (is.map (Call.inlineDerefMut 0 l.length)) (both s t) (both s t) := by
    intro is
    induction is with
    | nil => exact .nil
    | cons i is ih => exact .cons (.inlineDerefDrop (filled h)) ih
  exact (this _).append (step_setLen0 0 .nil)

theorem iacts_index (i : Nat) {v : A} (hv : L.Valid E) (h : Rep E L s l) (e : index E L i s = .ok v s') :
    ActsInlineAll E L (InlineMethod.calls (cap E L) l.length (.index i)) (both s t) (both s' t) := by
  simp only [index, M.bind_run, items_eq hv h, Out.andThen_ok] at e
  simp only [InlineMethod.calls]
  cases hi : l[i]? with
  | none => rw [hi] at e; simp at e
  | some a =>
    rw [hi] at e
    simp only [M.pure_run, Out.ok.injEq] at e
    obtain ⟨-, rfl⟩ := e
    rw [if_pos (List.getElem?_eq_some_iff.1 hi).1]
    exact .cons (.inlineDeref (filled h)) .nil

theorem iacts_indexMut (i : Nat) {v w : A} (hv : L.Valid E) (h : Rep E L s l) (e : Inline.set E L i v s = .ok w s') :
    ActsInlineAll E L (InlineMethod.calls (cap E L) l.length (.indexMut i)) (both s t) (both s' t) := by
  have hle := h.le
  have g := h.geo hv
  unfold Inline.set index at e
  simp only [M.bind_run, items_eq hv h, Out.andThen_ok] at e
  simp only [InlineMethod.calls]
  by_cases hi : i < l.length
  · have hl : l[i]? = some l[i] := List.getElem?_eq_getElem hi
    have hc : cap E L ≠ 0 := by omega
    have hp := ptrAdd_slot g (i := 0) (n := i) (by omega) (by omega) s
    rw [slot_zero, Nat.zero_add] at hp
    simp only [hl, M.pure_run, Out.andThen_ok, dataPtr_eq g h.addr, dptr, if_neg hc, hp, storeElem_eq g h.addr (show i < cap E L by omega), Out.ok.injEq] at e
    obtain ⟨-, rfl⟩ := e
    rw [if_pos hi]
    refine .cons (.inlineDerefMut (filled h) v) ?_
    rw [atBox0]
    exact .nil
  · rw [List.getElem?_eq_none (by omega)] at e
    simp at e

theorem iacts_cloneLoop {cl : A → Option A} (hv : L.Valid E) (h : Rep E L s l) (n i : Nat) (t : Inline A) (hi : i + n = l.length) (ht : L.align ∣ t.addr) :
    Sat (cloneLoop E L cl n i (t, s)) (fun _ x => x.2 = s ∧ L.align ∣ x.1.addr ∧
      ActsInlineAll E L ((List.range' i n).flatMap fun i => [.inlineDeref 0 l.length i, .inlineWrite 1 i]) (both s t) (both s x.1)) (fun _ => True) True := by
  have hle := h.le
  have g := h.geo hv
  induction n generalizing i t with
  | zero => exact ⟨rfl, ht, .nil⟩
  | succ n ih =>
    have hi' : i < l.length := by omega
    have e : l[i]? = some l[i] := List.getElem?_eq_getElem hi'
    simp only [cloneLoop, M.bind_run, M.onSnd_run, itemAt, items_eq hv h, Out.andThen_ok, e, M.pure_run, Out.mapState_ok]
    cases hcl : cl l[i] with
    | none => rw [cloneOne_none hcl]; trivial
    | some b =>
      rw [cloneOne_some hcl]
      simp only [Out.andThen_ok, M.onFst_run, writeAt_eq g ht (show i < cap E L by omega), Out.mapState_ok]
      refine Sat.imp (ih (i + 1) (withSlot L t i b) (by omega) ht) ?_ (fun _ _ => trivial) (fun _ => trivial)
      rintro _ x ⟨h1, h2, h3⟩
      refine ⟨h1, h2, ?_⟩
      rw [List.range'_succ, List.flatMap_cons]
      exact .cons (.inlineDeref (filled h)) (step_write1 b h3)

theorem iacts_clone {dp : A → Bool} {cl : A → Option A} {k : Nat} {log log' : List A} (hv : L.Valid E) (h : Rep E L s l)
    (e : clone E L dp cl k (s, log) = .ok t' (s', log')) :
    ActsInlineAll E L (InlineMethod.calls (cap E L) l.length .clone) (both s (blank L k)) (both s' t') := by
  have g := h.geo hv
  have hb : L.align ∣ (fresh E L k).addr := Nat.dvd_mul_left _ _
  have hcl := iacts_cloneLoop (cl := cl) hv h l.length 0 (fresh E L k) (by omega) hb
  unfold clone at e
  simp only [M.bind_run, make, new_eq hv h.acc, Out.mapState_ok, Out.andThen_ok, M.withLocal, M.onFst_run, M.onSnd_run, len_eq hv h] at e
  cases hx : cloneLoop E L cl l.length 0 (fresh E L k, s) with
  | ok u x =>
    rw [hx] at hcl e
    obtain ⟨h1, h2, h3⟩ := hcl
    obtain ⟨x1, x2⟩ := x
    dsimp only at h1 h2 h3
    subst h1
    simp only [Out.andThen_ok, len_eq hv h, Out.mapState_ok, setLen_eq g h2, M.pure_run, Out.ok.injEq, Prod.mk.injEq] at e
    obtain ⟨rfl, rfl, -⟩ := e
    rw [← List.range_eq_range'] at h3
    exact step_setLen1 0 (.cons .inlineLen (h3.append (.cons .inlineLen (step_setLen1 _ .nil))))
  | panic x =>
    rw [hx] at e
    simp only [Out.andThen_panic, Out.mapState] at e
    split at e <;> simp at e
  | _ => rw [hx] at e; simp [Out.mapState] at e

/-- C100. The calls listed for a method of `InlineArray` are what its byte model does: they have exactly its effect on the bytes of both
arrays, and they read, drop and lend out only initialised elements. -/
theorem C100_inline_calls {dp : A → Bool} {cl : A → Option A} (hv : L.Valid E) (hr : Reachable E L dp cl s) (h : View E L s l)
    (m : InlineMethod) (e : m.Runs E L s t s' t') : ActsInlineAll E L (m.calls (cap E L) l.length) (both s t) (both s' t') := by
  have h := hr.rep_of_view hv h
  cases m with
  | push => obtain ⟨v, e, rfl⟩ := e; exact iacts_push v hv h e
  | pop => obtain ⟨v, e, rfl⟩ := e; exact iacts_pop hv h e
  | insert i => obtain ⟨v, e, rfl⟩ := e; exact iacts_insert i v hv h e
  | remove i => obtain ⟨v, e, rfl⟩ := e; exact iacts_remove i hv h e
  | splitOff i => obtain ⟨k, rfl, e⟩ := e; exact iacts_splitOff i k hv h e
  | clear => obtain ⟨dp, log, log', e, rfl⟩ := e; exact iacts_clear hv h e
  | index i => obtain ⟨v, e, rfl⟩ := e; exact iacts_index i hv h e
  | indexMut i => obtain ⟨v, w, e, rfl⟩ := e; exact iacts_indexMut i hv h e
  | clone => obtain ⟨dp, cl, k, log, log', rfl, e⟩ := e; exact iacts_clone hv h e
end

/-- The hypotheses hold of the array `[10, 20, 30]` with capacity 4 and the calls are several. -/
example : words.Valid Chunk.dbg64 ∧ Reachable Chunk.dbg64 words (fun _ => false) some three ∧ View Chunk.dbg64 words three [10, 20, 30] :=
  ⟨words_valid, three_spec⟩
example : (remove Chunk.dbg64 words 0 three).seen = some (some 10) := by decide +kernel
example : InlineMethod.calls 4 3 .clone = [.inlineSetLen 1, .inlineLen 0, .inlineDeref 0 3 0, .inlineWrite 1 0, .inlineDeref 0 3 1, .inlineWrite 1 1,
    .inlineDeref 0 3 2, .inlineWrite 1 2, .inlineLen 0, .inlineSetLen 1] := rfl

end Verif.Alias
