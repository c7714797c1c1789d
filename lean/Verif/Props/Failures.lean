import Verif.Props.Dtors
import Verif.Props.ChunkBulk
import Verif.Props.RingBulk
import Verif.Props.RingAlias
import Verif.Props.Io
/-
The properties that are false of the code (C12, C15, C22, C32, C35, C62, C74, C76): besides single counterexamples, exactly what
happens, for every container, wherever the property does not hold.
-/
namespace Verif

/-- The outcome is a return or undefined behaviour. -/
def OkOrUb {σ α : Type} (o : Out σ α) : Prop := o = .ub ∨ ∃ a s, o = .ok a s

theorem OkOrUb.bind {σ α β : Type} {x : M σ α} {f : α → M σ β} {s : σ} (h : OkOrUb (x s)) (hf : ∀ a s, OkOrUb (f a s)) : OkOrUb ((x >>= f) s) := by
  rcases h with h | ⟨a, s', h⟩
  · left; simp [M.bind_run, h]
  · simp only [M.bind_run, h, Out.andThen_ok]; exact hf a s'

theorem OkOrUb.onFst {σ τ α : Type} {x : M σ α} {s : σ × τ} (h : OkOrUb (x s.1)) : OkOrUb (M.onFst x s) := by
  rcases h with h | ⟨a, s', h⟩
  · left; simp [h]
  · right; exact ⟨a, (s', s.2), by simp [h]⟩

/-- Something that returns or is undefined behaviour, followed by undefined behaviour. -/
theorem ub_bind {σ α β : Type} {x : M σ α} {f : α → M σ β} {s : σ} (h : OkOrUb (x s)) (hf : ∀ a s, f a s = .ub) : (x >>= f) s = .ub := by
  rcases h with h | ⟨a, s', h⟩
  · simp [M.bind_run, h]
  · simp only [M.bind_run, h, Out.andThen_ok]; exact hf a s'

/-- How a call that should destroy the items `d` of a container showing `l` fails when destructors panic (`log` is what was destroyed before,
`again` drops the container later): if exactly one of them panics, all of `d` is destroyed, the call panics and the container still shows
all of `l`, so that dropping it destroys all of `l`, with `d`, once more; if two panic, the process aborts. -/
def DestroysAgain {σ A : Type} (V : σ → List A → Prop) (dp : A → Bool) (again : M (σ × List A) Unit) (d l log : List A)
    (o : Out (σ × List A) Unit) : Prop :=
  (d.countP dp = 1 → ∃ s, o = .panic (s, log ++ d) ∧ V s l ∧ DestroysAll dp l (log ++ d) (again (s, log ++ d))) ∧
  (2 ≤ d.countP dp → o = .abort)

/-- The same where destructors are called one at a time: the items `pre` before the first one whose destructor panics are destroyed, and that
one, and the container still shows all of `l`. -/
def DestroysUpToAgain {σ A : Type} (V : σ → List A → Prop) (dp : A → Bool) (again : M (σ × List A) Unit) (d l log : List A)
    (o : Out (σ × List A) Unit) : Prop :=
  ∀ pre a post, d = pre ++ a :: post → dp a = true → (∀ x, x ∈ pre → dp x = false) →
    ∃ s, o = .panic (s, log ++ (pre ++ [a])) ∧ V s l ∧ DestroysUpTo dp l (log ++ (pre ++ [a])) (again (s, log ++ (pre ++ [a])))

theorem DestroysAgain.of_ref {σ A : Type} {R V : σ → List A → Prop} {dp : A → Bool} {again : M (σ × List A) Unit} {d l l' log : List A}
    {o : Out (σ × List A) Unit} (h : Ref (RelLog R) o (Spec.dropping dp d l l' log)) (hv : ∀ s, R s l → V s l)
    (ha : ∀ s log, R s l → DestroysAll dp l log (again (s, log))) : DestroysAgain V dp again d l log o := by
  constructor
  · intro hd
    obtain ⟨⟨s, g⟩, e, hr, rfl⟩ := h.of_panic (dropping_one hd _ _ _)
    exact ⟨s, e, hv s hr, ha s _ hr⟩
  · intro hd
    refine h.of_abort ?_
    unfold Spec.dropping
    split <;> first | omega | rfl

theorem DestroysUpToAgain.of_ref {σ A : Type} {R V : σ → List A → Prop} {dp : A → Bool} {again : M (σ × List A) Unit} {d l l' log : List A}
    {o : Out (σ × List A) Unit} (h : Ref (RelLog R) o (Spec.droppingSeq dp d l l' log)) (hv : ∀ s, R s l → V s l)
    (ha : ∀ s log, R s l → DestroysUpTo dp l log (again (s, log))) : DestroysUpToAgain V dp again d l log o := by
  rintro pre a post rfl hd hp
  obtain ⟨⟨s, g⟩, e, hr, rfl⟩ := h.of_panic (t := (l, log ++ (pre ++ [a]))) (by
    rw [Spec.droppingSeq, if_pos (by simp [hd]), take_findIdx hd hp])
  exact ⟨s, e, hv s hr, ha s _ hr⟩

end Verif

namespace Verif.Chunk
variable {A : Type} {E : Env} {N : Nat} {dp : A → Bool} {c : Chunk A} {l : List A}

/-- C15, exactly how it fails, for every chunk: a destructor that panics inside `clear`, `drop_left` or `drop_right` leaves a chunk that
still shows everything, and destroys it all once more when it is dropped. -/
theorem C15_destroys_again_partial (hN : 2 * N < E.W) (h : View E N c l) (log : List A) (i : Nat) (hi : i ≤ l.length) :
    DestroysAgain (View E N) dp (drop E N dp) l l log (clear E N dp (c, log)) ∧
    DestroysAgain (View E N) dp (drop E N dp) (l.take i) l log (dropLeft E N dp i (c, log)) ∧
    DestroysAgain (View E N) dp (drop E N dp) (l.drop i) l log (dropRight E N dp i (c, log)) := by
  have h0 := clear_ref (E := E) dp (h.rep hN) log
  have h1 := dropLeft_ref (E := E) (by omega) dp i (h.rep hN) log
  have h2 := dropRight_ref (E := E) (by omega) dp i (h.rep hN) log
  rw [Spec.dropLeft, if_pos hi] at h1
  rw [Spec.dropRight, if_pos hi] at h2
  have hv : ∀ s, Rep N s l → View E N s l := fun s hs => hs.view E
  have ha : ∀ (s : Chunk A) log, Rep N s l → DestroysAll dp l log (drop E N dp (s, log)) :=
    fun s log hs => (C88_drop_and_clear hN (hs.view E) dp log).1
  exact ⟨.of_ref h0 hv ha, .of_ref h1 hv ha, .of_ref h2 hv ha⟩

/-- C15 (`C15_destroys_again_partial`) is not vacuous: the destructor of 10 panics inside `clear` of `[10, 20]`. -/
example : View dbg64 3 edge [10, 20] ∧ [10, 20].countP (fun a : Nat => a == 10) = 1 := ⟨rfl, rfl⟩

/-! ### C22 -/

/-- C22, exactly how it fails: in release builds `from_front` and `from_back` with an excessive count never panic, whatever the chunk; either
the call itself is undefined behaviour, or it returns, and then looking at what is left in the source is. -/
theorem C22_release_partial (hN : 2 * N < E.W) (h : View E N c l) (n : Nat) (hn : l.length < n) (hW : n < E.W) (hd : E.debug = false) :
    (fromFront E N n c = .ub ∨ ∃ d s, fromFront E N n c = .ok d s ∧ asSlice E N s = .ub) ∧
    (fromBack E N n c = .ub ∨ ∃ d s, fromBack E N n c = .ok d s ∧ asSlice E N s = .ub) := by
  obtain ⟨h1, h2, h3⟩ := h.rep hN
  have hp : 0 < n := by omega
  have hlen : c.left ≤ c.right := by omega
  -- a chunk whose bounds have been swapped cannot be looked at
  have bad : ∀ (a b : Nat) (m : Mem A), b < a → a ≤ N → asSlice E N (⟨a, b, m⟩ : Chunk A) = .ub := by
    intro a b m hab ha
    have g1 : ¬ a ≤ b := by omega
    have g2 : ¬ a + (b + E.W - a) ≤ N := by omega
    simp [asSlice, len, getMem, getLeft, getRight, usub, hd, g1, memSlice, g2, M.ub]
  constructor
  · by_cases hf : c.left + n ≤ N
    · have hb : n ≤ N := by omega
      have hs : c.left + n < E.W := by omega
      refine .inr ⟨⟨0, n, c.mem.blit c.left Mem.uninit 0 n⟩, ⟨c.left + n, c.right, c.mem⟩, ?_, bad _ _ _ (by omega) hf⟩
      simp [fromFront, withNew, len, usub, hlen, M.debugAssert, hd, forceCopyTo, hp, getLeft, getRight, getMem, setLeft, setRight, setMem,
        memCopy, hf, hb, new, uadd, hs]
    · left
      simp [fromFront, withNew, len, usub, hlen, M.debugAssert, hd, forceCopyTo, hp, getLeft, getRight, getMem, memCopy, hf, M.ub, new]
  · by_cases hr : n ≤ c.right
    · have hb : n ≤ N := by omega
      refine .inr ⟨⟨0, n, c.mem.blit (c.right - n) Mem.uninit 0 n⟩, ⟨c.left, c.right - n, c.mem⟩, ?_, bad _ _ _ (by omega) (by omega)⟩
      simp [fromBack, withNew, len, usub, hlen, hr, M.debugAssert, hd, forceCopyTo, hp, getLeft, getRight, getMem, setRight, setMem,
        memCopy, h2, hb, new]
    · have hf : ¬ c.right + E.W - n + n ≤ N := by omega
      left
      simp [fromBack, withNew, len, usub, hlen, hr, M.debugAssert, hd, forceCopyTo, hp, getLeft, getRight, getMem, memCopy, hf, M.ub, new]

/-- C22 (`C22_release_partial`) is not vacuous: three items are asked of `[10, 20]`. -/
example : View rel64 3 edge [10, 20] ∧ [10, 20].length < 3 ∧ rel64.debug = false := ⟨rfl, by decide, rfl⟩

/-! ### C12 -/

/-- Writing more items than there is room for leaves the storage. -/
theorem writeLoop_ub (n w : Nat) (xs : List A) (hw : N < w + n) (h0 : 0 < n) (hn : n ≤ xs.length) (hE : N < E.W) (s : Chunk A × List A) :
    writeLoop E N dp n (It.ofList xs) w s = .ub := by
  induction n generalizing w xs s with
  | zero => omega
  | succ n ih =>
    cases xs with
    | nil => simp at hn
    | cons a xs =>
      by_cases h : w < N
      · have h' : w + 1 < E.W := by omega
        have := ih (w + 1) xs (by omega) (by omega) (by simpa using hn)
        simp [It.ofList] at this
        simp [It.ofList, writeLoop, forceWrite, getMem, setMem, memWrite, h, uadd, h', this]
      · simp [It.ofList, writeLoop, forceWrite, getMem, memWrite, h, M.ub]

theorem writeFromIter_ub (hd : E.debug = false) (w : Nat) (xs : List A) (hn : N < xs.length) (hE : N < E.W) (s : Chunk A × List A) :
    writeFromIter E N dp w (some xs.length) (It.ofList xs) s = .ub := by
  have hu : ∀ t : Chunk A × List A, ∃ r, uadd E w xs.length t = .ok r t := by
    intro t
    unfold uadd
    split
    · exact ⟨_, rfl⟩
    · exact ⟨_, by simp [hd]; rfl⟩
  obtain ⟨r, hr⟩ := hu (⟨0, 0, s.1.mem⟩, s.2)
  unfold writeFromIter
  simp only [M.lenCall_some]
  simp [getLeft, getRight, setLeft, setRight, M.onUnwind, hr, writeLoop_ub (E := E) (dp := dp) xs.length w xs (by omega) (by omega) (by omega) hE]

theorem forceCopy_ok_or_ub (a b n : Nat) (s : Chunk A) : OkOrUb (forceCopy N a b n s) := by
  unfold forceCopy
  by_cases h : 0 < n
  · by_cases h' : a + n ≤ N ∧ b + n ≤ N
    · right; exact ⟨(), ⟨s.left, s.right, s.mem.blit a s.mem b n⟩, by simp [h, getMem, setMem, memCopy, h']⟩
    · left; simp [h, getMem, memCopy, h', M.ub]
  · right; exact ⟨(), s, by simp [h]⟩

/-- C12, exactly how it fails: in release builds an honest iterator whose items do not fit is refused (`C12_refuses_partial`) unless the sum of
the lengths wraps around to at most the capacity; then, for every chunk and every index in range, the call is undefined behaviour. -/
theorem C12_overflow_partial (hN : 2 * N < E.W) (h : View E N c l) (i : Nat) (xs log : List A) (hd : E.debug = false) (hi : i ≤ l.length)
    (hb : N < l.length + xs.length) (hw : (l.length + xs.length) % E.W ≤ N) :
    insertFrom E N dp i ⟨some xs.length, some xs.length, It.ofList xs⟩ (c, log) = .ub := by
  obtain ⟨h1, h2, h3⟩ := h.rep hN
  have hov : E.W ≤ l.length + xs.length := by
    apply Nat.le_of_not_lt
    intro hlt
    rw [Nat.mod_eq_of_lt hlt] at hw
    omega
  have hl : len E c = .ok l.length c := by
    simp [len, getLeft, getRight, usub, h1]
  have hc : insertFromChecks E N i xs.length c = .ok () c := by
    have g1 : ¬ l.length + xs.length < E.W := by omega
    have g2 : ¬ N < (l.length + xs.length) % E.W := by omega
    have g3 : ¬ l.length < i := by omega
    simp [insertFromChecks, hl, uadd, g1, hd, M.panicIf, g2, g3]
  have hbig : N < xs.length := by omega
  have hwr := fun w s => writeFromIter_ub (E := E) (N := N) (dp := dp) hd w xs hbig (by omega) s
  have hsub : ∀ {σ : Type} (a b : Nat) (t : σ), OkOrUb (usub E a b t) := by
    intro σ a b t
    unfold usub
    split
    · exact .inr ⟨_, _, rfl⟩
    · rw [hd]; exact .inr ⟨_, _, rfl⟩
  have hadd : ∀ {σ : Type} (a b : Nat) (t : σ), OkOrUb (uadd E a b t) := by
    intro σ a b t
    unfold uadd
    split
    · exact .inr ⟨_, _, rfl⟩
    · rw [hd]; exact .inr ⟨_, _, rfl⟩
  have hget : ∀ s : Chunk A × List A, OkOrUb (M.onFst (getLeft (A := A)) s) ∧ OkOrUb (M.onFst (getRight (A := A)) s) :=
    fun s => ⟨.inr ⟨_, _, rfl⟩, .inr ⟨_, _, rfl⟩⟩
  have hgl : ∀ s : Chunk A, OkOrUb (getLeft s) := fun s => .inr ⟨_, _, rfl⟩
  unfold insertFrom
  simp only [M.lenCall_some]
  refine ub_bind (.inr ⟨(), (c, log), ?_⟩) fun _ s => ?_
  · simp [M.onUnwind, hc]
  refine ub_bind (hget s).1 fun _ s => ub_bind (hadd _ _ _) fun _ s => ub_bind (hget s).2 fun _ s => ub_bind (hsub _ _ _) fun _ s =>
    ub_bind (hget s).2 fun _ s => ub_bind (hget s).1 fun _ s => ?_
  split
  · refine ub_bind (.onFst ?_) fun _ s => ub_bind (hsub _ _ _) fun _ s => by simp [M.bind_run, hwr]
    exact (hgl _).bind fun _ s => (hgl _).bind fun _ s => (hsub _ _ _).bind fun _ s => forceCopy_ok_or_ub _ _ _ _
  · refine ub_bind (hget s).1 fun _ s => ub_bind (hget s).2 fun _ s => ub_bind (hadd _ _ _) fun _ s => ?_
    split
    · refine ub_bind (.onFst ?_) fun _ s => by simp [M.bind_run, hwr]
      exact (hadd _ _ _).bind fun _ s => forceCopy_ok_or_ub _ _ _ _
    · refine ub_bind (.onFst ?_) fun _ s => by simp [M.bind_run, hwr]
      exact (hgl _).bind fun _ s => (forceCopy_ok_or_ub _ _ _ _).bind fun _ s => (hadd _ _ _).bind fun _ s => forceCopy_ok_or_ub _ _ _ _

/-- C12 (`C12_overflow_partial`) is not vacuous: a `usize` of four bits, a chunk of two items, 14 items coming. -/
example : View ⟨16, false⟩ 3 edge [10, 20] ∧ 2 * 3 < 16 ∧ ([10, 20].length + (List.replicate 14 7).length) % 16 ≤ 3 := ⟨rfl, by decide, by decide⟩

end Verif.Chunk

namespace Verif.Inline
variable {A : Type} [DecidableEq A] {E : Env} {L : Layout A} {dp dp' : A → Bool} {cl : A → Option A} {s : Inline A} {l : List A}

/-- C62, exactly how it fails, for every array: a destructor that panics inside `clear` leaves an array that still shows everything, and
destroys it all once more when it is dropped. -/
theorem C62_destroys_again_partial (hv : L.Valid E) (hr : Reachable E L dp cl s) (h : View E L s l) (log : List A) :
    DestroysAgain (View E L) dp' (drop E L dp') l l log (clear E L dp' (s, log)) :=
  .of_ref (clear_ref hv (hr.rep_of_view hv h) dp' log) (fun _ hs => hs.view hv) fun _ log hs => .of_ref (drop_ref hv hs dp' log)

/-- C62 is not vacuous: the destructor of 20 panics inside `clear` of `[10, 20, 30]`. -/
example : Reachable Chunk.dbg64 words (fun _ => false) some three ∧ View Chunk.dbg64 words three [10, 20, 30] ∧
    [10, 20, 30].countP (fun a : Nat => a == 20) = 1 := ⟨three_spec.1, three_spec.2, rfl⟩

end Verif.Inline

namespace Verif.Ring
variable {A : Type} {E : Env} {N : Nat} {dp : A → Bool} {c : Ring A} {l : List A}
open Chunk (dbg64 rel64)

/-- C35, exactly how it fails, for every buffer: a destructor that panics inside `clear`, `drop_left` or `drop_right` leaves a buffer that
still shows everything, and destroys the items, with those already destroyed, once more when it is dropped (again up to the one
that panics). -/
theorem C35_destroys_again_partial (hN : 0 < N) (hW : 2 * N < E.W) (h : View E N c l) (log : List A) (i : Nat) (hi : i ≤ l.length) :
    DestroysUpToAgain (View E N) dp (drop E N dp) l l log (clear E N dp (c, log)) ∧
    DestroysUpToAgain (View E N) dp (drop E N dp) (l.take i) l log (dropLeft E N dp i (c, log)) ∧
    DestroysUpToAgain (View E N) dp (drop E N dp) (l.drop i) l log (dropRight E N dp i (c, log)) := by
  have h0 := clear_ref hN hW dp (h.rep hW) log
  have h1 := dropLeft_ref hW dp i (h.rep hW) log
  have h2 := dropRight_ref hW dp i (h.rep hW) log
  rw [Spec.dropLeftSeq, if_pos hi] at h1
  rw [Spec.dropRightSeq, if_pos hi] at h2
  have hv : ∀ s, Rep N s l → View E N s l := fun s hs => hs.view hW
  have ha : ∀ (s : Ring A) log, Rep N s l → DestroysUpTo dp l log (drop E N dp (s, log)) :=
    fun s log hs => (C88_drop_and_clear_partial hN hW (hs.view hW) dp log).1
  exact ⟨.of_ref h0 hv ha, .of_ref h1 hv ha, .of_ref h2 hv ha⟩

/-- C35 is not vacuous: the destructor of 20 panics. -/
example : View dbg64 3 full [10, 20, 30] ∧ [10, 20, 30] = [10] ++ 20 :: [30] ∧ (fun a => a == 20) 20 = true :=
  ⟨⟨rfl, by decide, by decide⟩, rfl, rfl⟩

/-- C32, exactly how it fails: at the end of a buffer, once the announced length has been accepted, `insert_from` is `extend`, whatever the
iterator does. -/
theorem C32_at_end_partial (hW : 2 * N < E.W) (h : View E N c l) (n : Nat) (it : It A) (log : List A) (hn : l.length + n ≤ N) :
    insertFrom E N dp l.length n it (c, log) = extend E N dp it (c, log) := by
  have hr := h.rep hW
  have h1 : l.length + n < E.W := by omega
  have h2 : ¬ N < l.length + n := by omega
  simp [insertFrom, M.lenCall, insertFromChecks, M.onUnwind, getLen, hr.len, uadd, h1, h2, M.panicIf]

/-- C32 is not vacuous: one item is announced to a buffer with room for one. -/
example : View dbg64 3 seam [10, 20] ∧ [10, 20].length + 1 ≤ 3 := ⟨⟨rfl, by decide, by decide⟩, by decide⟩

/-- C74, exactly how it fails, for every buffer and every split: where the left half is indexed beyond its end, but inside the buffer, it
yields a reference to the slot that the right half yields at the corresponding index. -/
theorem C74_halves_alias_partial (hW : 2 * N < E.W) (h : View E N c l) {a b i : Nat} (h1 : a ≤ b) (hi : i ≤ b - a)
    (j : Nat) (hj : a + i + j < l.length) :
    ∃ s t p, splitAt E ⟨a, b⟩ i c = .ok (s, t) c ∧ sliceLen E s c = .ok i c ∧ sliceIndexMut E N s (i + j) c = .ok p c ∧
      sliceIndexMut E N t j c = .ok p c ∧ c.mem p = l[a + i + j]? := by
  have hr := h.rep hW
  have hle := hr.le
  have e1 : a + i < E.W := by omega
  have e2 : a + (i + j) < E.W := by omega
  have e3 : a + i + j < E.W := by omega
  have hs : a ≤ a + i := by omega
  have hni : ¬ b - a < i := by omega
  have hj' : a + (i + j) < l.length := by omega
  refine ⟨⟨a, a + i⟩, ⟨a + i, b⟩, ridx N c.origin (a + i + j), ?_, ?_, ?_, ?_, ?_⟩
  · simp [splitAt, sliceLen, usub, h1, M.panicIf, hni, uadd, e1]
  · simp [sliceLen, usub]
  · simp [sliceIndexMut, uadd, e2, indexMut_eq hW hr, hj', Nat.add_assoc]
  · simp [sliceIndexMut, uadd, e3, indexMut_eq hW hr, hj]
  · have := hr.cell _ hj
    rwa [lm, if_pos (by omega)] at this

/-- C74 (`C74_halves_alias_partial`) is not vacuous: all three items are split after the first, the left half is indexed at 1. -/
example : View dbg64 3 full [10, 20, 30] ∧ 1 ≤ 3 - 0 ∧ 0 + 1 + 0 < [10, 20, 30].length := ⟨⟨rfl, by decide, by decide⟩, by decide, by decide⟩

/-- C76, exactly what holds in every build: `write_all` panics only in debug builds and only when the bytes that fit would wrap around the end
of the storage, and then without changing the buffer; in every other case it stores the leading bytes that fit and succeeds exactly if all do. -/
theorem C76_write_all_or_panic_partial (hW : 2 * N < E.W) (h : View E N c l) (buf : List A) :
    let wraps := E.debug = true ∧ N < (c.origin + l.length) % N + min buf.length (N - l.length)
    (¬ wraps → Returns (View E N) (Io.writeAll (write E N) buf c) (decide (buf.length ≤ N - l.length)) (l ++ buf.take (N - l.length))) ∧
    (wraps → Io.writeAll (write E N) buf c = .panic c) := by
  intro wraps
  obtain ⟨w1, w2⟩ := C41_write_or_panic_partial hW h buf
  have hr := h.rep hW
  have horg := hr.org
  by_cases h0 : min buf.length (N - l.length) = 0
  · -- nothing to store or no room
    have hnw : ¬ wraps := by
      rintro ⟨_, hw⟩
      rw [h0] at hw
      have := Nat.mod_lt (c.origin + l.length) (Nat.lt_of_le_of_lt (Nat.zero_le _) horg)
      omega
    obtain ⟨s, e, hs⟩ := w1 hnw
    refine ⟨fun _ => ?_, fun hw => absurd hw hnw⟩
    cases hb : buf with
    | nil => exact ⟨c, by simp [Io.writeAll, Io.writeLoop], by simpa using h⟩
    | cons x xs =>
      rw [← hb]
      refine ⟨s, ?_, hs⟩
      have hne : buf.isEmpty = false := by simp [hb]
      have hpos : 0 < buf.length := by simp [hb]
      have hn : ¬ buf.length ≤ N - l.length := by omega
      simp [Io.writeAll, Io.writeLoop, hne, M.bind_run, e, h0, hn]
  · have hpos : 0 < buf.length := by omega
    have hN : 0 < N := by omega
    have hne : buf.isEmpty = false := by cases buf <;> simp_all
    refine ⟨fun hnw => ?_, fun hw => ?_⟩
    · obtain ⟨s, e, hs⟩ := w1 hnw
      have hgt : ¬ buf.length < min buf.length (N - l.length) := by omega
      by_cases hfit : buf.length ≤ N - l.length
      · refine ⟨s, ?_, hs⟩
        rw [Nat.min_eq_left hfit] at e h0 hgt
        obtain ⟨k, hk⟩ : ∃ k, buf.length = k + 1 := ⟨buf.length - 1, by omega⟩
        simp [Io.writeAll, Io.writeLoop, hne, M.bind_run, e, M.panicIf, hk]
        omega
      · rw [Nat.min_eq_right (by omega)] at e h0 hgt
        -- the second write finds no room
        have hl' : (l ++ buf.take (N - l.length)).length = N := by simp; omega
        obtain ⟨v1, _⟩ := C41_write_or_panic_partial hW hs (buf.drop (N - l.length))
        rw [hl', Nat.sub_self, Nat.min_zero] at v1
        obtain ⟨s', e', hs'⟩ := v1 (by
          rintro ⟨_, hw⟩
          have := Nat.mod_lt (s.origin + N) hN
          omega)
        refine ⟨s', ?_, by simpa using hs'⟩
        have hne' : (buf.drop (N - l.length)).isEmpty = false := by
          rw [List.isEmpty_eq_false_iff]
          intro hnil
          have := congrArg List.length hnil
          simp at this
          omega
        obtain ⟨k, hk⟩ : ∃ k, buf.length = k + 1 := ⟨buf.length - 1, by omega⟩
        simp only [Io.writeAll, hk]
        simp only [Io.writeLoop, hne, hne', M.bind_run, e, e', Out.andThen_ok, M.panicIf, M.ite_run, Bool.false_eq_true, if_false, if_neg h0, gt_iff_lt, if_neg hgt,
          M.pure_run, if_true]
        rw [hk] at hfit
        simp [hfit]
    · simp [Io.writeAll, Io.writeLoop, hne, M.bind_run, w2 hw]

/-- C76 (`C76_write_all_or_panic_partial`) is not vacuous: two bytes that wrap around, and one that does not. -/
example : View dbg64 3 (⟨1, 1, Mem.uninit.put 1 7⟩ : Ring Nat) [7] ∧ 3 < (1 + 1) % 3 + min 2 (3 - 1) ∧ ¬ 3 < (1 + 1) % 3 + min 1 (3 - 1) :=
  ⟨⟨rfl, by decide, by decide⟩, by decide, by decide⟩

end Verif.Ring
