import Verif.Props.ChunkHistory
import Verif.Props.ChunkOps
import Verif.Props.RingBulk
import Verif.Props.RingSlices
import Verif.Props.SparseOps
import Verif.Props.InlineOps
/-
C88: in which order destructors run when a container (or part of it) is thrown away, and what a panicking one does to the others.
-/
namespace Verif

/-- A destructor call runs the destructors of `d` in this order: if none panics the call returns, if one panics the call panics, and in
both cases all of `d` was destroyed, and nothing else.  (`o` is the outcome of the call, `log` what was destroyed before it.) -/
def DestroysAll {σ A : Type} (dp : A → Bool) (d log : List A) (o : Out (σ × List A) Unit) : Prop :=
  ((∀ a, a ∈ d → dp a = false) → ∃ s, o = .ok () (s, log ++ d)) ∧
  (∀ pre a post, d = pre ++ a :: post → dp a = true → (∀ x, x ∈ pre → dp x = false) → (∀ x, x ∈ post → dp x = false) →
    ∃ s, o = .panic (s, log ++ d))

/-- What the code does instead where destructors are called one at a time: in this order, but the first one that panics is the last. -/
def DestroysUpTo {σ A : Type} (dp : A → Bool) (d log : List A) (o : Out (σ × List A) Unit) : Prop :=
  ((∀ a, a ∈ d → dp a = false) → ∃ s, o = .ok () (s, log ++ d)) ∧
  (∀ pre a post, d = pre ++ a :: post → dp a = true → (∀ x, x ∈ pre → dp x = false) → ∃ s, o = .panic (s, log ++ pre ++ [a]))

theorem DestroysAll.of_ref {σ A : Type} {R : σ → List A → Prop} {dp : A → Bool} {d l l' log : List A} {o : Out (σ × List A) Unit}
    (h : Ref (RelLog R) o (Spec.dropping dp d l l' log)) : DestroysAll dp d log o := by
  constructor
  · intro hd
    have : d.countP dp = 0 := by rw [List.countP_eq_zero]; intro a ha; simp [hd a ha]
    obtain ⟨⟨s, g⟩, e, -, rfl⟩ := h.of_ok (dropping_zero this _ _ _)
    exact ⟨s, e⟩
  · intro pre a post e ha h1 h2
    have : d.countP dp = 1 := by
      have p1 : pre.countP dp = 0 := by rw [List.countP_eq_zero]; intro a ha; simp [h1 a ha]
      have p2 : post.countP dp = 0 := by rw [List.countP_eq_zero]; intro a ha; simp [h2 a ha]
      rw [e, List.countP_append, List.countP_cons, p1, p2, ha]; rfl
    obtain ⟨⟨s, g⟩, e, -, rfl⟩ := h.of_panic (dropping_one this _ _ _)
    exact ⟨s, e⟩

theorem take_findIdx {A : Type} {dp : A → Bool} {pre post : List A} {a : A} (ha : dp a = true) (h : ∀ x, x ∈ pre → dp x = false) :
    (pre ++ a :: post).take ((pre ++ a :: post).findIdx dp + 1) = pre ++ [a] := by
  have : (pre ++ a :: post).findIdx dp = pre.length := by
    induction pre with
    | nil => simp [List.findIdx_cons, ha]
    | cons b pre ih =>
      simp only [List.cons_append, List.findIdx_cons, h b (by simp), cond_false, List.length_cons]
      rw [ih fun x hx => h x (by simp [hx])]
  rw [this, List.take_append, List.take_of_length_le (by omega)]
  simp

theorem DestroysUpTo.of_out {σ A : Type} {dp : A → Bool} {d log : List A} {o : Out (σ × List A) Unit}
    (h1 : d.any dp = false → ∃ s, o = .ok () (s, log ++ d))
    (h2 : d.any dp = true → ∃ s, o = .panic (s, log ++ d.take (d.findIdx dp + 1))) : DestroysUpTo dp d log o := by
  constructor
  · intro hd
    exact h1 (by simpa using hd)
  · rintro pre a post rfl ha h
    obtain ⟨s, e⟩ := h2 (by simp [ha])
    rw [take_findIdx ha h, ← List.append_assoc] at e
    exact ⟨s, e⟩

theorem DestroysUpTo.of_ref {σ A : Type} {R : σ → List A → Prop} {dp : A → Bool} {d l l' log : List A} {o : Out (σ × List A) Unit}
    (h : Ref (RelLog R) o (Spec.droppingSeq dp d l l' log)) : DestroysUpTo dp d log o := by
  refine .of_out (fun hd => ?_) fun hd => ?_
  · obtain ⟨⟨s, g⟩, e, -, rfl⟩ := h.of_ok (by rw [Spec.droppingSeq, hd]; rfl)
    exact ⟨s, e⟩
  · obtain ⟨⟨s, g⟩, e, -, rfl⟩ := h.of_panic (by rw [Spec.droppingSeq, hd]; rfl)
    exact ⟨s, e⟩

end Verif

namespace Verif.Chunk
variable {A : Type} {E : Env} {N : Nat} {c : Chunk A} {l : List A}

/-- C88. When a chunk is dropped or cleared, every element is destroyed, front to back, even if one destructor panics. -/
theorem C88_drop_and_clear (hN : 2 * N < E.W) (h : View E N c l) (dp : A → Bool) (log : List A) :
    DestroysAll dp l log (drop E N dp (c, log)) ∧ DestroysAll dp l log (clear E N dp (c, log)) :=
  ⟨.of_ref (drop_ref (E := E) dp (h.rep hN) log), .of_ref (clear_ref (E := E) dp (h.rep hN) log)⟩

/-- C88. `drop_left(i)` destroys the first `i` elements and `drop_right(i)` those from `i` on, front to back, even if one destructor
panics. -/
theorem C88_drop_part (hN : 2 * N < E.W) (h : View E N c l) (dp : A → Bool) (log : List A) (i : Nat) (hi : i ≤ l.length) :
    DestroysAll dp (l.take i) log (dropLeft E N dp i (c, log)) ∧ DestroysAll dp (l.drop i) log (dropRight E N dp i (c, log)) := by
  have h1 := dropLeft_ref (E := E) (by omega) dp i (h.rep hN) log
  have h2 := dropRight_ref (E := E) (by omega) dp i (h.rep hN) log
  rw [Spec.dropLeft, if_pos hi] at h1
  rw [Spec.dropRight, if_pos hi] at h2
  exact ⟨.of_ref h1, .of_ref h2⟩

/-- C88 is not vacuous: the destructor of 20 panics, both elements are destroyed. -/
example : View dbg64 3 edge [10, 20] ∧ drop dbg64 3 (fun a => a == 10) (edge, []) = .panic (edge, [10, 20]) := ⟨rfl, rfl⟩

end Verif.Chunk

namespace Verif.Inline
variable {A : Type} [DecidableEq A] {E : Env} {L : Layout A} {dp dp' : A → Bool} {cl : A → Option A} {s : Inline A} {l : List A}

/-- C88. When an array is dropped or cleared, every element is destroyed, front to back, even if one destructor panics. -/
theorem C88_drop_and_clear (hv : L.Valid E) (hr : Reachable E L dp cl s) (h : View E L s l) (dp' : A → Bool) (log : List A) :
    DestroysAll dp' l log (drop E L dp' (s, log)) ∧ DestroysAll dp' l log (clear E L dp' (s, log)) :=
  ⟨.of_ref (drop_ref hv (hr.rep_of_view hv h) dp' log), .of_ref (clear_ref hv (hr.rep_of_view hv h) dp' log)⟩

/-- C88 is not vacuous: `three` can be reached and holds three elements; the destructor of 20 panics, and all three are destroyed. -/
example : ∃ t, drop Chunk.dbg64 words (fun a => a == 20) (three, []) = .panic (t, [10, 20, 30]) :=
  (C88_drop_and_clear words_valid three_spec.1 three_spec.2 (fun a => a == 20) []).1.2 [10] 20 [30] rfl rfl (by simp) (by simp)

end Verif.Inline

namespace Verif.Ring
variable {A : Type} {E : Env} {N : Nat} {c : Ring A} {l : List A}
open Chunk (dbg64 rel64)

/-- C88 fails for a ring buffer: when the destructor of one element panics, the elements after it are never destroyed. -/
theorem C88_leak_counterexample : View dbg64 3 full [10, 20, 30] ∧
    (∃ s, drop dbg64 3 (fun a => a == 20) (full, []) = .panic (s, [10, 20])) := ⟨⟨rfl, by decide, by decide⟩, _, rfl⟩

/-- C88, the part that holds for a ring buffer: elements are destroyed front to back up to and including the first whose destructor
panics, and all of them if none panics. -/
theorem C88_drop_and_clear_partial (hN : 0 < N) (hW : 2 * N < E.W) (h : View E N c l) (dp : A → Bool) (log : List A) :
    DestroysUpTo dp l log (drop E N dp (c, log)) ∧ DestroysUpTo dp l log (clear E N dp (c, log)) :=
  ⟨.of_ref (drop_ref hW dp (h.rep hW) log), .of_ref (clear_ref hN hW dp (h.rep hW) log)⟩

/-- C88, the part that holds for a ring buffer: `drop_left` and `drop_right`. -/
theorem C88_drop_part_partial (hW : 2 * N < E.W) (h : View E N c l) (dp : A → Bool) (log : List A) (i : Nat) (hi : i ≤ l.length) :
    DestroysUpTo dp (l.take i) log (dropLeft E N dp i (c, log)) ∧ DestroysUpTo dp (l.drop i) log (dropRight E N dp i (c, log)) := by
  have h1 := dropLeft_ref hW dp i (h.rep hW) log
  have h2 := dropRight_ref hW dp i (h.rep hW) log
  rw [Spec.dropLeftSeq, if_pos hi] at h1
  rw [Spec.dropRightSeq, if_pos hi] at h2
  exact ⟨.of_ref h1, .of_ref h2⟩

end Verif.Ring

namespace Verif.Sparse
variable {A : Type} {N : Nat} {c : Sparse A} {m : SMap A}

/-- C88 fails for a sparse chunk: when the destructor of one element panics, the elements at higher indices are never destroyed. -/
theorem C88_leak_counterexample : View 4 sample sampleMap ∧ sampleMap.vals 4 = [20, 10] ∧
    drop 4 (fun a => a == 20) (sample, []) = .panic (sample, [20]) := ⟨sample_view, rfl, rfl⟩

/-- C88, the part that holds for a sparse chunk: elements are destroyed by ascending index up to and including the first whose
destructor panics, and all of them if none panics. -/
theorem C88_drop_partial (h : View N c m) (dp : A → Bool) (log : List A) :
    DestroysUpTo dp ((List.range N).filterMap m) log (drop N dp (c, log)) := by
  have hr := drop_ref h.rep dp log
  refine .of_out (fun hd => ?_) fun hd => ?_
  · obtain ⟨⟨s, g⟩, e, -, rfl⟩ := hr.of_ok (by simp only [MSpec.drop, SMap.vals, hd]; rfl)
    exact ⟨s, e⟩
  · obtain ⟨⟨s, g⟩, e, -, rfl⟩ := hr.of_panic (by simp only [MSpec.drop, SMap.vals, hd]; rfl)
    exact ⟨s, e⟩

end Verif.Sparse
