import Verif.Props.Moves
import Verif.Props.ChunkBulk
import Verif.Props.RingBulk
/-
C83, C84: how many slots of storage the calls that move many items rewrite.
-/
namespace Verif
variable {A : Type}

theorem Mem.Rewritten.putList {N k : Nat} {m m' : Mem A} (h : Mem.Rewritten N k m m') (w : Nat) (xs : List A) :
    Mem.Rewritten N (k + xs.length) m (m'.putList w xs) := by
  induction xs generalizing k m' w with
  | nil => simpa [Mem.putList_nil] using h
  | cons a r ih =>
    rw [← Mem.putList_cons]
    exact (ih (h.put w a) (w + 1)).mono (by simp; omega)

theorem Mem.Rewritten.trans {N k k' : Nat} {m m' m'' : Mem A} (h : Mem.Rewritten N k m m') (h' : Mem.Rewritten N k' m' m'') :
    Mem.Rewritten N (k + k') m m'' := by
  obtain ⟨s, h1, h2⟩ := h
  obtain ⟨s', h1', h2'⟩ := h'
  refine ⟨s ++ s', by simp; omega, fun j hj hn => ?_⟩
  simp only [List.mem_append, not_or] at hn
  rw [h2' j hj hn.2, h2 j hj hn.1]

theorem Mem.Rewritten.blit {N n : Nat} (src dst : Mem A) (f t : Nat) : Mem.Rewritten N n dst (src.blit f dst t n) :=
  Mem.Rewritten.of_range (a := t) (n := n) (Nat.le_refl _) fun j hj => by
    simp only [Mem.blit]; rw [if_neg hj]

theorem le_length_of_all_mem (n : Nat) (slots : List Nat) (h : ∀ j, j < n → j ∈ slots) : n ≤ slots.length := by
  induction n generalizing slots with
  | zero => omega
  | succ n ih =>
    have h1 := h n (by omega)
    have := ih (slots.erase n) fun j hj => (List.mem_erase_of_ne (by omega)).2 (h j (by omega))
    rw [List.length_erase_of_mem h1] at this
    have := List.length_pos_of_mem h1
    omega

/-- If every slot changes, all of them are rewritten. -/
theorem Mem.Rewritten.all {N k : Nat} {m m' : Mem A} (h : Mem.Rewritten N k m m') (hc : ∀ j, j < N → m' j ≠ m j) : N ≤ k := by
  obtain ⟨s, h1, h2⟩ := h
  refine Nat.le_trans (le_length_of_all_mem N s fun j hj => ?_) h1
  exact Decidable.byContradiction fun hn => hc j hj (h2 j hj hn)

end Verif

namespace Verif.Chunk
variable {A : Type} {E : Env} {N : Nat} {dp : A → Bool} {c : Chunk A} {l : List A}

/-- C83 (partial: the documented bound does not hold, see the counterexample).  `insert_from(i, iter)` of `n` items writes them and
moves: the items before `i` when the last slot is taken, or when the new items fit in front and that is the shorter side; else the items
from `i` on when they fit behind; else every item. -/
theorem C83_insert_from_partial (hN : 2 * N < E.W) (h : View E N c l) (i n : Nat) (it : It A) (log : List A) {s : Chunk A × List A}
    (hn : N + n < E.W) (e : insertFrom E N dp i ⟨n, n, it⟩ (c, log) = .ok () s) :
    (c.right = N ∨ n ≤ c.left ∧ i < l.length - i → Mem.Rewritten N (i + n) c.mem s.1.mem) ∧
    (c.right < N → c.left < n ∨ l.length - i ≤ i → c.left = 0 ∨ c.right + n ≤ N → Mem.Rewritten N (l.length - i + n) c.mem s.1.mem) ∧
    Mem.Rewritten N (l.length + n) c.mem s.1.mem := by
  have hs : Sat (insertFrom E N dp i ⟨n, n, it⟩ (c, log)) (fun _ s =>
      (c.right = N ∨ n ≤ c.left ∧ i < l.length - i → Mem.Rewritten N (i + n) c.mem s.1.mem) ∧
      (c.right < N → c.left < n ∨ l.length - i ≤ i → c.left = 0 ∨ c.right + n ≤ N → Mem.Rewritten N (l.length - i + n) c.mem s.1.mem) ∧
      Mem.Rewritten N (l.length + n) c.mem s.1.mem) (fun _ => True) True := by
    obtain ⟨h1, h2, h3⟩ := h.rep hN
    unfold insertFrom
    simp only [M.lenCall_some]
    apply Sat.bind
    apply Sat.onUnwind
    apply Sat.onFst
    unfold insertFromChecks
    have fin : Sat (dropSlice dp it.owned (c, log)) (fun _ _ => True) (fun _ => True) True := by
      apply Sat.unwindDrop (P := fun _ => True) <;> intros <;> trivial
    vc
    all_goals first | exact fin | skip
    all_goals
      refine Sat.imp (writeFromIter_sat (by omega) dp n it _ _ log (by omega)) ?_ (fun _ _ => trivial) (fun _ => trivial)
      rintro _ ⟨c', log'⟩ ⟨q1, q2, q3, q4⟩
      simp only at q2 q3
      subst q2
      have hlen : (it.items.take n).length = n := by simp; omega
      vc
    · have := (Mem.Rewritten.blit (N := N) (n := i) c.mem c.mem c.left (c.left - n)).putList (i + c.left - n) (it.items.take n)
      rw [hlen] at this
      exact ⟨fun _ => this, fun _ _ _ => by omega, this.mono (by omega)⟩
    · have := (Mem.Rewritten.blit (N := N) (n := c.right - (i + c.left)) c.mem c.mem (i + c.left) (i + c.left + n)).putList (i + c.left) (it.items.take n)
      rw [hlen] at this
      exact ⟨fun _ => by omega, fun _ _ _ => this.mono (by omega), this.mono (by omega)⟩
    · have := ((Mem.Rewritten.blit (N := N) (n := i) c.mem c.mem c.left 0).trans
        (Mem.Rewritten.blit (N := N) (n := c.right - (i + c.left)) (c.mem.blit c.left c.mem 0 i) (c.mem.blit c.left c.mem 0 i) (i + c.left) (i + n))).putList i (it.items.take n)
      rw [hlen] at this
      exact ⟨fun _ => by omega, fun _ _ _ => by omega, this.mono (by omega)⟩
  rw [e] at hs
  exact hs

/-- C83, the bound that is documented ("O(m+n) where m is the number of elements inserted and n is the number of elements following the
index") does not hold: however large `K`, there is a chunk for which inserting one item at the end, where no element follows, rewrites
more than `K` slots. -/
theorem C83_insert_from_counterexample (K : Nat) (E : Env) (dp : Nat → Bool) (hW : 2 * (K + 2) < E.W) :
    ∃ (c : Chunk Nat) (l : List Nat) (s : Chunk Nat × List Nat), View E (K + 2) c l ∧
      insertFrom E (K + 2) dp l.length ⟨some 1, some 1, [.item 0]⟩ (c, []) = .ok () s ∧ ¬ Mem.Rewritten (K + 2) K c.mem s.1.mem := by
  let c : Chunk Nat := ⟨1, K + 2, fun j => some j⟩
  let l := List.range' 1 (K + 1)
  have hr : Rep (K + 2) c l := by
    refine ⟨by simp [c, l]; omega, by simp [c], ?_⟩
    intro j h1 h2
    simp only [c, l] at h1 h2 ⊢
    rw [List.getElem?_range' (by omega)]
    simp; omega
  have hl : l.length = K + 1 := by simp [l]
  obtain ⟨s, e, hv, -⟩ := (Ref.viewLog (E := E) (insertFrom_ref hW dp l.length 1 [.item 0] hr [] (.inr (by omega)))).of_ok
    (specInsertFrom_ok (by omega) (by simp [It.items]) (by simp [It.owned]))
  refine ⟨c, l, s, hr.view E, e, fun hc => ?_⟩
  have hr' := hv.rep hW
  simp only [It.items, List.take_length, List.drop_length] at hr'
  obtain ⟨q1, q2, q3⟩ := hr'
  simp at q1
  have := hc.all (fun j hj => by
    rw [q3 j (by omega) (by omega)]
    simp only [c, show s.1.left = 0 by omega]
    by_cases h : j < K + 1
    · rw [List.append_nil, List.getElem?_append_left (by simp; omega)]
      simp only [l, Nat.sub_zero]
      rw [List.getElem?_range' (by omega)]
      simp
    · rw [List.append_nil, List.getElem?_append_right (by omega)]
      have : j - 0 - l.length = 0 := by omega
      rw [this]
      simp; omega)
  omega

/-- C84. `drain_from_front`, `drain_from_back` and `append` leave the storage of the chunk the items come from as it is, and in the
other one write the items moved and, only when there is no room for them at that end, move the items already there. -/
theorem C84_drain_from_front (hN : 2 * N < E.W) {c d : Chunk A} {l r : List A} (h : View E N c l) (h' : View E N d r) (k : Nat)
    {s : Chunk A × Chunk A} (e : drainFromFront E N k (c, d) = .ok () s) : s.2.mem = d.mem ∧
    Mem.Rewritten N (l.length + k) c.mem s.1.mem ∧ (c.right + k ≤ N → Mem.Rewritten N k c.mem s.1.mem) := by
  have hk : N + k < E.W := by
    have := drainFromFront_ref hN (h.rep hN) (h'.rep hN) k
    rw [e] at this
    obtain ⟨t, q, -⟩ := this
    simp only [Spec.drainFromFront] at q
    split at q
    · obtain ⟨h1, h2, -⟩ := h'.rep hN
      omega
    · cases q
  have hs : Sat (drainFromFront E N k (c, d)) (fun _ s => s.2.mem = d.mem ∧
      Mem.Rewritten N (l.length + k) c.mem s.1.mem ∧ (c.right + k ≤ N → Mem.Rewritten N k c.mem s.1.mem)) (fun _ => True) False := by
    obtain ⟨h1, h2, h3⟩ := h.rep hN
    obtain ⟨g1, g2, g3⟩ := h'.rep hN
    unfold drainFromFront
    vc
    · have := (Mem.Rewritten.blit (N := N) (n := c.right - c.left) c.mem c.mem c.left 0).trans
        (Mem.Rewritten.blit (n := k) d.mem (c.mem.blit c.left c.mem 0 (c.right - c.left)) d.left (c.right - c.left))
      exact ⟨rfl, this.mono (by omega), fun _ => by omega⟩
    · have := Mem.Rewritten.blit (N := N) (n := k) d.mem c.mem d.left c.right
      exact ⟨rfl, this.mono (by omega), fun _ => this⟩
  rw [e] at hs
  exact hs

@[inherit_doc C84_drain_from_front]
theorem C84_drain_from_back (hN : 2 * N < E.W) {c d : Chunk A} {l r : List A} (h : View E N c l) (h' : View E N d r) (k : Nat)
    {s : Chunk A × Chunk A} (e : drainFromBack E N k (c, d) = .ok () s) : s.2.mem = d.mem ∧
    Mem.Rewritten N (l.length + k) c.mem s.1.mem ∧ (k ≤ c.left → Mem.Rewritten N k c.mem s.1.mem) := by
  have hk : N + k < E.W := by
    have := drainFromBack_ref hN (h.rep hN) (h'.rep hN) k
    rw [e] at this
    obtain ⟨t, q, -⟩ := this
    simp only [Spec.drainFromBack] at q
    split at q
    · obtain ⟨h1, h2, -⟩ := h'.rep hN
      omega
    · cases q
  have hs : Sat (drainFromBack E N k (c, d)) (fun _ s => s.2.mem = d.mem ∧
      Mem.Rewritten N (l.length + k) c.mem s.1.mem ∧ (k ≤ c.left → Mem.Rewritten N k c.mem s.1.mem)) (fun _ => True) False := by
    obtain ⟨h1, h2, h3⟩ := h.rep hN
    obtain ⟨g1, g2, g3⟩ := h'.rep hN
    unfold drainFromBack
    vc
    · have := (Mem.Rewritten.blit (N := N) (n := c.right - c.left) c.mem c.mem c.left (N - (c.right - c.left))).trans
        (Mem.Rewritten.blit (n := k) d.mem (c.mem.blit c.left c.mem (N - (c.right - c.left)) (c.right - c.left)) (d.right - k)
          (N - (c.right - c.left) - k))
      exact ⟨rfl, this.mono (by omega), fun _ => by omega⟩
    · have := Mem.Rewritten.blit (N := N) (n := k) d.mem c.mem (d.right - k) (c.left - k)
      exact ⟨rfl, this.mono (by omega), fun _ => this⟩
  rw [e] at hs
  exact hs

@[inherit_doc C84_drain_from_front]
theorem C84_append (hN : 2 * N < E.W) {c d : Chunk A} {l r : List A} (h : View E N c l) (h' : View E N d r)
    {s : Chunk A × Chunk A} (e : append E N (c, d) = .ok () s) : s.2.mem = d.mem ∧
    Mem.Rewritten N (l.length + r.length) c.mem s.1.mem ∧ (c.right + r.length ≤ N → Mem.Rewritten N r.length c.mem s.1.mem) := by
  have hs : Sat (append E N (c, d)) (fun _ s => s.2.mem = d.mem ∧
      Mem.Rewritten N (l.length + r.length) c.mem s.1.mem ∧ (c.right + r.length ≤ N → Mem.Rewritten N r.length c.mem s.1.mem))
      (fun _ => True) False := by
    obtain ⟨h1, h2, h3⟩ := h.rep hN
    obtain ⟨g1, g2, g3⟩ := h'.rep hN
    unfold append
    vc
    · have := (Mem.Rewritten.blit (N := N) (n := c.right - c.left) c.mem c.mem c.left 0).trans
        (Mem.Rewritten.blit (n := d.right - d.left) d.mem (c.mem.blit c.left c.mem 0 (c.right - c.left)) d.left (c.right - c.left))
      exact ⟨rfl, this.mono (by omega), fun _ => by omega⟩
    · have := Mem.Rewritten.blit (N := N) (n := d.right - d.left) d.mem c.mem d.left c.right
      exact ⟨rfl, this.mono (by omega), fun _ => this.mono (by omega)⟩
  rw [e] at hs
  exact hs

/-- C84. `split_off(i)` leaves the storage of the chunk as it is, and writes to the new one no more than the items moved. -/
theorem C84_split_off (hN : 2 * N < E.W) (h : View E N c l) (i : Nat) {d s : Chunk A} (e : splitOff E N i c = .ok d s) :
    s.mem = c.mem ∧ Mem.Rewritten N (l.length - i) Mem.uninit d.mem := by
  have hs : Sat (splitOff E N i c) (fun d s => s.mem = c.mem ∧ Mem.Rewritten N (l.length - i) Mem.uninit d.mem) (fun _ => True) False := by
    obtain ⟨h1, h2, h3⟩ := h.rep hN
    unfold splitOff
    vc
    · exact ⟨rfl, Mem.Rewritten.none ..⟩
    · exact ⟨rfl, (Mem.Rewritten.blit ..).mono (k := c.right - (c.left + i)) (by omega)⟩
  rw [e] at hs
  exact hs

/-- C83 and C84 are not vacuous: a chunk of 3 in the middle of 6 slots takes two items at position 1, and a full chunk gives it two from
either end. -/
example : View dbg64 6 (⟨2, 5, ((Mem.uninit.put 2 10).put 3 20).put 4 30⟩ : Chunk Nat) [10, 20, 30] ∧
    (insertFrom dbg64 6 (fun _ => false) 1 ⟨some 2, some 2, [.item 7, .item 8]⟩
      ((⟨2, 5, ((Mem.uninit.put 2 10).put 3 20).put 4 30⟩ : Chunk Nat), [])).seen = some () ∧
    (drainFromFront dbg64 6 2 ((⟨2, 5, ((Mem.uninit.put 2 10).put 3 20).put 4 30⟩ : Chunk Nat), ⟨0, 6, fun j => some j⟩)).seen = some () ∧
    (drainFromBack dbg64 6 2 ((⟨2, 5, ((Mem.uninit.put 2 10).put 3 20).put 4 30⟩ : Chunk Nat), ⟨0, 6, fun j => some j⟩)).seen = some () ∧
    (splitOff dbg64 6 1 (⟨2, 5, ((Mem.uninit.put 2 10).put 3 20).put 4 30⟩ : Chunk Nat)).isPanic = false :=
  ⟨rfl, by decide +kernel⟩

end Verif.Chunk

namespace Verif.Ring
variable {A : Type} {E : Env} {N : Nat} {dp : A → Bool} {c : Ring A} {l : List A}

theorem extend_rewritten (hW : 2 * N < E.W) (it : It A) {c : Ring A} (h1 : c.origin < N) (h2 : c.length ≤ N) (log : List A) :
    Sat (extend E N dp it (c, log)) (fun _ s => Mem.Rewritten N it.items.length c.mem s.1.mem) (fun _ => True) True := by
  induction it generalizing c log with
  | nil => simp only [extend]; apply Sat.pure; exact Mem.Rewritten.none ..
  | cons ev r ih =>
    have fin : ∀ (xs : List A) (s : Ring A × List A), Sat (dropSlice dp xs s) (fun _ _ => True) (fun _ => True) True := by
      intro xs s
      apply Sat.unwindDrop (P := fun _ => True) <;> intros <;> trivial
    cases ev with
    | panic =>
      simp only [extend]
      apply Sat.onUnwind
      apply Sat.panic
      exact fin ..
    | item a =>
      simp only [extend]
      apply Sat.bind
      apply Sat.onUnwind
      unfold pushBackOwned
      apply Sat.onUnwind
      apply Sat.onFst
      unfold pushBack
      vc
      · unfold dropOne
        split
        · trivial
        · exact fin ..
      · refine Sat.imp (ih (by assumption) (by simp only; omega) log) (fun _ _ q => ?_) (fun _ _ => trivial) id
        exact (((Mem.Rewritten.none N 0 _).put _ _).trans q).mono (by simp [It.items]; omega)

/-- C83. `insert_from(i, iter)` writes the new items and moves at most the items on the side of `i` that has fewer of them. -/
theorem C83_insert_from (hW : 2 * N < E.W) (h : View E N c l) (i : Nat) (it : It A) (log : List A) {s : Ring A × List A}
    (hn : N + it.items.length < E.W) (e : insertFrom E N dp i it.items.length it (c, log) = .ok () s) :
    Mem.Rewritten N (min i (l.length - i) + it.items.length) c.mem s.1.mem := by
  have hs : Sat (insertFrom E N dp i it.items.length it (c, log)) (fun _ s => Mem.Rewritten N (min i (l.length - i) + it.items.length) c.mem s.1.mem) (fun _ => True) True := by
    have h0 := h.rep hW
    obtain ⟨h1, h2, h3, h4⟩ := h.rep hW
    have fill : ∀ c' : Ring A, c'.origin < N → c'.length = l.length + it.items.length → l.length + it.items.length ≤ N → i < l.length →
        Mem.Rewritten N (min i (l.length - i)) c.mem c'.mem →
        Sat (fillGap E N dp i it.items.length it (c', log)) (fun _ s => Mem.Rewritten N (min i (l.length - i) + it.items.length) c.mem s.1.mem) (fun _ => True) True := by
      intro c' a1 a2 a3 a4 a5
      unfold fillGap
      vc
      refine Sat.imp (writeLoop_sat hW dp _ it _ i 0 _ log a1 (by omega) (by omega)) ?_ (fun _ _ => trivial) (fun _ => trivial)
      rintro k' ⟨c'', log'⟩ ⟨m, hs, hh⟩
      simp only [Nat.zero_add] at hs hh
      subst hs
      vc
      rcases hh with ⟨p1, p2, p3, p4, p5⟩ | ⟨p1, p2, p3, p4⟩
      · refine a5.trans (rewritten_of_lm a1 (a := i) (n := it.items.length) (Nat.le_refl _) fun j hj => ?_)
        rw [p3]
        simp only [Mem.putList]
        rw [if_neg]
        simpa using hj
      · omega
    have fin : Sat (dropSlice dp it.owned (c, log)) (fun _ _ => True) (fun _ => True) True := by
      apply Sat.unwindDrop (P := fun _ => True) <;> intros <;> trivial
    unfold insertFrom
    simp only [M.lenCall_some]
    apply Sat.bind
    apply Sat.onUnwind
    apply Sat.onFst
    unfold insertFromChecks
    vc
    all_goals first | exact fin | skip
    · exact Sat.imp (extend_rewritten hW it h1 (by omega) log) (fun _ _ q => q.mono (by omega)) (fun _ _ => trivial) id
    · refine sat_shiftRight hW h0 (by omega) (by omega) (fun c' a1 a2 a3 a4 a5 => ?_)
      exact fill c' a1 a2 (by omega) (by omega) (a5.mono (by omega))
    · refine sat_shiftLeft hW h0 (by omega) (by omega) (fun c' a1 a2 a3 a4 a5 => ?_)
      exact fill c' a1 a2 (by omega) (by omega) (a5.mono (by omega))
  rw [e] at hs
  exact hs

/-- C84. `drain_from_front` and `drain_from_back` (and `append`, which is `drain_from_front` of everything) leave the storage of the
buffer the items come from as it is, and write to the other one no more than the items moved. -/
theorem C84_drain_from_front (hW : 2 * N < E.W) {c d : Ring A} {l r : List A} (h : View E N c l) (h' : View E N d r) (k : Nat)
    {s : Ring A × Ring A} (e : drainFromFront E N k (c, d) = .ok () s) : s.2.mem = d.mem ∧
    Mem.Rewritten N k c.mem s.1.mem := by
  have hk : N + k < E.W := by
    have := drainFromFront_ref hW (h.rep hW) (h'.rep hW) k
    rw [e] at this
    obtain ⟨t, q, -⟩ := this
    simp only [Spec.drainFromFront] at q
    split at q
    · obtain ⟨h1, h2, h3, -⟩ := h'.rep hW
      omega
    · cases q
  have hs : Sat (drainFromFront E N k (c, d)) (fun _ s => s.2.mem = d.mem ∧ Mem.Rewritten N k c.mem s.1.mem) (fun _ => True) False := by
    obtain ⟨h1, h2, h3, h4⟩ := h.rep hW
    obtain ⟨g1, g2, g3, g4⟩ := h'.rep hW
    unfold drainFromFront
    vc
    rw [← ridx_zero g1]
    refine sat_copyFrom hW g1 h1 (by omega) (by omega) ?_
    intro m hm
    vc
    refine ⟨rfl, rewritten_of_lm h1 (a := c.length) (n := k) (Nat.le_refl _) fun j hj => ?_⟩
    rw [hm]
    simp only [Mem.blit]
    rw [if_neg hj]
  rw [e] at hs
  exact hs

@[inherit_doc C84_drain_from_front]
theorem C84_drain_from_back (hW : 2 * N < E.W) {c d : Ring A} {l r : List A} (h : View E N c l) (h' : View E N d r) (k : Nat)
    {s : Ring A × Ring A} (e : drainFromBack E N k (c, d) = .ok () s) : s.2.mem = d.mem ∧
    Mem.Rewritten N k c.mem s.1.mem := by
  have hk : N + k < E.W := by
    have := drainFromBack_ref hW (h.rep hW) (h'.rep hW) k
    rw [e] at this
    obtain ⟨t, q, -⟩ := this
    simp only [Spec.drainFromBack] at q
    split at q
    · obtain ⟨h1, h2, h3, -⟩ := h'.rep hW
      omega
    · cases q
  have hs : Sat (drainFromBack E N k (c, d)) (fun _ s => s.2.mem = d.mem ∧ Mem.Rewritten N k c.mem s.1.mem) (fun _ => True) False := by
    obtain ⟨h1, h2, h3, h4⟩ := h.rep hW
    obtain ⟨g1, g2, g3, g4⟩ := h'.rep hW
    unfold drainFromBack
    vc
    have ho : rsub N c.origin k < N := rsub_lt h1 (by omega)
    rw [← ridx_zero ho]
    refine sat_copyFrom hW g1 ho (by omega) (by omega) ?_
    intro m hm
    vc
    refine ⟨rfl, rewritten_of_lm ho (a := 0) (n := k) (Nat.le_refl _) fun j hj => ?_⟩
    rw [hm]
    simp only [Mem.blit]
    rw [if_neg hj]
  rw [e] at hs
  exact hs

/-- C84. `append` is `drain_from_front` of everything the other buffer holds. -/
theorem C84_append (hW : 2 * N < E.W) {c d : Ring A} {l r : List A} (h : View E N c l) (h' : View E N d r)
    {s : Ring A × Ring A} (e : append E N (c, d) = .ok () s) : s.2.mem = d.mem ∧ Mem.Rewritten N r.length c.mem s.1.mem := by
  have hl : d.length = r.length := (h'.rep hW).2
  have e' : drainFromFront E N r.length (c, d) = .ok () s := by rw [← hl]; exact e
  exact C84_drain_from_front hW h h' _ e'

/-- C84. `split_off(i)` leaves the storage of the buffer as it is, and writes to the new one no more than the items moved. -/
theorem C84_split_off (hW : 2 * N < E.W) (h : View E N c l) (i : Nat) (log : List A) {d : Ring A} {s : Ring A × List A}
    (e : splitOff E N dp i (c, log) = .ok d s) : s.1.mem = c.mem ∧ Mem.Rewritten N (l.length - i) Mem.uninit d.mem := by
  have hs : Sat (splitOff E N dp i (c, log)) (fun d s => s.1.mem = c.mem ∧ Mem.Rewritten N (l.length - i) Mem.uninit d.mem)
      (fun _ => True) False := by
    obtain ⟨h1, h2, h3, h4⟩ := h.rep hW
    have hN : 0 < N := by omega
    unfold splitOff
    vc
    · apply sat_new hN
      exact ⟨rfl, Mem.Rewritten.none ..⟩
    · apply sat_new hN
      vc
      apply Sat.withLocal
      vc
      have e0 : ridx N 0 0 = 0 := ridx_zero hN
      rw [← e0]
      refine sat_copyFrom hW h1 hN (by omega) (by omega) ?_
      intro m hm
      vc
      refine ⟨rfl, rewritten_of_lm hN (a := 0) (n := l.length - i) (Nat.le_refl _) fun j hj => ?_⟩
      rw [hm]
      simp only [Mem.blit]
      rw [if_neg (by omega)]
  rw [e] at hs
  exact hs

/-- C83 and C84 are not vacuous: a buffer of 3 items round the seam takes two items at position 1, and another gives it two from either
end. -/
example : View Chunk.dbg64 6 (⟨4, 3, ((Mem.uninit.put 4 10).put 5 20).put 0 30⟩ : Ring Nat) [10, 20, 30] ∧
    (insertFrom Chunk.dbg64 6 (fun _ => false) 1 (some 2) [.item 7, .item 8]
      ((⟨4, 3, ((Mem.uninit.put 4 10).put 5 20).put 0 30⟩ : Ring Nat), [])).seen = some () ∧
    (drainFromFront Chunk.dbg64 6 2 ((⟨4, 3, ((Mem.uninit.put 4 10).put 5 20).put 0 30⟩ : Ring Nat), ⟨3, 6, fun j => some j⟩)).seen = some () ∧
    (drainFromBack Chunk.dbg64 6 2 ((⟨4, 3, ((Mem.uninit.put 4 10).put 5 20).put 0 30⟩ : Ring Nat), ⟨3, 6, fun j => some j⟩)).seen = some () ∧
    (splitOff Chunk.dbg64 6 (fun _ => false) 1 ((⟨4, 3, ((Mem.uninit.put 4 10).put 5 20).put 0 30⟩ : Ring Nat), [])).isPanic = false :=
  ⟨⟨rfl, by decide, by decide⟩, by decide +kernel⟩

end Verif.Ring
