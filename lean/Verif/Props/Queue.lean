import Verif.Props.Amortised
/-
C103: a `Chunk` as a queue. Items enter at one end and leave at the other, so the contents drift through the storage and have to be moved
back every time they reach the edge (push_back: src/sized_chunk/mod.rs:364-368, push_front: 343-347). How often that happens depends on how
full the chunk is.
-/
namespace Verif.Chunk
variable {A : Type} {E : Env} {N : Nat}

/-- One successful call of a queue that grows at the back. -/
def QueueStep (E : Env) (N : Nat) (c c' : Chunk A) : Prop :=
  (∃ v, pushBack E N v c = .ok () c') ∨ ∃ a, popFront E N c = .ok a c'

/-- One successful call of a queue that grows at the front. -/
def QueueStep' (E : Env) (N : Nat) (c c' : Chunk A) : Prop :=
  (∃ v, pushFront E N v c = .ok () c') ∨ ∃ a, popBack E N c = .ok a c'

theorem queue_step (hN : 2 * N < E.W) {c c' : Chunk A} {l l' : List A} {K : Nat} (h : View E N c l) (h' : View E N c' l') (hK : l'.length ≤ K) (hK' : l.length ≤ K)
    (hKN : K ≤ N) (hs : QueueStep E N c c') :
    ∃ m, Mem.Rewritten N (m + 1) c.mem c'.mem ∧ (m ≤ K - 1 ∧ (m = 0 ∧ c'.right ≤ c.right + 1 ∨ c.right = N ∧ c'.right ≤ K)) := by
  have hr := h.rep hN
  have hr' := h'.rep hN
  rcases hs with ⟨v, e⟩ | ⟨a, e⟩
  · obtain ⟨q1, q2⟩ := C72_push_back hN h v e
    have hs : Sat (pushBack E N v c) (fun _ s => s.right - s.left = l.length + 1 ∧ (c.right < N ∨ l.length = 0 → s.right ≤ c.right + 1) ∧
        (c.right = N ∧ l.length ≠ 0 → s.right = l.length + 1)) (fun _ => True) False := by
      obtain ⟨h1, h2, h3⟩ := hr
      unfold pushBack
      vc <;> omega
    rw [e] at hs
    obtain ⟨g0, g1, g2⟩ := hs
    obtain ⟨h1, h2, h3⟩ := hr
    obtain ⟨h1', h2', h3'⟩ := hr'
    by_cases hc : c.right < N ∨ l.length = 0
    · exact ⟨0, q2 hc, by omega, .inl ⟨rfl, g1 hc⟩⟩
    · have := g2 (by omega)
      exact ⟨l.length, q1, by omega, .inr (by omega)⟩
  · have hm := C72_pop hN h (.inl e)
    refine ⟨0, by rw [hm]; exact Mem.Rewritten.none .., by omega, .inl ⟨rfl, ?_⟩⟩
    have hs : Sat (popFront E N c) (fun _ s => s.right = c.right) (fun _ => True) True := by
      obtain ⟨h1, h2, h3⟩ := hr
      unfold popFront
      vc
      exact sat_forceRead (v := l[0]'(by omega)) (by omega) (by rw [h3 _ (by omega) (by omega)]; grind) (by vc)
    rw [e] at hs
    have : c'.right = c.right := hs
    omega

theorem queue_step' (hN : 2 * N < E.W) {c c' : Chunk A} {l l' : List A} {K : Nat} (h : View E N c l) (h' : View E N c' l') (hK : l'.length ≤ K) (hK' : l.length ≤ K)
    (hKN : K ≤ N) (hs : QueueStep' E N c c') :
    ∃ m, Mem.Rewritten N (m + 1) c.mem c'.mem ∧ (m ≤ K - 1 ∧ (m = 0 ∧ N - c'.left ≤ N - c.left + 1 ∨ N - c.left = N ∧ N - c'.left ≤ K)) := by
  have hr := h.rep hN
  have hr' := h'.rep hN
  rcases hs with ⟨v, e⟩ | ⟨a, e⟩
  · obtain ⟨q1, q2⟩ := C72_push_front hN h v e
    have hs : Sat (pushFront E N v c) (fun _ s => s.right - s.left = l.length + 1 ∧ (0 < c.left ∨ l.length = 0 → N - s.left ≤ N - c.left + 1) ∧
        (c.left = 0 ∧ l.length ≠ 0 → N - s.left = l.length + 1)) (fun _ => True) False := by
      obtain ⟨h1, h2, h3⟩ := hr
      unfold pushFront
      vc <;> omega
    rw [e] at hs
    obtain ⟨g0, g1, g2⟩ := hs
    obtain ⟨h1, h2, h3⟩ := hr
    obtain ⟨h1', h2', h3'⟩ := hr'
    by_cases hc : 0 < c.left ∨ l.length = 0
    · exact ⟨0, q2 hc, by omega, .inl ⟨rfl, g1 hc⟩⟩
    · have := g2 (by omega)
      exact ⟨l.length, q1, by omega, .inr (by omega)⟩
  · have hm := C72_pop hN h (.inr e)
    refine ⟨0, by rw [hm]; exact Mem.Rewritten.none .., by omega, .inl ⟨rfl, ?_⟩⟩
    have hs : Sat (popBack E N c) (fun _ s => s.left = c.left) (fun _ => True) True := by
      obtain ⟨h1, h2, h3⟩ := hr
      unfold popBack
      vc
      exact sat_forceRead (v := l[l.length - 1]'(by omega)) (by omega) (by rw [h3 _ (by omega) (by omega)]; grind) rfl
    rw [e] at hs
    have : c'.left = c.left := hs
    omega

/-- The accounting: `pos` goes up by at most one with each step and is set back from `N` to at most `K` by a dear one. -/
theorem queue_account {S : Type} {dear : S → S → Nat → Prop} {pos : S → Nat} {K : Nat} (hKN : K ≤ N) (c : Nat → S) (k : Nat) (h0 : pos (c 0) ≤ N)
    (hs : ∀ i, i < k → ∃ m, dear (c i) (c (i + 1)) m ∧
      (m ≤ K - 1 ∧ (m = 0 ∧ pos (c (i + 1)) ≤ pos (c i) + 1 ∨ pos (c i) = N ∧ pos (c (i + 1)) ≤ K))) :
    ∃ w : Nat → Nat, (∀ i, i < k → dear (c i) (c (i + 1)) (w i)) ∧
      (N - K + 1) * ((List.range k).map w).sum + (K - 1) * pos (c k) ≤ (K - 1) * (k + N) := by
  induction k with
  | zero => exact ⟨fun _ => 0, fun i hi => absurd hi (by omega), by simpa using Nat.mul_le_mul_left _ h0⟩
  | succ k ih =>
    obtain ⟨w, h1, h2⟩ := ih (fun i hi => hs i (by omega))
    obtain ⟨m, h3, h4, h5⟩ := hs k (by omega)
    refine ⟨fun i => if i = k then m else w i, fun i hi => ?_, ?_⟩
    · by_cases e : i = k
      · subst e; simpa using h3
      · simpa [e] using h1 i (by omega)
    · have he : (List.range k).map (fun i => if i = k then m else w i) = (List.range k).map w :=
        List.map_congr_left fun i hi => by
          have := List.mem_range.1 hi
          rw [if_neg (by omega)]
      rw [List.range_succ, List.map_append, List.sum_append, he]
      simp only [List.map_cons, List.map_nil, List.sum_cons, List.sum_nil, if_true, Nat.add_zero]
      generalize ((List.range k).map w).sum = s at *
      generalize hp : pos (c (k + 1)) = p at *
      generalize hq : pos (c k) = q at *
      have e1 : (K - 1) * (k + 1 + N) = (K - 1) * (k + N) + (K - 1) := by
        rw [show k + 1 + N = (k + N) + 1 by omega, Nat.mul_succ]
      rw [Nat.mul_add, e1]
      rcases h5 with ⟨rfl, h5⟩ | ⟨h5, h6⟩
      · have := Nat.mul_le_mul_left (K - 1) h5
        rw [Nat.mul_succ] at this
        omega
      · subst h5
        have a1 := Nat.mul_le_mul_left (q - K + 1) h4
        have a2 := Nat.mul_le_mul_left (K - 1) h6
        have a3 : (q - K + 1) * (K - 1) + (K - 1) * K = (K - 1) * q + (K - 1) := by
          rw [Nat.mul_comm (q - K + 1), ← Nat.mul_add, show q - K + 1 + K = q + 1 by omega, Nat.mul_succ]
        omega

/-- C103. In any run of `k` calls of `push_back` and `pop_front` (or of `push_front` and `pop_back`) in which there are never more than `K`
items, the `i`-th call moves `w i` items, besides writing the one it pushes, and the total of the `w i` is at most
`(K - 1) / (N - K + 1)` times `k + N`. -/
theorem C103_queue (hN : 2 * N < E.W) {K : Nat} (hK : K ≤ N) (k : Nat) (c : Nat → Chunk A)
    (h : ∀ i, i ≤ k → ∃ l, View E N (c i) l ∧ l.length ≤ K)
    (hc : (∀ i, i < k → QueueStep E N (c i) (c (i + 1))) ∨ (∀ i, i < k → QueueStep' E N (c i) (c (i + 1)))) :
    ∃ w : Nat → Nat, (∀ i, i < k → Mem.Rewritten N (w i + 1) (c i).mem (c (i + 1)).mem) ∧
      (N - K + 1) * ((List.range k).map w).sum ≤ (K - 1) * (k + N) := by
  obtain ⟨l0, hl0, hl0'⟩ := h 0 (by omega)
  have hr0 := hl0.rep hN
  obtain ⟨r1, r2, r3⟩ := hr0
  rcases hc with hc | hc
  · obtain ⟨w, h1, h2⟩ := queue_account (dear := fun s s' m => Mem.Rewritten N (m + 1) s.mem s'.mem) (pos := Chunk.right) hK c k (by omega) (fun i hi => by
      obtain ⟨l, hl, hl'⟩ := h i (by omega)
      obtain ⟨t, ht, ht'⟩ := h (i + 1) (by omega)
      exact queue_step hN hl ht ht' hl' hK (hc i hi))
    exact ⟨w, h1, by omega⟩
  · obtain ⟨w, h1, h2⟩ := queue_account (dear := fun s s' m => Mem.Rewritten N (m + 1) s.mem s'.mem) (pos := fun s => N - s.left) hK c k (by omega) (fun i hi => by
      obtain ⟨l, hl, hl'⟩ := h i (by omega)
      obtain ⟨t, ht, ht'⟩ := h (i + 1) (by omega)
      exact queue_step' hN hl ht ht' hl' hK (hc i hi))
    exact ⟨w, h1, by omega⟩

/-- C103. So a queue that is never more than half full moves, in all, at most one item per call, plus `N` once. -/
theorem C103_half_full (hN : 2 * N < E.W) {K : Nat} (hK : 2 * K ≤ N) (k : Nat) (c : Nat → Chunk A)
    (h : ∀ i, i ≤ k → ∃ l, View E N (c i) l ∧ l.length ≤ K)
    (hc : (∀ i, i < k → QueueStep E N (c i) (c (i + 1))) ∨ (∀ i, i < k → QueueStep' E N (c i) (c (i + 1)))) :
    ∃ w : Nat → Nat, (∀ i, i < k → Mem.Rewritten N (w i + 1) (c i).mem (c (i + 1)).mem) ∧ ((List.range k).map w).sum ≤ k + N := by
  obtain ⟨w, h1, h2⟩ := C103_queue hN (by omega) k c h hc
  refine ⟨w, h1, ?_⟩
  have h3 : (K - 1) * (k + N) ≤ (N - K + 1) * (k + N) := Nat.mul_le_mul_right _ (by omega)
  exact Nat.le_of_mul_le_mul_left (Nat.le_trans h2 h3) (by omega)

/-- A queue of up to two items in four slots: push, push, then three times pop and push. -/
def queueDemo : List (Option Nat) := [some 1, some 2, none, some 3, none, some 4, none, some 5]
/-- The chunks of such a run. -/
def queueRun (N : Nat) : List (Option Nat) → Chunk Nat → List (Chunk Nat)
  | [], c => [c]
  | some v :: r, c => c :: match pushBack dbg64 N v c with | .ok _ c' => queueRun N r c' | _ => []
  | none :: r, c => c :: match popFront dbg64 N c with | .ok _ c' => queueRun N r c' | _ => []

/-- C103 is not vacuous: the demo in four slots runs to the end, never holds more than two items, and the last `push_back`, which finds the
items 4 at the right edge, moves them to the left one. -/
example : (queueRun 4 queueDemo new).map (fun c => (c.left, c.right)) = [(0, 0), (0, 1), (0, 2), (1, 2), (1, 3), (2, 3), (2, 4), (3, 4), (0, 2)] ∧
    (queueRun 4 queueDemo new).map (fun c => match asSlice dbg64 4 c with | .ok l _ => some l | _ => none)
      = [some [], some [1], some [1, 2], some [2], some [2, 3], some [3], some [3, 4], some [4], some [4, 5]] := by decide +kernel
/-- And the bound grows with good reason: when the chunk is kept full, each `push_back` after a `pop_front` moves everything. -/
example : (queueRun 3 [some 1, some 2, some 3, none, some 4, none, some 5] new).map (fun c => [c.mem 0, c.mem 1, c.mem 2])
    = [[none, none, none], [some 1, none, none], [some 1, some 2, none], [some 1, some 2, some 3], [some 1, some 2, some 3],
       [some 2, some 3, some 4], [some 2, some 3, some 4], [some 3, some 4, some 5]] := by decide +kernel

end Verif.Chunk
