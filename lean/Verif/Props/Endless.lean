import Verif.Endless
import Verif.Props.Dtors
/-
C89: iterators that never end.
-/
namespace Verif
variable {A σ : Type} {R : σ → List A → Prop} {cap : Nat} {dp : A → Bool} {push : A → M (σ × List A) Unit} {dtor : M (σ × List A) Unit}

/-- `let mut c = init; for item in it { c.push(item) }; c` where the iterator may not end; the local is dropped by unwinding. -/
def gather (init : σ) (push : A → M (σ × List A) Unit) (dtor : M (σ × List A) Unit) (g : Stream A) (fuel : Nat) : M (Nat × List A) σ := do
  let r ← M.withLocal init (feed push g fuel) (M.atFst dtor)
  return r.2

theorem gather_over (hp : PushContract R cap dp push) {init : σ} (hi : R init []) (g : Stream A) (xs log : List A) (a : A) (fuel : Nat)
    (hf : cap < fuel) (hg : g.Gives 0 (xs ++ [a])) (hx : xs.length = cap) (hd : ∀ x, x ∈ xs ++ [a] → dp x = false)
    (hdt : ∀ s l log, R s l → (∀ x, x ∈ l → dp x = false) → ∃ s', dtor (s, log) = .ok () (s', log ++ l)) :
    gather init push dtor g fuel (0, log) = .panic (cap + 1, log ++ [a] ++ xs) := by
  have hs := feed_safe hp g hi (Nat.zero_le _) log fuel (by simpa using hf)
  have g1 : g.Gives 0 xs := fun i h => by
    rw [hg i (by simp; omega)]; simp [List.getElem_append_left h]
  have g2 : g xs.length = some (.item a) := by
    have := hg xs.length (by simp)
    simpa using this
  obtain ⟨s, e, hr⟩ := hs.overflows xs a g1 g2 (by simpa using hx) (hd a (by simp))
  obtain ⟨s', e'⟩ := hdt s _ (log ++ [a]) hr (fun x hx => hd x (by simp at hx; simp [hx]))
  simp only [gather, M.bind_run, M.withLocal, e, M.atFst, e', Out.mapState_ok]
  simp [hx, Out.andThen]

/-- A stream that never ends: 0, 1, 2, … -/
def naturals : Stream Nat := fun k => some (.item k)
theorem naturals_gives (n : Nat) : naturals.Gives 0 (List.range n) := fun i h => by simp [naturals]

end Verif

namespace Verif.Chunk
variable {A : Type} {E : Env} {N : Nat} {c : Chunk A} {l : List A}

/-- src/sized_chunk/mod.rs:907-914 `extend`, for an iterator that may not end; the state is the chunk, the number of `next()` calls, and
the drop log. -/
def extendEndless (E : Env) (N : Nat) (dp : A → Bool) (g : Stream A) (fuel : Nat) : M ((Chunk A × Nat) × List A) Unit :=
  feed (pushBackOwned E N dp) g fuel
/-- src/sized_chunk/mod.rs:873-882 `from_iter`, for an iterator that may not end. -/
def fromIterEndless (E : Env) (N : Nat) (dp : A → Bool) (g : Stream A) (fuel : Nat) : M (Nat × List A) (Chunk A) :=
  gather new (pushBackOwned E N dp) (drop E N dp) g fuel

theorem pushContract (hN : 2 * N < E.W) (dp : A → Bool) : PushContract (View E N) N dp (pushBackOwned E N dp) :=
  fun _ _ h a log => Ref.viewLog (pushBackOwned_ref (by omega) dp a (h.rep hN) log)

/-- C89. `extend` on any chunk with any iterator, even one that never ends: the loop ends after at most one `next()` more than there is
room for, the items that fit are appended, and one that does not fit makes it panic. -/
theorem C89_extend (hN : 2 * N < E.W) (h : View E N c l) (dp : A → Bool) (g : Stream A) (log : List A) (fuel : Nat) (hf : N < fuel) :
    EndlessSafe (View E N) N dp l log g (extendEndless E N dp g fuel ((c, 0), log)) :=
  feed_safe (pushContract hN dp) g h (h.rep hN).length_le log fuel (by omega)

/-- C89. `from_iter` with an iterator that gives more than `N` items panics after `N + 1` calls of `next()`, and all the items it took are
destroyed. -/
theorem C89_from_iter (hN : 2 * N < E.W) (dp : A → Bool) (g : Stream A) (xs log : List A) (a : A) (fuel : Nat) (hf : N < fuel)
    (hg : g.Gives 0 (xs ++ [a])) (hx : xs.length = N) (hd : ∀ x, x ∈ xs ++ [a] → dp x = false) :
    fromIterEndless E N dp g fuel (0, log) = .panic (N + 1, log ++ [a] ++ xs) :=
  gather_over (pushContract hN dp) ((Rep.empty rfl rfl : Rep N new []).view E) g xs log a fuel hf hg hx hd
    fun _ _ log h => (C88_drop_and_clear hN h dp log).1.1

/-- C89 is not vacuous: the natural numbers go into a chunk with one place left. -/
example : View dbg64 3 edge [10, 20] ∧ (∃ c, extendEndless dbg64 3 (fun _ => false) naturals 100 ((edge, 0), []) = .panic ((c, 2), [1]) ∧
    View dbg64 3 c [10, 20, 0]) ∧ fromIterEndless dbg64 2 (fun _ => false) naturals 100 (0, []) = .panic (3, [2, 0, 1]) :=
  ⟨rfl, ⟨_, rfl, rfl⟩, rfl⟩

end Verif.Chunk

namespace Verif.Ring
variable {A : Type} {E : Env} {N : Nat} {c : Ring A} {l : List A}
open Chunk (dbg64 rel64)

/-- src/ring_buffer/mod.rs:874-878 `extend`, for an iterator that may not end; the state is the buffer, the number of `next()` calls, and
the drop log. -/
def extendEndless (E : Env) (N : Nat) (dp : A → Bool) (g : Stream A) (fuel : Nat) : M ((Ring A × Nat) × List A) Unit :=
  feed (pushBackOwned E N dp) g fuel
/-- src/ring_buffer/mod.rs:941-945 `from_iter`, for an iterator that may not end. -/
def fromIterEndless (E : Env) (N : Nat) (dp : A → Bool) (g : Stream A) (fuel : Nat) : M (Nat × List A) (Ring A) := do
  gather (← new E N) (pushBackOwned E N dp) (drop E N dp) g fuel

theorem pushContract (hW : 2 * N < E.W) (dp : A → Bool) : PushContract (View E N) N dp (pushBackOwned E N dp) :=
  fun _ _ h a log => Ref.viewLog hW (pushBackOwned_ref hW dp a (h.rep hW) log)

/-- C89. `extend` on any buffer with any iterator, even one that never ends: the loop ends after at most one `next()` more than there is
room for, the items that fit are appended, and one that does not fit makes it panic. -/
theorem C89_extend (hW : 2 * N < E.W) (h : View E N c l) (dp : A → Bool) (g : Stream A) (log : List A) (fuel : Nat) (hf : N < fuel) :
    EndlessSafe (View E N) N dp l log g (extendEndless E N dp g fuel ((c, 0), log)) :=
  feed_safe (pushContract hW dp) g h (h.rep hW).length_le log fuel (by omega)

/-- C89. `from_iter` with an iterator that gives more than `N` items panics after `N + 1` calls of `next()`, and all the items it took are
destroyed. -/
theorem C89_from_iter (hW : 2 * N < E.W) (hN : 0 < N) (dp : A → Bool) (g : Stream A) (xs log : List A) (a : A) (fuel : Nat) (hf : N < fuel)
    (hg : g.Gives 0 (xs ++ [a])) (hx : xs.length = N) (hd : ∀ x, x ∈ xs ++ [a] → dp x = false) :
    fromIterEndless E N dp g fuel (0, log) = .panic (N + 1, log ++ [a] ++ xs) := by
  have hn : (new E N : M (Nat × List A) (Ring A)) (0, log) = .ok ⟨0, 0, Mem.uninit⟩ (0, log) := by
    have : Sat ((new E N : M (Nat × List A) (Ring A)) (0, log)) (fun c s => c = ⟨0, 0, Mem.uninit⟩ ∧ s = (0, log)) (fun _ => False) False :=
      sat_new hN ⟨rfl, rfl⟩
    cases h : (new E N : M (Nat × List A) (Ring A)) (0, log) <;> simp_all [Sat]
  simp only [fromIterEndless, M.bind_run, hn, Out.andThen_ok]
  exact gather_over (pushContract hW dp) (((Rep.empty hN : Rep N ⟨0, 0, Mem.uninit⟩ []).view hW)) g xs log a fuel hf hg hx hd
    fun _ _ log h => (C88_drop_and_clear_partial hN hW h dp log).1.1

/-- C89 is not vacuous: the natural numbers go into a buffer with one place left. -/
example : View dbg64 3 seam [10, 20] ∧ (∃ c, extendEndless dbg64 3 (fun _ => false) naturals 100 ((seam, 0), []) = .panic ((c, 2), [1]) ∧
    View dbg64 3 c [10, 20, 0]) :=
  ⟨⟨rfl, by decide, by decide⟩, _, rfl, rfl, by decide, by decide⟩

end Verif.Ring

namespace Verif.Inline
variable {A : Type} [DecidableEq A] {E : Env} {L : Layout A} {dp dp' : A → Bool} {cl : A → Option A} {s : Inline A} {l : List A}

/-- src/inline_array/mod.rs:575-582 `extend`, for an iterator that may not end; the state is the array, the number of `next()` calls, and
the drop log. -/
def extendEndless (E : Env) (L : Layout A) (dp : A → Bool) (g : Stream A) (fuel : Nat) : M ((Inline A × Nat) × List A) Unit :=
  feed (pushOwned E L dp) g fuel
/-- src/inline_array/mod.rs:541-550 `from_iter`, for an iterator that may not end; the array is made at `k` times the
alignment. -/
def fromIterEndless (E : Env) (L : Layout A) (dp : A → Bool) (k : Nat) (g : Stream A) (fuel : Nat) : M (Nat × List A) (Inline A) := do
  gather (← make (new E L k)) (pushOwned E L dp) (drop E L dp) g fuel

omit [DecidableEq A] in
theorem pushContract (hv : L.Valid E) (dp : A → Bool) : PushContract (Rep E L) (cap E L) dp (pushOwned E L dp) :=
  fun _ _ h a log => pushOwned_ref hv h dp a log

/-- C89. `extend` on any array with any iterator, even one that never ends: the loop ends after at most one `next()` more than there is
room for, the items that fit are appended, and one that does not fit makes it panic. -/
theorem C89_extend (hv : L.Valid E) (hr : Reachable E L dp cl s) (h : View E L s l) (dp' : A → Bool) (g : Stream A) (log : List A) (fuel : Nat)
    (hf : cap E L < fuel) : EndlessSafe (View E L) (cap E L) dp' l log g (extendEndless E L dp' g fuel ((s, 0), log)) :=
  have h' := hr.rep_of_view hv h
  (feed_safe (pushContract hv dp') g h' h'.le log fuel (by omega)).imp fun _ _ h => h.view hv

/-- C89. `from_iter` with an iterator that gives more items than fit panics after one `next()` too many, and all the items it took are
destroyed. -/
theorem C89_from_iter (hv : L.Valid E) {k : Nat} {init : Inline A} (hi : new E L k () = .ok init ()) (dp : A → Bool) (g : Stream A)
    (xs log : List A) (a : A) (fuel : Nat) (hf : cap E L < fuel)
    (hg : g.Gives 0 (xs ++ [a])) (hx : xs.length = cap E L) (hd : ∀ x, x ∈ xs ++ [a] → dp x = false) :
    fromIterEndless E L dp k g fuel (0, log) = .panic (cap E L + 1, log ++ [a] ++ xs) := by
  have hr : Rep E L init [] := by
    have := new_ref hv k
    rw [hi] at this
    split at this
    · obtain ⟨_, _, e, h, -⟩ := RefV.of_ok this rfl
      cases e; exact h
    · simp [RefV, Sat] at this
  simp only [fromIterEndless, M.bind_run, make, hi, Out.mapState_ok, Out.andThen_ok]
  exact gather_over (pushContract hv dp) hr g xs log a fuel hf hg hx hd fun _ _ log h => (DestroysAll.of_ref (drop_ref hv h dp log)).1

/-- C89 is not vacuous: `three` holds three of at most `cap` elements, and the natural numbers never end. -/
example : Reachable Chunk.dbg64 words (fun _ => false) some three ∧ View Chunk.dbg64 words three [10, 20, 30] ∧ cap Chunk.dbg64 words = 4 ∧
    naturals.Gives 0 [0] ∧ naturals 1 = some (.item 1) ∧ naturals.Gives 0 ([0, 1, 2, 3] ++ [4]) ∧
    ∃ s, new Chunk.dbg64 words 2 () = .ok s () :=
  ⟨three_spec.1, three_spec.2, rfl, naturals_gives 1, rfl, naturals_gives 5, _, rfl⟩

end Verif.Inline

namespace Verif.Sparse
variable {A : Type} {N : Nat} {dp : A → Bool}

/-- src/sparse_chunk/mod.rs:361-365, the loop of `from_iter`, for an iterator that may not end; the state is the chunk, the number of
`next()` calls (which is also the counter of `enumerate`), and the drop log. -/
def fillEndless (N : Nat) (dp : A → Bool) (g : Stream (Option A)) : Nat → M ((Sparse A × Nat) × List A) Unit
  | 0 => M.diverge
  | fuel + 1 => do
    let index ← M.onFst (M.onSnd M.get)
    match (← M.onFst (M.onSnd g.next)) with
    | none => pure ()
    | some none => fillEndless N dp g fuel
    | some (some v) => do
      M.atFst (insertOwned N dp index v)
      fillEndless N dp g fuel
/-- src/sparse_chunk/mod.rs:356-367 `from_iter`, for an iterator that may not end. -/
def fromIterEndless (N : Nat) (dp : A → Bool) (g : Stream (Option A)) (fuel : Nat) : M (Nat × List A) (Sparse A) := do
  let r ← M.withLocal new (fillEndless N dp g fuel) (dropLocal N dp)
  return r.2

theorem fillEndless_prefix {x : Nat → Option A} (n : Nat) : ∀ {c : Sparse A} {m : SMap A} (k : Nat), Rep N c m → (∀ i, k ≤ i → m i = none) →
    (∀ i, i < k → m i = x i) → (∀ j, N ≤ j → j < k + n → x j = none) → ∀ (log : List A) (f : Nat),
    ∃ c' m', Rep N c' m' ∧ (∀ i, k + n ≤ i → m' i = none) ∧ (∀ i, i < k + n → m' i = x i) ∧
      fillEndless N dp (fun i => some (.item (x i))) (n + f) ((c, k), log) = fillEndless N dp (fun i => some (.item (x i))) f ((c', k + n), log) := by
  induction n with
  | zero => intro c m k h h1 h2 _ log f; exact ⟨c, m, h, h1, h2, by simp⟩
  | succ n ih =>
    intro c m k h h1 h2 h3 log f
    rw [show n + 1 + f = (n + f) + 1 by omega, show k + (n + 1) = k + 1 + n by omega]
    cases hx : x k with
    | none =>
      obtain ⟨c', m', r1, r2, r3, r4⟩ := ih (k + 1) h (fun i hi => h1 i (by omega))
        (fun i hi => by
          by_cases hik : i = k
          · subst hik; rw [hx, h1 i (Nat.le_refl _)]
          · exact h2 i (by omega)) (fun j hj hj' => h3 j hj (by omega)) log f
      refine ⟨c', m', r1, r2, r3, ?_⟩
      rw [← r4]
      conv => lhs; rw [fillEndless]
      simp only [M.bind_run, M.onFst_run, M.onSnd_run, M.get, Stream.next, hx, Out.mapState_ok, Out.andThen_ok]
    | some v =>
      have hk : k < N := Nat.lt_of_not_le fun hk => by have := h3 k hk (by omega); simp [hx] at this
      have hr := insertOwned_ref h dp k v log
      rw [if_pos hk, h1 k (Nat.le_refl _)] at hr
      obtain ⟨⟨c1, log'⟩, e, hc1, rfl⟩ := hr.of_ok rfl
      obtain ⟨c', m', r1, r2, r3, r4⟩ := ih (k + 1) hc1 (fun i hi => by simp [SMap.upd, show i ≠ k by omega, h1 i (by omega)])
        (fun i hi => by
          by_cases hik : i = k
          · subst hik; simp [SMap.upd, hx]
          · simp [SMap.upd, hik, h2 i (by omega)]) (fun j hj hj' => h3 j hj (by omega)) log' f
      refine ⟨c', m', r1, r2, r3, ?_⟩
      rw [← r4]
      conv => lhs; rw [fillEndless]
      simp only [M.bind_run, M.onFst_run, M.onSnd_run, M.get, Stream.next, hx, M.atFst, e, Out.mapState_ok, Out.andThen_ok]

/-- C89. `from_iter` on a sparse chunk, with an iterator that never ends: it stops at the first `Some` whose index is not below `N`; all the
elements it took are destroyed. -/
theorem C89_from_iter (x : Nat → Option A) (k : Nat) (v : A) (hk : N ≤ k) (hv : x k = some v) (hn : ∀ j, N ≤ j → j < k → x j = none)
    (hd : ∀ i a, x i = some a → dp a = false) (log : List A) (fuel : Nat) (hf : k < fuel) :
    fromIterEndless N dp (fun i => some (.item (x i))) fuel (0, log) = .panic (k + 1, log ++ [v] ++ (List.range N).filterMap x) := by
  obtain ⟨c, m, h1, h2, h3, e⟩ := fillEndless_prefix (c := new) (dp := dp) (x := x) k 0 (Rep.empty Mem.uninit : Rep N new SMap.empty) (fun _ _ => rfl)
    (fun i hi => absurd hi (by omega)) (fun j hj hj' => hn j hj (by omega)) log (fuel - k - 1 + 1)
  rw [show k + (fuel - k - 1 + 1) = fuel by omega] at e
  have hr := insertOwned_ref h1 dp k v log
  rw [if_neg (by omega), hd k v hv] at hr
  obtain ⟨⟨c', log'⟩, e', h', rfl⟩ := hr.of_panic (t := (m, log ++ [v])) (by simp)
  have hb : fillEndless N dp (fun i => some (.item (x i))) fuel ((new, 0), log) = .panic ((c', k + 1), log ++ [v]) := by
    rw [e, fillEndless]
    simp only [M.bind_run, M.onFst_run, M.onSnd_run, M.get, Stream.next, Nat.zero_add, hv, M.atFst, e', Out.mapState_ok, Out.andThen_ok]
    rfl
  have hvals : (List.range N).filterMap m = (List.range N).filterMap x := by
    have : ∀ l : List Nat, (∀ i, i ∈ l → m i = x i) → l.filterMap m = l.filterMap x := by
      intro l
      induction l with
      | nil => intro _; rfl
      | cons i l ih => intro h; simp only [List.filterMap_cons, h i (by simp), ih fun j hj => h j (by simp [hj])]
    exact this _ fun i hi => h3 i (by have := List.mem_range.1 hi; omega)
  obtain ⟨c'', e''⟩ := (C88_drop_partial (view_iff.2 h') dp (log ++ [v])).1 (by
    intro a ha
    rw [hvals, List.mem_filterMap] at ha
    obtain ⟨i, -, hi⟩ := ha
    exact hd i a hi)
  simp only [fromIterEndless, M.bind_run, M.withLocal, hb, dropLocal, M.atFst, e'', Out.mapState_ok]
  simp [hvals, Out.andThen]

/-- C89. With an iterator that gives `None` for ever from index `N` on, `from_iter` never returns. -/
theorem C89_endless_nones (x : Nat → Option A) (hn : ∀ j, N ≤ j → x j = none) (log : List A) (fuel : Nat) :
    fromIterEndless N dp (fun i => some (.item (x i))) fuel (0, log) = .diverge := by
  obtain ⟨c, m, h1, h2, h3, e⟩ := fillEndless_prefix (c := new) (dp := dp) (x := x) fuel 0 (Rep.empty Mem.uninit : Rep N new SMap.empty) (fun _ _ => rfl)
    (fun i hi => absurd hi (by omega)) (fun j hj hj' => hn j hj) log 0
  simp only [Nat.add_zero] at e
  simp only [fromIterEndless, M.bind_run, M.withLocal, e]
  rfl

/-- C89 is not vacuous: `None` at odd positions, the position at even ones, for ever. -/
example : fromIterEndless 3 (fun _ => false) (fun i => some (.item (if i % 2 = 0 then some i else none))) 100 (0, []) = .panic (5, [4, 0, 2]) :=
  C89_from_iter (fun i => if i % 2 = 0 then some i else none) 4 4 (by decide) rfl (fun j h1 h2 => by
    have : j = 3 := by omega
    subst this; rfl) (fun _ _ _ => rfl) [] 100 (by decide)

end Verif.Sparse
