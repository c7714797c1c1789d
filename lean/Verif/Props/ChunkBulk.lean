import Verif.Props.ChunkOps
/-
Bulk insertion, ordered insertion, cloning, collecting, iteration, io and comparison of chunks:
C09 - C13, C15 - C21.
-/
namespace Verif

theorem It.items_ofList {A : Type} (xs : List A) : (It.ofList xs).items = xs := by
  induction xs with
  | nil => rfl
  | cons a r ih => simp only [It.ofList, List.map_cons, It.items] at *; rw [ih]
theorem It.owned_ofList {A : Type} (xs : List A) : (It.ofList xs).owned = xs := by
  induction xs with
  | nil => rfl
  | cons a r ih => simp only [It.ofList, List.map_cons, It.owned] at *; rw [ih]
theorem It.drop_ofList {A : Type} (xs : List A) (n : Nat) : (It.ofList xs).drop n = It.ofList (xs.drop n) := by
  simp [It.ofList]

namespace Chunk
variable {A : Type} {E : Env} {N : Nat} {dp : A → Bool} {cl : A → Option A} {c d : Chunk A} {l k : List A}

/-! ### C09 -/

/-- C09. `insert_from(i, xs)` with an honest iterator over `xs` that fits puts `xs`, in order, at position `i`. -/
theorem C09_insert_from (hN : 2 * N < E.W) (h : View E N c l) (i : Nat) (xs : List A) (log : List A)
    (hl : l.length + xs.length ≤ N) (hi : i ≤ l.length) :
    Returns (RelLog (View E N)) (insertFrom E N dp i (ExactIt.ofList xs) (c, log)) () (l.take i ++ xs ++ l.drop i, log) := by
  have hr := (Ref.viewLog (E := E) (insertFrom_ref hN dp i xs.length (It.ofList xs) (h.rep hN) log (.inr (by omega)))).of_ok
    (a := ()) (t := (l.take i ++ xs ++ l.drop i, log)) ?_
  · exact hr
  · rw [specInsertFrom_ok ⟨hl, hi⟩ (by rw [It.items_ofList]; exact Nat.le_refl _)]
    · simp [It.items_ofList, It.drop_ofList, It.owned_ofList]
    · simp [It.drop_ofList, It.owned_ofList]

/-- C09. `insert_from` with items that do not fit, or an index past the end, panics; the contents stay, and the
iterator's items are dropped once (their destructors do not panic). The total stays below `usize::MAX` (C12). -/
theorem C09_insert_from_refuses (hN : 2 * N < E.W) (h : View E N c l) (i : Nat) (xs : List A) (log : List A)
    (hx : E.debug = true ∨ N + xs.length < E.W) (hb : N < l.length + xs.length ∨ l.length < i) (hd : ∀ a ∈ xs, dp a = false) :
    ∃ s, insertFrom E N dp i (ExactIt.ofList xs) (c, log) = .panic s ∧ View E N s.1 l ∧ s.2 = log ++ xs := by
  have hr := (Ref.viewLog (E := E) (insertFrom_ref hN dp i xs.length (It.ofList xs) (h.rep hN) log hx)).of_panic
    (t := (l, log ++ xs)) ?_
  · exact hr
  · rw [specInsertFrom_refuse (by omega), Spec.panicDropping, It.owned_ofList, if_neg]
    simpa using hd

/-- C09 is not vacuous: into `edge`, whose items sit at the right edge, at index 1. -/
example : ∃ s, insertFrom dbg64 3 (fun _ => false) 1 (ExactIt.ofList [15]) (edge, []) = .ok () s ∧
    asSlice dbg64 3 s.1 = .ok [10, 15, 20] s.1 := ⟨_, rfl, rfl⟩

/-! ### C10: iterators that lie about their length, consistently -/

/-- C10. Whatever an iterator yields, as long as its `len()` is stable, `insert_from` has no undefined behaviour. -/
theorem C10_no_undefined_behaviour (hN : 2 * N < E.W) (h : View E N c l) (i n : Nat) (it : It A) (log : List A)
    (hn : E.debug = true ∨ N + n < E.W) :
    insertFrom E N dp i ⟨n, n, it⟩ (c, log) ≠ .ub ∧ insertFrom E N dp i ⟨n, n, it⟩ (c, log) ≠ .diverge := by
  have hr := insertFrom_ref hN dp i n it (h.rep hN) log hn
  constructor <;> intro e <;> rw [e] at hr <;> exact hr

/-- C10. An iterator that yields fewer items than announced (it ends, or panics, after `it.items`): `insert_from` panics
and leaves an empty chunk, dropping only what was still inside the iterator. -/
theorem C10_short_or_panicking (hN : 2 * N < E.W) (h : View E N c l) (i n : Nat) (it : It A) (log : List A)
    (hl : l.length + n ≤ N) (hi : i ≤ l.length) (hs : it.items.length < n)
    (hd : (It.owned (it.drop (it.items.length + 1))).any dp = false) :
    ∃ s, insertFrom E N dp i ⟨n, n, it⟩ (c, log) = .panic s ∧ View E N s.1 [] ∧
      s.2 = log ++ It.owned (it.drop (it.items.length + 1)) := by
  refine (Ref.viewLog (E := E) (insertFrom_ref hN dp i n it (h.rep hN) log (.inr (by omega)))).of_panic
    (t := ([], log ++ It.owned (it.drop (it.items.length + 1)))) ?_
  rw [specInsertFrom_short ⟨hl, hi⟩ hs, Spec.panicDropping, if_neg (by simp only [hd]; simp)]

/-- C10. An iterator that yields more items than announced: exactly the announced number is inserted, the rest is
dropped with the iterator. -/
theorem C10_long (hN : 2 * N < E.W) (h : View E N c l) (i n : Nat) (it : It A) (log : List A)
    (hl : l.length + n ≤ N) (hi : i ≤ l.length) (hs : n ≤ it.items.length)
    (hd : (It.owned (it.drop n)).countP dp = 0) :
    Returns (RelLog (View E N)) (insertFrom E N dp i ⟨n, n, it⟩ (c, log)) ()
      (l.take i ++ it.items.take n ++ l.drop i, log ++ It.owned (it.drop n)) :=
  (Ref.viewLog (E := E) (insertFrom_ref hN dp i n it (h.rep hN) log (.inr (by omega)))).of_ok
    (specInsertFrom_ok ⟨hl, hi⟩ hs hd)

/-- C10. A `len()` that panics is harmless even when destructors of the iterator's items panic as well. -/
theorem C10_panicking_len_safe (it : It A) (len2 : Option Nat) (i : Nat) (s : Chunk A × List A) :
    insertFrom E N dp i ⟨none, len2, it⟩ s ≠ .ub ∧ insertFrom E N dp i ⟨none, len2, it⟩ s ≠ .diverge := by
  have key : Sat (insertFrom E N dp i ⟨none, len2, it⟩ s) (fun _ _ => False) (fun _ => True) True := by
    unfold insertFrom
    apply Sat.bind
    apply Sat.onUnwind
    apply Sat.panic
    exact Sat.unwindDrop (fun _ => trivial) (fun _ => trivial)
  constructor <;> intro e <;> rw [e] at key <;> exact key

/-- C10. An iterator whose `len()` panics: when the first call does, nothing changes and the iterator's items are dropped; when the
second call does (the items would fit), the call panics and leaves an empty chunk, again dropping only the iterator's items. -/
theorem C10_panicking_len (hN : 2 * N < E.W) (h : View E N c l) (i n : Nat) (len2 : Option Nat) (it : It A) (log : List A)
    (hl : l.length + n ≤ N) (hi : i ≤ l.length) (hd : it.owned.any dp = false) :
    insertFrom E N dp i ⟨none, len2, it⟩ (c, log) = .panic (c, log ++ it.owned) ∧
    ∃ s, insertFrom E N dp i ⟨some n, none, it⟩ (c, log) = .panic s ∧ View E N s.1 [] ∧ s.2 = log ++ it.owned := by
  constructor
  · have key : Sat (insertFrom E N dp i ⟨none, len2, it⟩ (c, log)) (fun _ _ => False) (fun s => s = (c, log ++ it.owned)) False := by
      unfold insertFrom
      apply Sat.bind
      apply Sat.onUnwind
      apply Sat.panic
      refine Sat.unwindDrop (fun _ => rfl) (fun h => ?_)
      rw [hd] at h; exact Bool.noConfusion h
    cases hx : insertFrom E N dp i ⟨none, len2, it⟩ (c, log) <;> rw [hx] at key <;> simp only [Sat] at key
    rw [key]
  · have key := insertFrom_gap hN dp i n none it (h.rep hN) log ⟨hl, hi⟩ (Q := fun _ _ => False) (B := False)
      (P := fun s => s.1.left = 0 ∧ s.1.right = 0 ∧ s.2 = log ++ it.owned) (fun w c' hw => by
        unfold writeFromIter
        vc
        apply Sat.onUnwind
        apply Sat.panic
        refine Sat.unwindDrop (fun _ => ⟨rfl, rfl, rfl⟩) (fun h => ?_)
        rw [hd] at h; exact Bool.noConfusion h)
    cases hx : insertFrom E N dp i ⟨some n, none, it⟩ (c, log) <;> rw [hx] at key <;> simp only [Sat] at key
    exact ⟨_, rfl, (Rep.empty key.1 key.2.1).view E, key.2.2⟩

/-- C10 (panicking `len()`) is not vacuous. -/
example : View rel64 3 edge [10, 20] ∧ ∃ s, insertFrom rel64 3 (fun _ => false) 1 ⟨some 1, none, [.item 7]⟩ (edge, []) = .panic s ∧
    View rel64 3 s.1 [] ∧ s.2 = [7] := ⟨rfl, _, rfl, rfl, rfl⟩

/-- C10 is not vacuous: an iterator announcing 1 item but panicking at once empties `edge`; the chunk then works. -/
example : ∃ s, insertFrom rel64 3 (fun _ => false) 1 ⟨some 1, some 1, [.panic, .item 9]⟩ (edge, []) = .panic s ∧
    s.2 = [9] ∧ asSlice rel64 3 s.1 = .ok [] s.1 ∧ ∃ s', pushBack rel64 3 5 s.1 = .ok () s' ∧ asSlice rel64 3 s' = .ok [5] s' :=
  ⟨_, rfl, rfl, rfl, _, rfl, rfl⟩

/-! ### C11, C12: false of the code -/

/-- C11 fails: `insert_from` calls `iter.len()` twice; if the second answer is larger, items are written out of bounds;
if it is smaller, the chunk ends up with a hole of uninitialised memory that any later access reads. -/
theorem C11_unstable_len_counterexample :
    View rel64 3 edge [10, 20] ∧
    (insertFrom rel64 3 (fun _ => false) 2 ⟨some 0, some 2, It.ofList [7, 8]⟩ (edge, [])).isUb = true ∧
    (insertFrom dbg64 3 (fun _ => false) 2 ⟨some 0, some 2, It.ofList [7, 8]⟩ (edge, [])).isUb = true ∧
    ∃ s, insertFrom rel64 3 (fun _ => false) 0 ⟨some 1, some 0, []⟩ (edge, []) = .ok () s ∧ (asSlice rel64 3 s.1).isUb = true :=
  ⟨rfl, rfl, rfl, _, rfl, rfl⟩

/-- C11, the part that holds: with a stable `len()` there is never undefined behaviour, whatever is yielded. -/
theorem C11_stable_len_partial (hN : 2 * N < E.W) (h : View E N c l) (i : Nat) (it : ExactIt A) (log : List A)
    (hs : it.len1 = it.len2) (hn : ∀ n, it.len1 = some n → E.debug = true ∨ N + n < E.W) :
    insertFrom E N dp i it (c, log) ≠ .ub ∧ insertFrom E N dp i it (c, log) ≠ .diverge := by
  obtain ⟨len1, len2, it⟩ := it
  simp only at hs hn; subst hs
  cases len1 with
  | some n => exact C10_no_undefined_behaviour hN h i n it log (hn n rfl)
  | none => exact ⟨(C10_panicking_len_safe it _ _ _).1, (C10_panicking_len_safe it _ _ _).2⟩

/-- C11, a part that holds with an unstable `len()` too: an iterator that yields no more than the first `len()` said and fewer than
the second one says: the call panics and leaves the chunk empty (or, if it is refused, unchanged), which is safe.  (By
`C11_unstable_len_counterexample` neither condition can be dropped.) -/
theorem C11_unstable_len_partial (hN : 2 * N < E.W) (h : View E N c l) (i n m : Nat) (it : It A) (log : List A)
    (hm : m < E.W) (hl : l.length + n ≤ N) (hi : i ≤ l.length) (h1 : it.items.length ≤ n) (h2 : it.items.length < m)
    (hd : it.owned.any dp = false) :
    ∃ s, insertFrom E N dp i ⟨some n, some m, it⟩ (c, log) = .panic s ∧ View E N s.1 [] := by
  have key := insertFrom_gap hN dp i n (some m) it (h.rep hN) log ⟨hl, hi⟩ (Q := fun _ _ => False)
    (fun w c' hw => writeFromIter_short (by omega) dp m it w c' log hm (by omega) h2 hd)
  cases hx : insertFrom E N dp i ⟨some n, some m, it⟩ (c, log) <;> rw [hx] at key <;> simp only [Sat] at key
  exact ⟨_, rfl, (Rep.empty key.1 key.2).view E⟩

/-- C11 (unstable `len()`) is not vacuous: an iterator that announces 1 item, then 2, and yields 1, empties `edge`. -/
example : View rel64 3 edge [10, 20] ∧ ∃ s, insertFrom rel64 3 (fun _ => false) 1 ⟨some 1, some 2, [.item 7]⟩ (edge, []) = .panic s ∧
    View rel64 3 s.1 [] := ⟨rfl, _, rfl, rfl⟩

/-- C12 fails in release builds: `self.len() + insert_size` wraps around, the check passes, and the block move leaves
the storage. -/
theorem C12_overflow_counterexample :
    View rel64 3 edge [10, 20] ∧
    (insertFrom rel64 3 (fun _ => false) 1 ⟨some (2 ^ 64 - 1), some (2 ^ 64 - 1), [.item 7]⟩ (edge, [])).isUb = true := by
  constructor
  · rfl
  · decide +kernel

/-- C12, the part that holds: in debug builds always, and in release builds as long as the sum of the lengths, wrapped to `usize`,
still exceeds the capacity (so in particular when it does not wrap), an over-long iterator is refused with the contents unchanged,
whatever a second `len()` would say. -/
theorem C12_refuses_partial (hN : 2 * N < E.W) (h : View E N c l) (i n : Nat) (len2 : Option Nat) (it : It A) (log : List A)
    (hn : E.debug = true ∨ N < (l.length + n) % E.W) (hb : N < l.length + n) (hd : it.owned.any dp = false) :
    insertFrom E N dp i ⟨some n, len2, it⟩ (c, log) = .panic (c, log ++ it.owned) := by
  have hr := h.rep hN
  obtain ⟨h1, h2, h3⟩ := hr
  have key : Sat (insertFrom E N dp i ⟨some n, len2, it⟩ (c, log)) (fun _ _ => False) (fun s => s = (c, log ++ it.owned)) False := by
    unfold insertFrom
    simp only [M.lenCall_some]
    apply Sat.bind
    apply Sat.onUnwind
    apply Sat.onFst
    have e : insertFromChecks E N i n c = .panic c := by
      have hl : len E c = .ok l.length c := by
        simp [len, getLeft, getRight, usub_ok (show c.left ≤ c.right by omega)]; omega
      rcases uadd_over (s := c) hn hb with e | ⟨r, hr, e⟩
      · simp [insertFromChecks, hl, e]
      · simp [insertFromChecks, hl, e, hr]
    rw [e]
    refine Sat.unwindDrop (fun _ => rfl) (fun h => ?_)
    rw [hd] at h; exact Bool.noConfusion h
  cases hx : insertFrom E N dp i ⟨some n, len2, it⟩ (c, log) <;> rw [hx] at key <;> simp only [Sat] at key
  rw [key]

/-! ### C13 -/

/-- The documented contract of `<[A]>::binary_search`: on a sorted slice, `Ok i` is the position of an item equivalent to
`v`, `Err i` a position where `v` can be inserted keeping the order; comparisons do not panic. -/
def SearchContract (le : A → A → Prop) (search : List A → A → Option (Except Nat Nat)) : Prop :=
  ∀ l v, l.Pairwise le → match search l v with
    | none => False
    | some (.ok i) => ∃ x, l[i]? = some x ∧ le x v ∧ le v x
    | some (.error i) => i ≤ l.length ∧ (∀ x ∈ l.take i, le x v) ∧ (∀ x ∈ l.drop i, le v x)

theorem _root_.Verif.pairwise_insert {le : A → A → Prop} {l : List A} {i : Nat} {v : A} (hs : l.Pairwise le)
    (h1 : ∀ x ∈ l.take i, le x v) (h2 : ∀ x ∈ l.drop i, le v x) : (l.take i ++ [v] ++ l.drop i).Pairwise le := by
  rw [← List.take_append_drop i l, List.pairwise_append] at hs
  obtain ⟨a1, a2, a3⟩ := hs
  simp only [List.append_assoc, List.singleton_append, List.pairwise_append, List.pairwise_cons, List.mem_cons]
  refine ⟨a1, ⟨h2, a2⟩, ?_⟩
  rintro x hx y (rfl | hy)
  · exact h1 x hx
  · exact a3 x hx y hy

theorem _root_.Verif.search_split {le : A → A → Prop} (htr : ∀ x y z, le x y → le y z → le x z)
    {search : List A → A → Option (Except Nat Nat)} (hc : SearchContract le search) (l : List A) (v : A) (hs : l.Pairwise le) :
    ∃ i, (search l v = some (.ok i) ∨ search l v = some (.error i)) ∧ i ≤ l.length ∧ (∀ x ∈ l.take i, le x v) ∧ (∀ x ∈ l.drop i, le v x) := by
  have := hc l v hs
  cases hx : search l v with
  | none => rw [hx] at this; exact this.elim
  | some r => cases r with
  | error i => rw [hx] at this; exact ⟨i, .inr rfl, this⟩
  | ok i =>
    rw [hx] at this
    obtain ⟨x, hi, h1, h2⟩ := this
    obtain ⟨hlt, rfl⟩ := List.getElem?_eq_some_iff.1 hi
    refine ⟨i, .inl rfl, by omega, ?_, ?_⟩
    · intro y hy
      obtain ⟨j, hj, rfl⟩ := List.mem_take_iff_getElem.1 hy
      exact htr _ _ _ (List.pairwise_iff_getElem.1 hs j i (by omega) hlt (by omega)) h1
    · intro y hy
      obtain ⟨j, hj, rfl⟩ := List.mem_drop_iff_getElem.1 hy
      by_cases h0 : j = 0
      · subst h0; simpa using h2
      · exact htr _ _ _ h2 (List.pairwise_iff_getElem.1 hs i (i + j) hlt (by omega) (by omega))

/-- C13. On a sorted, non-full chunk `insert_ordered(v)` leaves the chunk sorted, with exactly one more `v`. -/
theorem C13_insert_ordered_sorted (hN : 2 * N < E.W) (h : View E N c l) (hl : l.length < N) (le : A → A → Prop)
    (htr : ∀ x y z, le x y → le y z → le x z) (search : List A → A → Option (Except Nat Nat)) (hc : SearchContract le search)
    (hs : l.Pairwise le) (v : A) :
    ∃ l', Returns (View E N) (insertOrdered E N search v c) () l' ∧ l'.Pairwise le ∧ l'.Perm (v :: l) := by
  obtain ⟨i, hsr, hi, h1, h2⟩ := search_split htr hc l v hs
  refine ⟨l.take i ++ [v] ++ l.drop i, ?_, pairwise_insert hs h1 h2, ?_⟩
  · refine (Ref.view (insertOrdered_ref (by omega) (h.rep hN) search v)).of_ok ?_
    simp only [Spec.insertOrdered, if_pos hl]
    rcases hsr with e | e <;> rw [e] <;> simp [Spec.insert, if_pos (And.intro hl hi)]
  · have := List.perm_middle (a := v) (l₁ := l.take i) (l₂ := l.drop i)
    simpa using this

/-- C13. On any chunk (sorted or not), if the search proposes a position within bounds then `v` is inserted exactly once and
the other items keep their order; on a full chunk the call panics and changes nothing. -/
theorem C13_insert_ordered_unsorted (hN : 2 * N < E.W) (h : View E N c l) (search : List A → A → Option (Except Nat Nat)) (v : A)
    (i : Nat) (hs : search l v = some (.ok i) ∨ search l v = some (.error i)) (hi : i ≤ l.length) :
    (l.length < N → Returns (View E N) (insertOrdered E N search v c) () (l.take i ++ [v] ++ l.drop i)) ∧
    (l.length = N → ∃ s, insertOrdered E N search v c = .panic s ∧ View E N s l) := by
  constructor
  · intro hl
    refine (Ref.view (insertOrdered_ref (by omega) (h.rep hN) search v)).of_ok ?_
    simp only [Spec.insertOrdered, if_pos hl]
    rcases hs with e | e <;> rw [e] <;> simp [Spec.insert, if_pos (And.intro hl hi)]
  · intro hl
    refine (Ref.view (insertOrdered_ref (by omega) (h.rep hN) search v)).of_panic ?_
    simp only [Spec.insertOrdered]; rw [if_neg (by omega)]

/-- C13. If a comparison panics during the search, the call panics and the chunk is exactly as it was: nothing was inserted. -/
theorem C13_panicking_comparison (hN : 2 * N < E.W) (h : View E N c l) (search : List A → A → Option (Except Nat Nat)) (v : A)
    (hs : search l v = none) : ∃ s, insertOrdered E N search v c = .panic s ∧ View E N s l := by
  refine (Ref.view (insertOrdered_ref (by omega) (h.rep hN) search v)).of_panic ?_
  simp only [Spec.insertOrdered, hs, ite_self]

/-- The hypotheses of `C13_panicking_comparison` are met: comparing with 13 panics. -/
example : ∃ s, insertOrdered dbg64 3 (fun l v => if v = 13 then none else some (.error l.length)) 13 edge = .panic s ∧
    asSlice dbg64 3 s = .ok [10, 20] s := ⟨_, rfl, rfl⟩

theorem take_takeWhile_length (p : A → Bool) (l : List A) : l.take (l.takeWhile p).length = l.takeWhile p := by
  induction l with
  | nil => rfl
  | cons a r ih => by_cases h : p a = true <;> simp [h, ih]
theorem drop_takeWhile_length (p : A → Bool) (l : List A) : l.drop (l.takeWhile p).length = l.dropWhile p := by
  induction l with
  | nil => rfl
  | cons a r ih => by_cases h : p a = true <;> simp [h, ih]

/-- A search meeting the contract, for numbers. -/
def linearSearch (l : List Nat) (v : Nat) : Option (Except Nat Nat) := some <| .error (l.takeWhile (fun x => decide (x ≤ v))).length

/-- C13 is not vacuous: the contract is satisfiable, and the sorted chunk `edge` receives 15 in the middle. -/
theorem linearSearch_contract : SearchContract (· ≤ ·) linearSearch := by
  intro l v hs
  simp only [linearSearch]
  have e1 := take_takeWhile_length (fun x => decide (x ≤ v)) l
  have e2 := drop_takeWhile_length (fun x => decide (x ≤ v)) l
  refine ⟨?_, ?_, ?_⟩
  · exact (List.takeWhile_sublist _).length_le
  · rw [e1]; intro x hx
    have := List.all_takeWhile (p := fun x => decide (x ≤ v)) (l := l)
    simpa using (List.all_eq_true.1 this x hx)
  · rw [e2]; intro x hx
    cases hd : l.dropWhile (fun x => decide (x ≤ v)) with
    | nil => rw [hd] at hx; cases hx
    | cons y r =>
      have hy : ¬ y ≤ v := by
        have := List.head?_dropWhile_not (fun x => decide (x ≤ v)) l
        rw [hd] at this; simpa using this
      rw [hd] at hx
      have hp : (y :: r).Pairwise (· ≤ ·) := by rw [← hd]; exact hs.sublist (List.dropWhile_sublist _)
      rcases List.mem_cons.1 hx with rfl | hx
      · omega
      · have := (List.pairwise_cons.1 hp).1 x hx; omega

example : ∃ s, insertOrdered dbg64 3 linearSearch 15 edge = .ok () s ∧ asSlice dbg64 3 s = .ok [10, 15, 20] s := ⟨_, rfl, rfl⟩

/-! ### C15: false of the code -/

/-- C15 fails: if a destructor panics inside `clear`, `drop_left` or `drop_right`, the chunk still claims the items that were
just destroyed, and destroys them a second time when it is dropped. -/
theorem C15_double_drop_counterexample :
    let run := fun k => ((machine rel64 2 (fun a => a == 1) (fun a => some a)).run
      [.ctor (.pair 1 2), .un 0 k, .drop 0] World.empty).final.map (·.log)
    run .clear = some [1, 2, 1, 2] ∧ run (.dropLeft 1) = some [1, 1, 2] ∧ run (.dropRight 0) = some [1, 2, 1, 2] := by
  decide +kernel

/-- What the part of C15 that holds asks of an action and its result: a `clear`, `drop_left` or `drop_right` did not panic,
and nothing was written through `&mut`. -/
def NoPanicInClear : Op (Ctor A) (Un A) Fork Bin → Obs A → Prop
  | .un _ (.dropLeft _), o => o ≠ .panicked
  | .un _ (.dropRight _), o => o ≠ .panicked
  | .un _ .clear, o => o ≠ .panicked
  | .un _ (.mutate _), _ => False
  | _, _ => True

/-- C15, the part that holds: with destructors that may panic anywhere, as long as no `clear`, `drop_left` or `drop_right`
call panicked (the remaining ways to destroy items are dropping the chunk, refused calls, constructors and iterators), no
element is destroyed, returned or stored more than once in total. -/
theorem C15_no_double_drop_partial [DecidableEq A] (hN : 2 * N < E.W) (ops : List (Op (Ctor A) (Un A) Fork Bin))
    {os : List (Obs A)} {w : World A (Chunk A)} (hr : (machine E N dp cl).run ops World.empty = .ok os w)
    (hg : AllSteps NoPanicInClear ops os) (hd : (inputs.ofRun ops os ++ w.made).Nodup) :
    (outsOf os ++ w.log ++ w.live (peek E N)).Nodup := by
  refine C14_never_twice hN ops hr (AllSteps.imp ?_ hg) hd
  intro op o ho
  cases op with
  | un h k =>
    have hp : o ≠ .panicked → o.panic = false := by cases o <;> simp [Obs.panic]
    cases k <;> first | trivial | exact .inl (hp ho) | exact ho.elim
  | _ => trivial

/-- C15 (partial) is not vacuous: a history with a successful `drop_left` and a panicking destructor in the final drop. -/
example : ((machine rel64 2 (fun a => a == 1) (fun a => some a)).run
    [.ctor (.pair 2 1), .un 0 (.dropLeft 1), .drop 0] World.empty).seen = some [.handle 0, .res .unit, .panicked] := by
  decide +kernel
example : AllSteps (A := Nat) NoPanicInClear [.ctor (.pair 2 1), .un 0 (.dropLeft 1), .drop 0]
    [.handle 0, .res .unit, .panicked] := by simp [AllSteps, NoPanicInClear]
example : ((machine rel64 2 (fun a => a == 1) (fun a => some a)).run
    [.ctor (.pair 2 1), .un 0 (.dropLeft 1), .drop 0] World.empty).final.map (·.log) = some [2, 1] := by decide +kernel

/-! ### C16 -/

theorem bornOf_all {l cs : List A} (h : l.map cl = cs.map some) : Spec.bornOf cl l = cs := by
  induction l generalizing cs with
  | nil => cases cs <;> simp_all [Spec.bornOf]
  | cons a r ih =>
    cases cs with
    | nil => simp at h
    | cons b s =>
      simp only [List.map_cons, List.cons.injEq] at h
      simp [Spec.bornOf, h.1, ih h.2]
theorem bornOf_stop {l₁ l₂ : List A} {x : A} {cs : List A} (h : l₁.map cl = cs.map some) (hx : cl x = none) :
    Spec.bornOf cl (l₁ ++ x :: l₂) = cs := by
  induction l₁ generalizing cs with
  | nil => cases cs <;> simp_all [Spec.bornOf]
  | cons a r ih =>
    cases cs with
    | nil => simp at h
    | cons b s =>
      simp only [List.map_cons, List.cons.injEq] at h
      simp [Spec.bornOf, h.1, ih h.2]

/-- C16. If every item clones (to `cs`, in order), `clone` returns a chunk showing `cs` with the same free room on the left
(hence on the right), and the original is untouched. -/
theorem C16_clone (hN : 2 * N < E.W) (h : View E N c l) (log cs : List A) (hc : l.map cl = cs.map some) :
    ∃ d, clone E N dp cl (c, log) = .ok d (c, log) ∧ View E N d cs ∧ d.left = c.left ∧ d.right = c.right := by
  have hb := bornOf_all hc
  have hlen : cs.length = l.length := by have := congrArg List.length hc; simpa using this.symm
  obtain ⟨d, s, e, ⟨h1, h2⟩, h3, h4, h5⟩ := (clone_ref (E := E) (by omega) dp cl (h.rep hN) log).of_ok
    (b := cs) (t := (l, log)) (by simp only [Spec.clone, hb]; rw [if_pos hlen])
  refine ⟨d, ?_, h1.view E, h2, ?_⟩
  · rw [e]; obtain ⟨s1, s2⟩ := s; simp only at h3 h5; subst h3; subst h5; rfl
  · rw [h1.right_eq, (h.rep hN).right_eq, h2, hlen]
/-- C16. If cloning an item panics, `clone` panics, the original is untouched, and exactly the clones made before are
destroyed, once each, in order. -/
theorem C16_clone_panics (hN : 2 * N < E.W) (l₁ l₂ : List A) (x : A) (h : View E N c (l₁ ++ x :: l₂)) (log cs : List A)
    (hc : l₁.map cl = cs.map some) (hx : cl x = none) (hd : cs.any dp = false) :
    clone E N dp cl (c, log) = .panic (c, log ++ cs) := by
  have hb := bornOf_stop (l₂ := l₂) hc hx
  have hlen : cs.length = l₁.length := by have := congrArg List.length hc; simpa using this.symm
  obtain ⟨s, e, h3, h4, h5⟩ := (clone_ref (E := E) (by omega) dp cl (h.rep hN) log).of_panic
    (t := (l₁ ++ x :: l₂, log ++ cs)) (by
      simp only [Spec.clone, hb]; rw [if_neg (by simp; omega)]; simp [Spec.panicDropping, hd])
  rw [e]; obtain ⟨s1, s2⟩ := s; simp only at h3 h5; subst h3; subst h5; rfl

/-- C16 is not vacuous: `edge` clones, and a clone that panics at the second item destroys the first clone. -/
example : (∃ d, clone dbg64 3 (fun _ => false) (fun a => some (a + 1)) (edge, []) = .ok d (edge, []) ∧ asSlice dbg64 3 d = .ok [11, 21] d) ∧
    (clone dbg64 3 (fun _ => false) (fun a => if a = 20 then none else some (a + 1)) (edge, [])).final.map (·.2) = some [11] :=
  ⟨⟨_, rfl, rfl⟩, rfl⟩

/-! ### C17 -/

theorem specExtend_ok (xs : List A) {l log : List A} (hl : l.length + xs.length ≤ N) :
    Spec.extend N dp (It.ofList xs) (l, log) = .ok () (l ++ xs, log) := by
  induction xs generalizing l with
  | nil => simp [It.ofList, Spec.extend]
  | cons a r ih =>
    simp only [List.length_cons] at hl
    have := ih (l := l ++ [a]) (by simp; omega)
    simp only [It.ofList, List.map_cons, Spec.extend] at *
    rw [if_pos (by omega), this]; simp

/-- What `extend` does with an iterator that yields `xs` (all fitting) and then does `rest`. -/
theorem specExtend_prefix (xs : List A) (rest : It A) {l log : List A} (hl : l.length + xs.length ≤ N) :
    Spec.extend N dp (It.ofList xs ++ rest) (l, log) = Spec.extend N dp rest (l ++ xs, log) := by
  induction xs generalizing l with
  | nil => simp [It.ofList]
  | cons a r ih =>
    simp only [List.length_cons] at hl
    have := ih (l := l ++ [a]) (by simp; omega)
    simp only [It.ofList, List.map_cons, List.cons_append, Spec.extend] at *
    rw [if_pos (by omega), this]; simp

/-- C17. `extend` with items that fit appends them in order. -/
theorem C17_extend (hN : 2 * N < E.W) (h : View E N c l) (xs log : List A) (hl : l.length + xs.length ≤ N) :
    Returns (RelLog (View E N)) (extend E N dp (It.ofList xs) (c, log)) () (l ++ xs, log) :=
  (Ref.viewLog (extend_ref (E := E) (by omega) dp _ (h.rep hN) log)).of_ok (specExtend_ok xs hl)
/-- C17. `extend` past the capacity panics: the items that fitted stay, the one that did not and everything still in the
iterator are dropped once. -/
theorem C17_extend_overflow (hN : 2 * N < E.W) (h : View E N c l) (xs : List A) (a : A) (rest : It A) (log : List A)
    (hl : l.length + xs.length = N) (hd : (a :: rest.owned).any dp = false) :
    ∃ s, extend E N dp (It.ofList xs ++ .item a :: rest) (c, log) = .panic s ∧ View E N s.1 (l ++ xs) ∧
      s.2 = log ++ a :: rest.owned := by
  refine (Ref.viewLog (extend_ref (E := E) (by omega) dp _ (h.rep hN) log)).of_panic (t := (l ++ xs, log ++ a :: rest.owned)) ?_
  rw [specExtend_prefix xs _ (by omega)]
  simp only [Spec.extend, List.length_append]
  rw [if_neg (by omega)]; simp only [Spec.panicDropping, hd]; rfl
/-- C17. If the iterator itself panics, the items pushed before stay. -/
theorem C17_extend_iterator_panics (hN : 2 * N < E.W) (h : View E N c l) (xs : List A) (rest : It A) (log : List A)
    (hl : l.length + xs.length ≤ N) (hd : rest.owned.any dp = false) :
    ∃ s, extend E N dp (It.ofList xs ++ .panic :: rest) (c, log) = .panic s ∧ View E N s.1 (l ++ xs) ∧
      s.2 = log ++ rest.owned := by
  refine (Ref.viewLog (extend_ref (E := E) (by omega) dp _ (h.rep hN) log)).of_panic (t := (l ++ xs, log ++ rest.owned)) ?_
  rw [specExtend_prefix xs _ (by omega)]
  simp only [Spec.extend, Spec.panicDropping, hd]; rfl
/-- C17. `from_iter` (`collect`) with items that fit yields exactly them, in order. -/
theorem C17_from_iter (hN : 2 * N < E.W) (xs log : List A) (hl : xs.length ≤ N) :
    ∃ c, fromIter E N dp (It.ofList xs) log = .ok c log ∧ View E N c xs := by
  obtain ⟨c, s, e, h1, h2⟩ := (fromIter_ref (E := E) (N := N) (by omega) dp (It.ofList xs) log).of_ok (b := xs) (t := log)
    (by simp only [Spec.fromIter]; rw [specExtend_ok xs (by simpa using hl)]; simp)
  subst h2
  exact ⟨c, e, h1.view E⟩
/-- C17. `from_iter` with too many items panics and destroys every item exactly once. -/
theorem C17_from_iter_overflow (hN : 2 * N < E.W) (xs log : List A) (hl : N < xs.length) (hd : xs.any dp = false) :
    ∃ log', fromIter E N dp (It.ofList xs) log = .panic (log ++ log') ∧ log'.Perm xs := by
  have hx : xs = xs.take N ++ xs.drop N := (List.take_append_drop N xs).symm
  have hz : ∃ a r, xs.drop N = a :: r := by
    cases hq : xs.drop N with
    | nil => have := congrArg List.length hq; simp at this; omega
    | cons a r => exact ⟨a, r, rfl⟩
  obtain ⟨a, r, hz⟩ := hz
  have hsub : ∀ ys : List A, (∀ y ∈ ys, y ∈ xs) → ys.any dp = false := by
    intro ys hy
    rw [List.any_eq_false] at hd ⊢
    exact fun y h => hd y (hy y h)
  have e : Spec.fromIter N dp (It.ofList xs) log = .panic (log ++ (a :: r ++ xs.take N)) := by
    have h1 : It.ofList xs = It.ofList (xs.take N) ++ .item a :: It.ofList r := by
      conv => lhs; rw [hx, hz]
      simp [It.ofList]
    simp only [Spec.fromIter]
    rw [h1, specExtend_prefix _ _ (by simp; omega)]
    simp only [Spec.extend, List.nil_append]
    rw [if_neg (by simp; omega), It.owned_ofList]
    have h2 : (a :: r).any dp = false := hsub _ (fun y hy => by rw [← hz] at hy; exact List.mem_of_mem_drop hy)
    have h3 : (xs.take N).any dp = false := hsub _ (fun y hy => List.mem_of_mem_take hy)
    simp only [Spec.panicDropping, h2]
    simp [h3]
  obtain ⟨s, e', h2⟩ := (fromIter_ref (E := E) (N := N) (by omega) dp (It.ofList xs) log).of_panic e
  refine ⟨_, by rw [e', h2], ?_⟩
  rw [← hz]
  exact List.perm_append_comm.trans (by rw [List.take_append_drop])
/-- C17. `collect_from(iter, n)` takes exactly `n` items and leaves the rest in the caller's iterator. -/
theorem C17_collect_from (hN : 2 * N < E.W) (n : Nat) (it : It A) (log : List A) (hn : n ≤ it.items.length) (hc : n ≤ N) :
    ∃ c, collectFrom E N dp n (it, log) = .ok c (it.drop n, log) ∧ View E N c (it.items.take n) := by
  obtain ⟨c, s, e, h1, h2⟩ := (collectFrom_ref (E := E) (N := N) (by omega) dp n it log).of_ok (b := it.items.take n) (t := (it.drop n, log))
    (by simp only [Spec.collectFrom]; rw [if_pos hn, if_pos hc])
  subst h2
  exact ⟨c, e, h1.view E⟩
/-- C17. `collect_from` with too few items (or an iterator that panics) panics and destroys what it had collected. -/
theorem C17_collect_from_short (hN : 2 * N < E.W) (n : Nat) (it : It A) (log : List A) (hn : it.items.length < n)
    (hc : it.items.length ≤ N) (hd : it.items.any dp = false) :
    collectFrom E N dp n (it, log) = .panic (it.drop (it.items.length + 1), log ++ it.items) := by
  obtain ⟨s, e, h2⟩ := (collectFrom_ref (E := E) (N := N) (by omega) dp n it log).of_panic
    (t := (it.drop (it.items.length + 1), log ++ it.items))
    (by simp only [Spec.collectFrom]; rw [if_neg (by omega), if_pos hc]; simp [hd])
  rw [e, h2]

/-- C17. `collect_from` asked for more items than fit, with enough items coming: it panics after taking `N + 1` items; these are destroyed
exactly once (the one that did not fit first) and the rest stays in the caller's iterator. -/
theorem C17_collect_from_overflow (hN : 2 * N < E.W) (n : Nat) (it : It A) (log : List A) (hn : N < n)
    (hc : N < it.items.length) (hd : (it.items.take (N + 1)).any dp = false) :
    ∃ log', collectFrom E N dp n (it, log) = .panic (it.drop (N + 1), log ++ log') ∧ log'.Perm (it.items.take (N + 1)) := by
  obtain ⟨s, e, h2⟩ := (collectFrom_ref (E := E) (N := N) (by omega) dp n it log).of_panic
    (t := (it.drop (N + 1), log ++ (it.items.drop N).take 1 ++ it.items.take N))
    (by
      simp only [Spec.collectFrom]
      by_cases h : n ≤ it.items.length
      · rw [if_pos h, if_neg (by omega)]; simp [hd]
      · rw [if_neg h, if_neg (by omega)]; simp [hd])
  refine ⟨_, by rw [e, h2, List.append_assoc], ?_⟩
  rw [List.take_add]
  exact List.perm_append_comm
/-- C17. `from_iter` with an iterator that panics after `xs`: the panic goes on to the caller; the items already collected and those the iterator
still owned are all destroyed, exactly once. -/
theorem C17_from_iter_iter_panics (hN : 2 * N < E.W) (xs : List A) (rest : It A) (log : List A) (hl : xs.length ≤ N)
    (hd : rest.owned.any dp = false) (hx : xs.any dp = false) :
    fromIter E N dp (It.ofList xs ++ .panic :: rest) log = .panic (log ++ rest.owned ++ xs) := by
  have e : Spec.fromIter N dp (It.ofList xs ++ .panic :: rest) log = .panic (log ++ rest.owned ++ xs) := by
    simp only [Spec.fromIter]
    rw [specExtend_prefix _ _ (by simp; omega)]
    simp only [Spec.extend, Spec.panicDropping, hd]
    simp [hx]
  obtain ⟨s, e', h2⟩ := (fromIter_ref (E := E) (N := N) (by omega) dp _ log).of_panic e
  rw [e', h2]

/-- C17 is not vacuous. -/
example : (∃ s, extend dbg64 3 (fun _ => false) (It.ofList [1, 2, 3]) (edge, []) = .panic s ∧ s.2 = [2, 3] ∧
      asSlice dbg64 3 s.1 = .ok [10, 20, 1] s.1) ∧
    (∃ c, collectFrom dbg64 3 (fun _ => false) 2 (It.ofList [1, 2, 3], []) = .ok c ([.item 3], []) ∧ asSlice dbg64 3 c = .ok [1, 2] c) :=
  ⟨⟨_, rfl, rfl, rfl⟩, ⟨_, rfl, rfl⟩⟩

/-! ### C18 -/

/-- Call `next` (`true`) or `next_back` (`false`) on a consuming or draining iterator, in any order. -/
def iterate (E : Env) (N : Nat) : List Bool → M (Chunk A) (List (Option A))
  | [] => pure []
  | front :: r => do
    let a ← if front = true then iterNext E N else iterNextBack E N
    let rest ← iterate E N r
    return a :: rest

/-- What a sequence of `next`/`next_back` calls may yield from `l`: `fs` is what the `next` calls gave, `bs` what the
`next_back` calls gave, `rest` what is left. -/
structure Yielded (l : List A) (sched : List Bool) (out : List (Option A)) (fs bs rest : List A) : Prop where
  /-- together they are exactly the contents, fronts first, backs from the end -/
  split : l = fs ++ rest ++ bs.reverse
  /-- one answer per call -/
  length : out.length = sched.length
  /-- the `next` calls yield `fs` in order, then only `None` -/
  fronts : ∃ n, ((sched.zip out).filter (fun p => p.1)).map (·.2) = fs.map some ++ List.replicate n none
  /-- the `next_back` calls yield `bs` in order, then only `None` -/
  backs : ∃ n, ((sched.zip out).filter (fun p => !p.1)).map (·.2) = bs.map some ++ List.replicate n none
  /-- `None` is only ever answered when nothing is left -/
  dry : none ∈ out → rest = []

theorem Yielded.run {sched : List Bool} {l : List A} {f : List Bool → List A → List (Option A) × List A}
    (hnil : ∀ l, f [] l = ([], l))
    (hcons : ∀ front r l, f (front :: r) l =
      ((if front = true then l.head? else l.getLast?) :: (f r (if front = true then l.tail else l.dropLast)).1,
        (f r (if front = true then l.tail else l.dropLast)).2)) :
    ∃ fs bs, Yielded l sched (f sched l).1 fs bs (f sched l).2 := by
  induction sched generalizing l with
  | nil =>
    refine ⟨[], [], ?_⟩
    rw [hnil]
    exact ⟨by simp, rfl, ⟨0, rfl⟩, ⟨0, rfl⟩, by simp⟩
  | cons front r ih =>
    rw [hcons]
    cases l with
    | nil =>
      obtain ⟨fs, bs, h1, h2, ⟨n, h3⟩, ⟨m, h4⟩, h5⟩ := ih (l := [])
      have e : (if front = true then ([] : List A).tail else ([] : List A).dropLast) = [] := by cases front <;> rfl
      have e' : (if front = true then ([] : List A).head? else ([] : List A).getLast?) = none := by cases front <;> rfl
      rw [e, e']
      have h0 : fs = [] ∧ (f r []).2 = [] ∧ bs = [] := by
        have := congrArg List.length h1
        simp only [List.length_nil, List.length_append, List.length_reverse] at this
        exact ⟨List.length_eq_zero_iff.1 (by omega), List.length_eq_zero_iff.1 (by omega), List.length_eq_zero_iff.1 (by omega)⟩
      obtain ⟨rfl, h0, rfl⟩ := h0
      refine ⟨[], [], by simp [h0], by simp [h2], ?_, ?_, fun _ => h0⟩
      · cases front
        · exact ⟨n, by simpa using h3⟩
        · exact ⟨n + 1, by simp [h3, List.replicate_succ]⟩
      · cases front
        · exact ⟨m + 1, by simp [h4, List.replicate_succ]⟩
        · exact ⟨m, by simpa using h4⟩
    | cons a t =>
      cases front with
      | true =>
        obtain ⟨fs, bs, h1, h2, ⟨n, h3⟩, ⟨m, h4⟩, h5⟩ := ih (l := t)
        refine ⟨a :: fs, bs, ?_, ?_, ⟨n, ?_⟩, ⟨m, ?_⟩, ?_⟩
        · simp only [if_true, List.tail_cons]; rw [List.cons_append, List.cons_append, ← h1]
        · simp [h2]
        · simpa using h3
        · simpa using h4
        · simpa using h5
      | false =>
        have hx : (a :: t).getLast? = some ((a :: t).getLast (by simp)) := List.getLast?_eq_some_getLast (by simp)
        obtain ⟨fs, bs, h1, h2, ⟨n, h3⟩, ⟨m, h4⟩, h5⟩ := ih (l := (a :: t).dropLast)
        refine ⟨fs, (a :: t).getLast (by simp) :: bs, ?_, ?_, ⟨n, ?_⟩, ⟨m, ?_⟩, ?_⟩
        · simp only [Bool.false_eq_true, if_false]
          have hd := List.dropLast_concat_getLast (l := a :: t) (by simp)
          rw [List.reverse_cons, ← List.append_assoc, ← h1]; exact hd.symm
        · simp [h2]
        · simpa using h3
        · simpa [hx] using h4
        · simpa [hx] using h5

/-- The list counterpart of `iterate`. -/
def specIterate : List Bool → List A → List (Option A) × List A
  | [], l => ([], l)
  | front :: r, l => let p := specIterate r (if front = true then l.tail else l.dropLast)
    ((if front = true then l.head? else l.getLast?) :: p.1, p.2)

theorem iterate_eq (hN : 2 * N < E.W) (sched : List Bool) (h : View E N c l) :
    Returns (View E N) (iterate E N sched c) (specIterate sched l).1 (specIterate sched l).2 := by
  induction sched generalizing c l with
  | nil => exact ⟨c, rfl, h⟩
  | cons front r ih =>
    cases front with
    | true =>
      obtain ⟨s, e, h1⟩ := (iterNext_ref (E := E) (by omega) (h.rep hN)).of_ok (a := l.head?) (t := l.tail) rfl
      obtain ⟨s', e', h2⟩ := ih (h1.view E)
      exact ⟨s', by simp [iterate, specIterate, e, e'], h2⟩
    | false =>
      obtain ⟨s, e, h1⟩ := (iterNextBack_ref (E := E) (h.rep hN)).of_ok (a := l.getLast?) (t := l.dropLast) rfl
      obtain ⟨s', e', h2⟩ := ih (h1.view E)
      exact ⟨s', by simp [iterate, specIterate, e, e'], h2⟩

/-- C18. Whatever the interleaving of `next` and `next_back` on a consuming or draining iterator, the items yielded at
the front, those left, and those yielded at the back (reversed) are together exactly the contents; exhausted iterators
stay exhausted; what an abandoned drain leaves is exactly the rest; `size_hint` is exact. -/
theorem C18_iterators (hN : 2 * N < E.W) (h : View E N c l) (sched : List Bool) :
    ∃ out fs bs rest c', iterate E N sched c = .ok out c' ∧ Yielded l sched out fs bs rest ∧ View E N c' rest ∧
      sizeHint E c' = .ok (rest.length, some rest.length) c' := by
  obtain ⟨s, e, h1⟩ := iterate_eq hN sched h
  obtain ⟨fs, bs, hy⟩ := Yielded.run (sched := sched) (l := l) (f := specIterate) (fun _ => rfl) (fun _ _ _ => rfl)
  exact ⟨_, fs, bs, _, s, e, hy, h1, sizeHint_eq (h1.rep hN)⟩

/-- C18. Once as many calls have been made as there are items, all items have been yielded. -/
theorem C18_exhausts (hN : 2 * N < E.W) (h : View E N c l) (sched : List Bool) (hs : l.length ≤ sched.length) :
    ∃ out c', iterate E N sched c = .ok out c' ∧ View E N c' [] := by
  obtain ⟨s, e, h1⟩ := iterate_eq hN sched h
  refine ⟨_, s, e, ?_⟩
  have : ∀ (sched : List Bool) (l : List A), l.length ≤ sched.length → (specIterate sched l).2 = [] := by
    intro sched
    induction sched with
    | nil => intro l hl; simpa [specIterate] using hl
    | cons f r ih =>
      intro l hl
      simp only [specIterate]
      apply ih
      simp only [List.length_cons] at hl
      cases f <;> simp <;> omega
  rwa [this sched l hs] at h1

/-- C18 is not vacuous: `edge` iterated back, front, front. -/
example : ∃ c', iterate dbg64 3 [false, true, true] edge = .ok [some 20, some 10, none] c' ∧ asSlice dbg64 3 c' = .ok [] c' := ⟨_, rfl, rfl⟩

/-! ### C19 -/

/-- C19. `write` takes the leading `min(buf.len(), free)` bytes, reports that count, never panics. -/
theorem C19_write (hN : 2 * N < E.W) (h : View E N c l) (buf : List A) :
    Returns (View E N) (write E N buf c) (min buf.length (N - l.length)) (l ++ buf.take (N - l.length)) :=
  (Ref.view (write_ref (E := E) (by omega) buf (h.rep hN))).of_ok rfl
/-- C19. `read` returns and removes the oldest `min(buf.len(), len)` bytes, never panics. -/
theorem C19_read (hN : 2 * N < E.W) (h : View E N c l) (n : Nat) :
    Returns (View E N) (read E N n c) (min n l.length, l.take n) (l.drop n) :=
  (Ref.view (read_ref (E := E) (by omega) n (h.rep hN))).of_ok rfl

/-- Bytes written and read, in order, over a sequence of io calls: `some buf` writes `buf`, `none` with a size reads. -/
def ioRun (E : Env) (N : Nat) : List (List A ⊕ Nat) → M (Chunk A) (List A × List A)
  | [] => pure ([], [])
  | .inl buf :: r => do
    let n ← write E N buf
    let p ← ioRun E N r
    return (buf.take n ++ p.1, p.2)
  | .inr n :: r => do
    let x ← read E N n
    let p ← ioRun E N r
    return (p.1, x.2 ++ p.2)

/-- C19. Over any sequence of writes and reads the chunk is a FIFO pipe: old contents followed by the accepted bytes equals
the bytes read followed by what is still inside. -/
theorem C19_pipe (hN : 2 * N < E.W) (h : View E N c l) (ops : List (List A ⊕ Nat)) :
    ∃ accepted got c' rest, ioRun E N ops c = .ok (accepted, got) c' ∧ View E N c' rest ∧ l ++ accepted = got ++ rest := by
  induction ops generalizing c l with
  | nil => exact ⟨[], [], c, l, rfl, h, by simp⟩
  | cons op r ih =>
    cases op with
    | inl buf =>
      obtain ⟨s, e, h1⟩ := C19_write hN h buf
      obtain ⟨acc, got, c', rest, e', h2, h3⟩ := ih h1
      refine ⟨buf.take (min buf.length (N - l.length)) ++ acc, got, c', rest, (by simp only [ioRun, M.bind_run, e, Out.andThen_ok, e', M.pure_run]), h2, ?_⟩
      rw [← h3]
      have : buf.take (min buf.length (N - l.length)) = buf.take (N - l.length) := by
        rw [List.take_eq_take_iff]; omega
      simp [this]
    | inr n =>
      obtain ⟨s, e, h1⟩ := C19_read hN h n
      obtain ⟨acc, got, c', rest, e', h2, h3⟩ := ih h1
      refine ⟨acc, l.take n ++ got, c', rest, (by simp only [ioRun, M.bind_run, e, Out.andThen_ok, e', M.pure_run]), h2, ?_⟩
      rw [List.append_assoc, ← h3, ← List.append_assoc, List.take_append_drop]

/-- C19 is not vacuous. -/
example : (ioRun dbg64 3 [.inl [1, 2, 3], .inr 2, .inl [4, 5], .inr 9] edge).seen = some ([1, 4, 5], [10, 20, 1, 4, 5]) := by
  decide +kernel

/-! ### C20, C21 -/

/-- C20. Comparing a chunk with a slice (or anything that borrows as one) says whether the contents are elementwise equal. -/
theorem C20_eq_slice (h : View E N c l) (eq : A → A → Bool) (k : List A) :
    ∃ b, eqSlice E N eq k c = .ok b c ∧ (b = true ↔ l.length = k.length ∧
      ∀ (i : Nat) x y, l[i]? = some x → k[i]? = some y → eq x y = true) := by
  unfold View at h
  exact ⟨seqEq eq l k, by simp [eqSlice, h], seqEq_iff eq l k⟩
/-- C20. Two chunks (even of different capacities) are equal iff their contents are, however they are laid out. -/
theorem C20_eq_chunk {N' : Nat} [DecidableEq A] (h : View E N c l) (h' : View E N' d k) :
    eqChunk E N N' (fun a b => decide (a = b)) (c, d) = .ok (decide (l = k)) (c, d) := by
  unfold View at h h'
  simp only [eqChunk, M.bind_run, M.onFst_run, M.onSnd_run, h, h', Out.mapState_ok, Out.andThen_ok, M.pure_run]
  congr 1
  rw [Bool.eq_iff_iff, seqEq_eq]; simp
/-- C20. `cmp` orders chunks lexicographically by contents: equal, before, after. -/
theorem C20_cmp (h : View E N c l) (h' : View E N d k) (f : A → A → Ordering) (hf : ∀ a b, f b a = (f a b).swap) :
    ∃ o, cmp E N f (c, d) = .ok o (c, d) ∧
      (o = .eq ↔ l.length = k.length ∧ ∀ (i : Nat) x y, l[i]? = some x → k[i]? = some y → f x y = .eq) ∧
      (o = .lt ↔ LexBefore f l k) ∧ (o = .gt ↔ LexBefore f k l) := by
  unfold View at h h'
  refine ⟨seqCmp f l k, by simp [cmp, h, h'], seqCmp_eq_iff f l k, seqCmp_lt_iff f l k, ?_⟩
  rw [← seqCmp_lt_iff, seqCmp_swap f hf l k]
  cases seqCmp f l k <;> simp
/-- C20. `partial_cmp` agrees with `cmp` when the items are totally ordered. -/
theorem C20_partialCmp (h : View E N c l) (h' : View E N d k) (f : A → A → Ordering) :
    partialCmp E N (fun a b => some (f a b)) (c, d) = .ok (some (seqCmp f l k)) (c, d) ∧
    cmp E N f (c, d) = .ok (seqCmp f l k) (c, d) := by
  unfold View at h h'
  exact ⟨by simp [partialCmp, h, h', seqPartialCmp_total], by simp [cmp, h, h']⟩
/-- C20. The data fed to a hasher depends only on the contents: equal chunks hash equally. -/
theorem C20_hash {H : Type} (hash' : A → List (Feed H)) (h : View E N c l) (h' : View E N d l) :
    ∃ f, hash E N hash' c = .ok f c ∧ hash E N hash' d = .ok f d := by
  unfold View at h h'
  exact ⟨_, by simp [hash, h]; rfl, by simp [hash, h']⟩

/-- C20 is not vacuous: the same contents at two different places. -/
example : View dbg64 3 edge [10, 20] ∧ View dbg64 3 ({ left := 0, right := 2, mem := (Mem.uninit.put 0 10).put 1 20 } : Chunk Nat) [10, 20] :=
  ⟨rfl, rfl⟩

/-- C21 fails: a chunk borrows as a slice but does not hash like it (the slice's length prefix is missing), for every chunk
whatever its contents. -/
theorem C21_hash_differs_from_slice {H : Type} (hash' : A → List (Feed H)) (hw : ∀ a, ∀ f ∈ hash' a, ∃ w, f = .word w)
    (h : View E N c l) : ∃ f, hash E N hash' c = .ok f c ∧ f ≠ hashSlice hash' l := by
  unfold View at h
  refine ⟨hashItems hash' l, by simp [hash, h], ?_⟩
  intro e
  unfold hashItems hashSlice at e
  cases hx : l.flatMap hash' with
  | nil => rw [hx] at e; cases e
  | cons f r =>
    have hm : f ∈ l.flatMap hash' := by rw [hx]; simp
    obtain ⟨a, _, ha⟩ := List.mem_flatMap.1 hm
    obtain ⟨w, rfl⟩ := hw a f ha
    rw [hx] at e
    cases e
/-- C21, the part that holds: what is fed is exactly the slice's feed without its length prefix, so chunks that are equal as
slices do hash equally among themselves. -/
theorem C21_feed_partial {H : Type} (hash' : A → List (Feed H)) (h : View E N c l) :
    ∃ f, hash E N hash' c = .ok f c ∧ hashSlice hash' l = .len l.length :: f := by
  unfold View at h
  exact ⟨hashItems hash' l, by simp [hash, h], rfl⟩

end Chunk
end Verif
