import Verif.Props.ChunkHistory
/-
Properties of single `Chunk` calls, for every chunk (whatever its internal layout) showing a list `l`:
C04 - C08, C22.
-/
namespace Verif.Chunk
variable {A : Type} {E : Env} {N : Nat} {dp : A → Bool} {cl : A → Option A} {c d : Chunk A} {l k : List A}

/-- Close the two specification side goals of a `PanicsExactly` proof. -/
local macro "spec_cases" : tactic => `(tactic| all_goals (intro hc; first | (simp_all; done) | (simp_all; omega)))

/-! ### C04 -/

/-- C04. `push_front` panics exactly on a full chunk, which then keeps its contents. -/
theorem C04_push_front (hN : 2 * N < E.W) (h : View E N c l) (v : A) :
    PanicsExactly (View E N) l (pushFront E N v c) (l.length = N) := by
  have hl := (h.rep hN).length_le
  refine (Ref.view (pushFront_ref (h.rep hN) v)).panicsExactly ?_ ?_ <;> intro hc <;> unfold Spec.pushFront
  · rw [if_neg (by omega)]
  · rw [if_pos (by omega)]; exact ⟨_, _, rfl⟩
/-- C04. `push_back` panics exactly on a full chunk, which then keeps its contents. -/
theorem C04_push_back (hN : 2 * N < E.W) (h : View E N c l) (v : A) :
    PanicsExactly (View E N) l (pushBack E N v c) (l.length = N) := by
  have hl := (h.rep hN).length_le
  refine (Ref.view (pushBack_ref (E := E) (by omega) (h.rep hN) v)).panicsExactly ?_ ?_ <;> intro hc <;> unfold Spec.pushBack
  · rw [if_neg (by omega)]
  · rw [if_pos (by omega)]; exact ⟨_, _, rfl⟩
/-- C04. `pop_front` panics exactly on an empty chunk. -/
theorem C04_pop_front (hN : 2 * N < E.W) (h : View E N c l) :
    PanicsExactly (View E N) l (popFront E N c) (l = []) := by
  refine (Ref.view (popFront_ref (E := E) (by omega) (h.rep hN))).panicsExactly ?_ ?_ <;> intro hc <;> unfold Spec.popFront
  · subst hc; rfl
  · cases l with
    | nil => exact absurd rfl hc
    | cons a r => exact ⟨_, _, rfl⟩
/-- C04. `pop_back` panics exactly on an empty chunk. -/
theorem C04_pop_back (hN : 2 * N < E.W) (h : View E N c l) :
    PanicsExactly (View E N) l (popBack E N c) (l = []) := by
  refine (Ref.view (popBack_ref (h.rep hN))).panicsExactly ?_ ?_ <;> intro hc <;> unfold Spec.popBack
  · subst hc; rfl
  · cases hx : l.getLast? with
    | none => simp at hx; exact absurd hx hc
    | some a => exact ⟨_, _, rfl⟩
/-- C04. Indexing panics exactly when the index is out of range. -/
theorem C04_index (hN : 2 * N < E.W) (h : View E N c l) (i : Nat) :
    PanicsExactly (View E N) l (index E N i c) (l.length ≤ i) := by
  refine (Ref.view (index_ref (h.rep hN) i)).panicsExactly ?_ ?_ <;> intro hc <;> unfold Spec.index
  · rw [List.getElem?_eq_none hc]
  · rw [List.getElem?_eq_getElem (by omega)]; exact ⟨_, _, rfl⟩
/-- C04. `set` panics exactly when the index is out of range. -/
theorem C04_set (hN : 2 * N < E.W) (h : View E N c l) (i : Nat) (v : A) :
    PanicsExactly (View E N) l (set E N i v c) (l.length ≤ i) := by
  refine (Ref.view (set_ref (h.rep hN) i v)).panicsExactly ?_ ?_ <;> intro hc <;> unfold Spec.set
  · rw [List.getElem?_eq_none hc]
  · rw [List.getElem?_eq_getElem (by omega)]; exact ⟨_, _, rfl⟩
/-- C04. `insert` panics exactly on a full chunk or when the index is past the end. -/
theorem C04_insert (hN : 2 * N < E.W) (h : View E N c l) (i : Nat) (v : A) :
    PanicsExactly (View E N) l (insert E N i v c) (l.length = N ∨ l.length < i) := by
  have hl := (h.rep hN).length_le
  refine (Ref.view (insert_ref (E := E) (by omega) (h.rep hN) i v)).panicsExactly ?_ ?_ <;> intro hc <;> unfold Spec.insert
  · rw [if_neg (by omega)]
  · rw [if_pos (by omega)]; exact ⟨_, _, rfl⟩
/-- C04. `remove` panics exactly when the index is out of range. -/
theorem C04_remove (hN : 2 * N < E.W) (h : View E N c l) (i : Nat) :
    PanicsExactly (View E N) l (remove E N i c) (l.length ≤ i) := by
  refine (Ref.view (remove_ref (E := E) (by omega) (h.rep hN) i)).panicsExactly ?_ ?_ <;> intro hc <;> unfold Spec.remove
  · rw [List.getElem?_eq_none hc]
  · rw [List.getElem?_eq_getElem (by omega)]; exact ⟨_, _, rfl⟩
/-- C04. `split_off` panics exactly when the index is past the end. -/
theorem C04_split_off (hN : 2 * N < E.W) (h : View E N c l) (i : Nat) :
    PanicsExactly (View E N) l (splitOff E N i c) (l.length < i) := by
  refine ((splitOff_ref (E := E) (by omega) (h.rep hN) i).imp (fun _ _ h => h) (fun _ _ h => h.view E)).panicsExactly ?_ ?_ <;>
    intro hc <;> unfold Spec.splitOff
  · rw [if_neg (by omega)]
  · rw [if_pos (by omega)]; exact ⟨_, _, rfl⟩
/-- C04. `append` panics exactly when the items do not fit; then both chunks keep their contents. -/
theorem C04_append (hN : 2 * N < E.W) (h : View E N c l) (h' : View E N d k) :
    PanicsExactly (View2 E N) (l, k) (append E N (c, d)) (N < l.length + k.length) := by
  refine (Ref.view2 (append_ref hN (h.rep hN) (h'.rep hN))).panicsExactly ?_ ?_ <;> intro hc <;> unfold Spec.append
  · rw [if_neg (by simpa using hc)]
  · rw [if_pos (by simpa using hc)]; exact ⟨_, _, rfl⟩
/-- C04. `drain_from_front` panics exactly when the source is too short or the destination too full; then both chunks
keep their contents.  The count is unrestricted (up to and past `usize::MAX`). -/
theorem C04_drain_from_front (hN : 2 * N < E.W) (h : View E N c l) (h' : View E N d k) (n : Nat) :
    PanicsExactly (View2 E N) (l, k) (drainFromFront E N n (c, d)) (k.length < n ∨ N < l.length + n) := by
  refine (Ref.view2 (drainFromFront_ref hN (h.rep hN) (h'.rep hN) n)).panicsExactly ?_ ?_ <;> intro hc <;>
    unfold Spec.drainFromFront
  · rw [if_neg (by simp; omega)]
  · rw [if_pos (by simp; omega)]; exact ⟨_, _, rfl⟩
/-- C04. `drain_from_back`, likewise. -/
theorem C04_drain_from_back (hN : 2 * N < E.W) (h : View E N c l) (h' : View E N d k) (n : Nat) :
    PanicsExactly (View2 E N) (l, k) (drainFromBack E N n (c, d)) (k.length < n ∨ N < l.length + n) := by
  refine (Ref.view2 (drainFromBack_ref hN (h.rep hN) (h'.rep hN) n)).panicsExactly ?_ ?_ <;> intro hc <;>
    unfold Spec.drainFromBack
  · rw [if_neg (by simp; omega)]
  · rw [if_pos (by simp; omega)]; exact ⟨_, _, rfl⟩
/-- C04. `drop_left` with an index past the end panics, drops nothing and keeps the contents. -/
theorem C04_drop_left (hN : 2 * N < E.W) (h : View E N c l) (i : Nat) (log : List A) (hi : l.length < i) :
    ∃ s, dropLeft E N dp i (c, log) = .panic s ∧ View E N s.1 l ∧ s.2 = log := by
  have e : Spec.dropLeft dp i (l, log) = .panic (l, log) := by
    simp only [Spec.dropLeft]; rw [if_neg (by omega)]
  obtain ⟨s, e, h1, h2⟩ := (dropLeft_ref (E := E) (by omega) dp i (h.rep hN) log).of_panic e
  exact ⟨s, e, h1.view E, h2⟩
/-- C04. `drop_right` with an index past the end panics, drops nothing and keeps the contents. -/
theorem C04_drop_right (hN : 2 * N < E.W) (h : View E N c l) (i : Nat) (log : List A) (hi : l.length < i) :
    ∃ s, dropRight E N dp i (c, log) = .panic s ∧ View E N s.1 l ∧ s.2 = log := by
  have e : Spec.dropRight dp i (l, log) = .panic (l, log) := by
    simp only [Spec.dropRight]; rw [if_neg (by omega)]
  obtain ⟨s, e, h1, h2⟩ := (dropRight_ref (E := E) (by omega) dp i (h.rep hN) log).of_panic e
  exact ⟨s, e, h1.view E, h2⟩
/-- C04. `drop_left`, `drop_right` and `clear` do what they say when no dropped item's destructor panics. -/
theorem C04_drop_ok (hN : 2 * N < E.W) (h : View E N c l) (i : Nat) (log : List A) (hi : i ≤ l.length)
    (hd : ∀ a ∈ l, dp a = false) :
    Returns (RelLog (View E N)) (dropLeft E N dp i (c, log)) () (l.drop i, log ++ l.take i) ∧
    Returns (RelLog (View E N)) (dropRight E N dp i (c, log)) () (l.take i, log ++ l.drop i) ∧
    Returns (RelLog (View E N)) (clear E N dp (c, log)) () ([], log ++ l) := by
  have z : ∀ d : List A, (∀ a ∈ d, a ∈ l) → d.countP dp = 0 := by
    intro d hdl
    rw [List.countP_eq_zero]
    intro a ha; simp [hd a (hdl a ha)]
  refine ⟨?_, ?_, ?_⟩
  · refine (Ref.viewLog (dropLeft_ref (E := E) (by omega) dp i (h.rep hN) log)).of_ok ?_
    simp only [Spec.dropLeft]; rw [if_pos hi, dropping_zero (z _ fun a ha => List.mem_of_mem_take ha)]
  · refine (Ref.viewLog (dropRight_ref (E := E) (by omega) dp i (h.rep hN) log)).of_ok ?_
    simp only [Spec.dropRight]; rw [if_pos hi, dropping_zero (z _ fun a ha => List.mem_of_mem_drop ha)]
  · refine (Ref.viewLog (clear_ref dp (h.rep hN) log)).of_ok ?_
    simp only [Spec.clear]; rw [dropping_zero (z _ fun a ha => ha)]
/-- C04. `unit` and `pair` panic exactly when the capacity is too small. -/
theorem C04_unit_pair (v w : A) :
    (1 ≤ N → ∃ c, unit N v () = .ok c () ∧ View E N c [v]) ∧ (¬ 1 ≤ N → unit N v () = .panic ()) ∧
    (2 ≤ N → ∃ c, pair N v w () = .ok c () ∧ View E N c [v, w]) ∧ (¬ 2 ≤ N → pair N v w () = .panic ()) := by
  refine ⟨?_, ?_, ?_, ?_⟩ <;> intro hn
  · obtain ⟨a, s, e, h1, h2⟩ := (unit_ref v).of_ok (by unfold Spec.unit; rw [if_pos hn])
    exact ⟨a, e, h1.view E⟩
  · obtain ⟨s, e, h2⟩ := (unit_ref v).of_panic (by unfold Spec.unit; rw [if_neg hn])
    exact e
  · obtain ⟨a, s, e, h1, h2⟩ := (pair_ref v w).of_ok (by unfold Spec.pair; rw [if_pos hn])
    exact ⟨a, e, h1.view E⟩
  · obtain ⟨s, e, h2⟩ := (pair_ref v w).of_panic (by unfold Spec.pair; rw [if_neg hn])
    exact e

/-- A chunk with room on neither side of its items being contiguous at the right edge: slots 1 and 2 of 3. -/
def edge : Chunk Nat := { left := 1, right := 3, mem := (Mem.uninit.put 1 10).put 2 20 }

/-- C04 - C08 are not vacuous: `edge` shows `[10, 20]`, is neither empty nor full, and is not left-aligned. -/
example : View dbg64 3 edge [10, 20] ∧ 2 * 3 < dbg64.W := ⟨rfl, by decide⟩

/-! ### C05 -/

/-- C05. `push_back` then `pop_back` returns the pushed value and restores the contents. -/
theorem C05_push_back_pop_back (hN : 2 * N < E.W) (h : View E N c l) (hl : l.length < N) (v : A) :
    Returns (View E N) ((do pushBack E N v; popBack E N) c) v l := by
  obtain ⟨s, e, h1⟩ := (pushBack_ref (E := E) (by omega) (h.rep hN) v).of_ok (by unfold Spec.pushBack; rw [if_pos hl])
  obtain ⟨s', e', h2⟩ := (popBack_ref (E := E) h1).of_ok (a := v) (t := l) (by unfold Spec.popBack; simp)
  exact ⟨s', by simp [e, e'], h2.view E⟩
/-- C05. `push_front` then `pop_front` returns the pushed value and restores the contents. -/
theorem C05_push_front_pop_front (hN : 2 * N < E.W) (h : View E N c l) (hl : l.length < N) (v : A) :
    Returns (View E N) ((do pushFront E N v; popFront E N) c) v l := by
  obtain ⟨s, e, h1⟩ := (pushFront_ref (E := E) (h.rep hN) v).of_ok (by unfold Spec.pushFront; rw [if_pos hl])
  obtain ⟨s', e', h2⟩ := (popFront_ref (E := E) (by omega) h1).of_ok (a := v) (t := l) rfl
  exact ⟨s', by simp [e, e'], h2.view E⟩

/-- Push a whole list at the back, one item at a time. -/
def pushAllBack (E : Env) (N : Nat) : List A → M (Chunk A) Unit
  | [] => pure ()
  | a :: r => do pushBack E N a; pushAllBack E N r
/-- Push a whole list at the front, one item at a time. -/
def pushAllFront (E : Env) (N : Nat) : List A → M (Chunk A) Unit
  | [] => pure ()
  | a :: r => do pushFront E N a; pushAllFront E N r
/-- Pop `n` items from the front. -/
def popAllFront (E : Env) (N : Nat) : Nat → M (Chunk A) (List A)
  | 0 => pure []
  | n + 1 => do
    let a ← popFront E N
    let r ← popAllFront E N n
    return a :: r
/-- Pop `n` items from the back. -/
def popAllBack (E : Env) (N : Nat) : Nat → M (Chunk A) (List A)
  | 0 => pure []
  | n + 1 => do
    let a ← popBack E N
    let r ← popAllBack E N n
    return a :: r

theorem pushAllBack_ok (hN : 2 * N < E.W) (h : View E N c l) (vs : List A) (hl : l.length + vs.length ≤ N) :
    Returns (View E N) (pushAllBack E N vs c) () (l ++ vs) := by
  induction vs generalizing c l with
  | nil => exact ⟨c, rfl, by simpa using h⟩
  | cons a r ih =>
    simp only [List.length_cons] at hl
    obtain ⟨s, e, h1⟩ := (pushBack_ref (E := E) (by omega) (h.rep hN) a).of_ok (by unfold Spec.pushBack; rw [if_pos (by omega)])
    obtain ⟨s', e', h2⟩ := ih (h1.view E) (by simp; omega)
    exact ⟨s', by simp [pushAllBack, e, e'], by simpa using h2⟩
theorem pushAllFront_ok (hN : 2 * N < E.W) (h : View E N c l) (vs : List A) (hl : l.length + vs.length ≤ N) :
    Returns (View E N) (pushAllFront E N vs c) () (vs.reverse ++ l) := by
  induction vs generalizing c l with
  | nil => exact ⟨c, rfl, by simpa using h⟩
  | cons a r ih =>
    simp only [List.length_cons] at hl
    obtain ⟨s, e, h1⟩ := (pushFront_ref (E := E) (h.rep hN) a).of_ok (by unfold Spec.pushFront; rw [if_pos (by omega)])
    obtain ⟨s', e', h2⟩ := ih (h1.view E) (by simp; omega)
    exact ⟨s', by simp [pushAllFront, e, e'], by simpa using h2⟩
theorem popAllFront_ok (hN : 2 * N < E.W) (h : View E N c l) (n : Nat) (hl : n ≤ l.length) :
    Returns (View E N) (popAllFront E N n c) (l.take n) (l.drop n) := by
  induction n generalizing c l with
  | zero => exact ⟨c, rfl, by simpa using h⟩
  | succ n ih =>
    cases l with
    | nil => simp at hl
    | cons a r =>
      obtain ⟨s, e, h1⟩ := (popFront_ref (E := E) (by omega) (h.rep hN)).of_ok rfl
      obtain ⟨s', e', h2⟩ := ih (h1.view E) (by simpa using hl)
      exact ⟨s', by simp [popAllFront, e, e'], by simpa using h2⟩
theorem popAllBack_ok (hN : 2 * N < E.W) (h : View E N c l) (n : Nat) (hl : n ≤ l.length) :
    Returns (View E N) (popAllBack E N n c) (l.reverse.take n) (l.take (l.length - n)) := by
  induction n generalizing c l with
  | zero => exact ⟨c, rfl, by simpa using h⟩
  | succ n ih =>
    cases hx : l.getLast? with
    | none => simp at hx; subst hx; simp at hl
    | some a =>
      obtain ⟨r, rfl⟩ := List.getLast?_eq_some_iff.1 hx
      obtain ⟨s, e, h1⟩ := (popBack_ref (E := E) (h.rep hN)).of_ok (a := a) (t := r) (by unfold Spec.popBack; simp)
      obtain ⟨s', e', h2⟩ := ih (h1.view E) (by simpa using hl)
      refine ⟨s', by simp [popAllBack, e, e'], ?_⟩
      have : (r ++ [a]).length - (n + 1) = r.length - n := by simp
      rw [this, List.take_append_of_le_length (by omega)]
      exact h2

/-- C05. First in, first out: pushing `vs` at the back of a chunk holding `l` and then popping everything from the front
gives `l ++ vs` in order, at every layout (however often the items are moved to make room). -/
theorem C05_fifo (hN : 2 * N < E.W) (h : View E N c l) (vs : List A) (hl : l.length + vs.length ≤ N) :
    Returns (View E N) ((do pushAllBack E N vs; popAllFront E N (l.length + vs.length)) c) (l ++ vs) [] := by
  obtain ⟨s, e, h1⟩ := pushAllBack_ok hN h vs hl
  obtain ⟨s', e', h2⟩ := popAllFront_ok hN h1 (l.length + vs.length) (by simp)
  refine ⟨s', by simp [e, e', List.take_of_length_le], ?_⟩
  simpa using h2
/-- C05. First in, first out in the other direction: pushing at the front and popping from the back. -/
theorem C05_fifo_reverse (hN : 2 * N < E.W) (h : View E N c l) (vs : List A) (hl : l.length + vs.length ≤ N) :
    Returns (View E N) ((do pushAllFront E N vs; popAllBack E N (l.length + vs.length)) c) (l.reverse ++ vs) [] := by
  obtain ⟨s, e, h1⟩ := pushAllFront_ok hN h vs hl
  obtain ⟨s', e', h2⟩ := popAllBack_ok hN h1 (l.length + vs.length) (by simp; omega)
  refine ⟨s', ?_, ?_⟩
  · simp only [M.bind_run, e, Out.andThen_ok, e']
    congr 1
    simp
    rw [List.take_of_length_le (by simp)]
  · simpa [Nat.add_comm] using h2
/-- C05. Last in, first out at the back. -/
theorem C05_lifo_back (hN : 2 * N < E.W) (h : View E N c l) (vs : List A) (hl : l.length + vs.length ≤ N) :
    Returns (View E N) ((do pushAllBack E N vs; popAllBack E N vs.length) c) vs.reverse l := by
  obtain ⟨s, e, h1⟩ := pushAllBack_ok hN h vs hl
  obtain ⟨s', e', h2⟩ := popAllBack_ok hN h1 vs.length (by simp)
  refine ⟨s', ?_, by simpa using h2⟩
  simp [e, e']
/-- C05. Last in, first out at the front. -/
theorem C05_lifo_front (hN : 2 * N < E.W) (h : View E N c l) (vs : List A) (hl : l.length + vs.length ≤ N) :
    Returns (View E N) ((do pushAllFront E N vs; popAllFront E N vs.length) c) vs.reverse l := by
  obtain ⟨s, e, h1⟩ := pushAllFront_ok hN h vs hl
  obtain ⟨s', e', h2⟩ := popAllFront_ok hN h1 vs.length (by simp)
  refine ⟨s', ?_, by simpa using h2⟩
  simp [e, e']

/-! ### C06 -/

/-- C06. `insert(i, v)` puts `v` at position `i` and shifts the rest by one. -/
theorem C06_insert (hN : 2 * N < E.W) (h : View E N c l) (i : Nat) (v : A) (hl : l.length < N) (hi : i ≤ l.length) :
    Returns (View E N) (insert E N i v c) () (l.take i ++ [v] ++ l.drop i) := by
  have := (Ref.view (E := E) (insert_ref (E := E) (by omega) (h.rep hN) i v)).of_ok
    (by unfold Spec.insert; rw [if_pos ⟨hl, hi⟩])
  simpa [Returns] using this
/-- C06. `remove(i)` returns `l[i]` and deletes exactly that position. -/
theorem C06_remove (hN : 2 * N < E.W) (h : View E N c l) (i : Nat) (hi : i < l.length) :
    Returns (View E N) (remove E N i c) l[i] (l.take i ++ l.drop (i + 1)) :=
  (Ref.view (remove_ref (E := E) (by omega) (h.rep hN) i)).of_ok (by unfold Spec.remove; rw [List.getElem?_eq_getElem hi])
/-- C06. `set(i, v)` returns the old `l[i]` and replaces only that position. -/
theorem C06_set (hN : 2 * N < E.W) (h : View E N c l) (i : Nat) (v : A) (hi : i < l.length) :
    Returns (View E N) (set E N i v c) l[i] (l.set i v) :=
  (Ref.view (set_ref (h.rep hN) i v)).of_ok (by unfold Spec.set; rw [List.getElem?_eq_getElem hi])
/-- C06. `c[i]` is `l[i]`. -/
theorem C06_index (hN : 2 * N < E.W) (h : View E N c l) (i : Nat) (hi : i < l.length) :
    Returns (View E N) (index E N i c) l[i] l :=
  (Ref.view (index_ref (h.rep hN) i)).of_ok (by unfold Spec.index; rw [List.getElem?_eq_getElem hi])
/-- C06. Overwriting through `as_mut_slice` / `iter_mut` / `IndexMut` changes the slice and nothing else. -/
theorem C06_mutate (hN : 2 * N < E.W) (h : View E N c l) (f : List A → List A) (hf : (f l).length = l.length) :
    Returns (View E N) (mutate E N f c) () (f l) :=
  (Ref.view (mutate_ref (h.rep hN) f)).of_ok (by unfold Spec.mutate; rw [if_pos hf])
/-- C06. `remove(i)` after `insert(i, v)` gives `v` back and is the identity on the contents. -/
theorem C06_insert_remove (hN : 2 * N < E.W) (h : View E N c l) (i : Nat) (v : A) (hl : l.length < N) (hi : i ≤ l.length) :
    Returns (View E N) ((do insert E N i v; remove E N i) c) v l := by
  obtain ⟨s, e, h1⟩ := C06_insert hN h i v hl hi
  have hlen : i < (l.take i ++ [v] ++ l.drop i).length := by simp; omega
  obtain ⟨s', e', h2⟩ := C06_remove hN h1 i hlen
  refine ⟨s', ?_, ?_⟩
  · simp only [M.bind_run, e, Out.andThen_ok, e']
    congr 1
    simp [hi]
  · have : (l.take i ++ [v] ++ l.drop i).take i ++ (l.take i ++ [v] ++ l.drop i).drop (i + 1) = l := by
      rw [List.append_assoc, List.take_append_of_le_length (by simp; omega), List.drop_append]
      have : (l.take i).drop (i + 1) = [] := List.drop_eq_nil_of_le (by simp; omega)
      simp [List.take_take, Nat.min_eq_left hi, this]
    rwa [this] at h2
/-- C06. `insert(i, remove(i))` is the identity. -/
theorem C06_remove_insert (hN : 2 * N < E.W) (h : View E N c l) (i : Nat) (hi : i < l.length) :
    Returns (View E N) ((do let a ← remove E N i; insert E N i a) c) () l := by
  have hle := (h.rep hN).length_le
  obtain ⟨s, e, h1⟩ := C06_remove hN h i hi
  obtain ⟨s', e', h2⟩ := C06_insert hN h1 i l[i] (by simp; omega) (by simp; omega)
  refine ⟨s', by simp [e, e'], ?_⟩
  have : (l.take i ++ l.drop (i + 1)).take i ++ [l[i]] ++ (l.take i ++ l.drop (i + 1)).drop i = l := by
    rw [List.take_append_of_le_length (by simp; omega), List.drop_append]
    simp [List.take_take, Nat.min_eq_left (Nat.le_of_lt hi)]
  rwa [this] at h2

/-! ### C07 -/

/-- C07. `append` moves everything to the end of `self` and empties `other`. -/
theorem C07_append (hN : 2 * N < E.W) (h : View E N c l) (h' : View E N d k) (hl : l.length + k.length ≤ N) :
    Returns (View2 E N) (append E N (c, d)) () (l ++ k, []) :=
  (Ref.view2 (append_ref hN (h.rep hN) (h'.rep hN))).of_ok (by unfold Spec.append; rw [if_pos hl])
/-- C07. `drain_from_front` moves the first `n` items of `other` to the back of `self`. -/
theorem C07_drain_from_front (hN : 2 * N < E.W) (h : View E N c l) (h' : View E N d k) (n : Nat) (hl : l.length + n ≤ N)
    (hk : n ≤ k.length) : Returns (View2 E N) (drainFromFront E N n (c, d)) () (l ++ k.take n, k.drop n) :=
  (Ref.view2 (drainFromFront_ref hN (h.rep hN) (h'.rep hN) n)).of_ok
    (by unfold Spec.drainFromFront; rw [if_pos ⟨hl, hk⟩])
/-- C07. `drain_from_back` moves the last `n` items of `other` to the front of `self`. -/
theorem C07_drain_from_back (hN : 2 * N < E.W) (h : View E N c l) (h' : View E N d k) (n : Nat) (hl : l.length + n ≤ N)
    (hk : n ≤ k.length) :
    Returns (View2 E N) (drainFromBack E N n (c, d)) () (k.drop (k.length - n) ++ l, k.take (k.length - n)) :=
  (Ref.view2 (drainFromBack_ref hN (h.rep hN) (h'.rep hN) n)).of_ok
    (by unfold Spec.drainFromBack; rw [if_pos ⟨hl, hk⟩])
/-- C07. `split_off(i)` keeps the first `i` items and returns the rest. -/
theorem C07_split_off (hN : 2 * N < E.W) (h : View E N c l) (i : Nat) (hi : i ≤ l.length) :
    ∃ d s, splitOff E N i c = .ok d s ∧ View E N d (l.drop i) ∧ View E N s (l.take i) := by
  obtain ⟨d, s, e, h1, h2⟩ := (splitOff_ref (E := E) (by omega) (h.rep hN) i).of_ok (by unfold Spec.splitOff; rw [if_pos hi])
  exact ⟨d, s, e, h1.view E, h2.view E⟩
/-- C07. `from_front(other, n)` takes the first `n` items of `other`. -/
theorem C07_from_front (hN : 2 * N < E.W) (h : View E N c l) (n : Nat) (hn : n ≤ l.length) :
    ∃ d s, fromFront E N n c = .ok d s ∧ View E N d (l.take n) ∧ View E N s (l.drop n) := by
  obtain ⟨d, s, e, h1, h2⟩ := (fromFront_ref (E := E) (by omega) (h.rep hN) n (.inr hn)).of_ok
    (by unfold Spec.fromFront; rw [if_pos hn])
  exact ⟨d, s, e, h1.view E, h2.view E⟩
/-- C07. `from_back(other, n)` takes the last `n` items of `other`. -/
theorem C07_from_back (hN : 2 * N < E.W) (h : View E N c l) (n : Nat) (hn : n ≤ l.length) :
    ∃ d s, fromBack E N n c = .ok d s ∧ View E N d (l.drop (l.length - n)) ∧ View E N s (l.take (l.length - n)) := by
  obtain ⟨d, s, e, h1, h2⟩ := (fromBack_ref (h.rep hN) n (.inr hn)).of_ok
    (by unfold Spec.fromBack; rw [if_pos hn])
  exact ⟨d, s, e, h1.view E, h2.view E⟩
/-- C07. `drain_from(other)` takes everything. -/
theorem C07_drain_from (hN : 2 * N < E.W) (h : View E N c l) :
    ∃ d s, drainFrom E N c = .ok d s ∧ View E N d l ∧ View E N s [] := by
  obtain ⟨d, s, e, h1, h2⟩ := (drainFrom_ref (E := E) (by omega) (h.rep hN)).of_ok rfl
  exact ⟨d, s, e, h1.view E, h2.view E⟩

/-! ### C08 -/

/-- C08. `split_off(i)` followed by `append` of the returned chunk restores the contents and empties the second
chunk, for every split point, without panicking. -/
theorem C08_split_off_append (hN : 2 * N < E.W) (h : View E N c l) (i : Nat) (hi : i ≤ l.length) :
    ∃ d s, splitOff E N i c = .ok d s ∧ Returns (View2 E N) (append E N (s, d)) () (l, []) := by
  have hl := (h.rep hN).length_le
  obtain ⟨d, s, e, h1, h2⟩ := C07_split_off hN h i hi
  refine ⟨d, s, e, ?_⟩
  have := C07_append hN h2 h1 (by simp; omega)
  simpa using this

/-- C08. `append` followed by `split_off` at the old length gives both chunks back. -/
theorem C08_append_split_off (hN : 2 * N < E.W) (h : View E N c l) (h' : View E N d k) (hl : l.length + k.length ≤ N) :
    ∃ s, append E N (c, d) = .ok () s ∧ View E N s.2 [] ∧
      ∃ d' s', splitOff E N l.length s.1 = .ok d' s' ∧ View E N d' k ∧ View E N s' l := by
  obtain ⟨s, e, h1, h2⟩ := C07_append hN h h' hl
  refine ⟨s, e, h2, ?_⟩
  obtain ⟨d', s', e', h3, h4⟩ := C07_split_off hN h1 l.length (by simp)
  exact ⟨d', s', e', by simpa using h3, by simpa using h4⟩

/-! ### C22 -/

/-- C22, debug builds: an excessive count makes `from_front` and `from_back` panic and leaves the source alone. -/
theorem C22_debug_partial (hN : 2 * N < E.W) (h : View E N c l) (n : Nat) (hn : l.length < n) (hd : E.debug = true) :
    (∃ s, fromFront E N n c = .panic s ∧ View E N s l) ∧ (∃ s, fromBack E N n c = .panic s ∧ View E N s l) := by
  constructor
  · obtain ⟨s, e, h2⟩ := (fromFront_ref (E := E) (by omega) (h.rep hN) n (.inl hd)).of_panic
      (by unfold Spec.fromFront; rw [if_neg (by omega)])
    exact ⟨s, e, h2.view E⟩
  · obtain ⟨s, e, h2⟩ := (fromBack_ref (h.rep hN) n (.inl hd)).of_panic
      (by unfold Spec.fromBack; rw [if_neg (by omega)])
    exact ⟨s, e, h2.view E⟩

/-- C22 fails in release builds: the count is only checked by `debug_assert!`; with a count that the storage happens to
contain, the new chunk claims items that were never written, and looking at them is undefined behaviour; with a larger
count the copy itself leaves the storage. -/
theorem C22_release_counterexample :
    View rel64 3 edge [10, 20] ∧
    (fromFront rel64 3 3 edge).isUb = true ∧ (fromBack rel64 3 5 edge).isUb = true ∧
    ∃ d s, fromBack rel64 3 3 edge = .ok d s ∧ (asSlice rel64 3 d).isUb = true :=
  ⟨rfl, rfl, rfl, _, _, rfl, rfl⟩

end Verif.Chunk
