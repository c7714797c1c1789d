import Verif.Props.RingHistory
/-
Properties of single `RingBuffer` calls, for every buffer (whatever its origin) showing a list `l`: C27 - C30.
-/
namespace Verif.Ring
open Verif.Chunk (dbg64 rel64)
variable {A : Type} {E : Env} {N : Nat} {dp : A → Bool} {cl : A → Option A} {c d : Ring A} {l k : List A}

/-- A buffer of capacity 3 whose two items wrap around the end of the storage: slots 2 and 0. -/
def seam : Ring Nat := { origin := 2, length := 2, mem := (Mem.uninit.put 2 10).put 0 20 }

/-- C27 - C33 are not vacuous: `seam` shows `[10, 20]`, is neither empty nor full, and wraps around. -/
example : View dbg64 3 seam [10, 20] ∧ View rel64 3 seam [10, 20] ∧ 2 * 3 < dbg64.W ∧ 2 * 3 < rel64.W :=
  ⟨⟨rfl, by decide, by decide⟩, ⟨rfl, by decide, by decide⟩, by decide, by decide⟩

/-! ### C27 -/

/-- C27. `push_front` panics exactly on a full buffer, which then keeps its contents. -/
theorem C27_push_front (hW : 2 * N < E.W) (h : View E N c l) (v : A) :
    PanicsExactly (View E N) l (pushFront E N v c) (l.length = N) := by
  have hl := (h.rep hW).le
  refine (Ref.view hW (pushFront_ref hW (h.rep hW) v)).panicsExactly ?_ ?_ <;> intro hc <;> unfold Spec.pushFront
  · rw [if_neg (by omega)]
  · rw [if_pos (by omega)]; exact ⟨_, _, rfl⟩
/-- C27. `push_back` panics exactly on a full buffer, which then keeps its contents. -/
theorem C27_push_back (hW : 2 * N < E.W) (h : View E N c l) (v : A) :
    PanicsExactly (View E N) l (pushBack E N v c) (l.length = N) := by
  have hl := (h.rep hW).le
  refine (Ref.view hW (pushBack_ref hW (h.rep hW) v)).panicsExactly ?_ ?_ <;> intro hc <;> unfold Spec.pushBack
  · rw [if_neg (by omega)]
  · rw [if_pos (by omega)]; exact ⟨_, _, rfl⟩
/-- C27. `pop_front` and `pop_back` never panic: they return the end item, or `None` exactly when there is none. -/
theorem C27_pop (hW : 2 * N < E.W) (h : View E N c l) :
    Returns (View E N) (popFront E N c) l.head? l.tail ∧ Returns (View E N) (popBack E N c) l.getLast? l.dropLast :=
  ⟨(Ref.view hW (popFront_ref hW (h.rep hW))).of_ok rfl, (Ref.view hW (popBack_ref hW (h.rep hW))).of_ok rfl⟩
/-- C27. Indexing and assigning through `IndexMut` panic exactly when the index is out of range. -/
theorem C27_index (hW : 2 * N < E.W) (h : View E N c l) (i : Nat) (v : A) :
    PanicsExactly (View E N) l (index E N i c) (l.length ≤ i) ∧ PanicsExactly (View E N) l (setIndex E N i v c) (l.length ≤ i) := by
  constructor
  · refine (Ref.view hW (index_ref hW (h.rep hW) i)).panicsExactly ?_ ?_ <;> intro hc <;> unfold Spec.index
    · rw [List.getElem?_eq_none hc]
    · rw [List.getElem?_eq_getElem (by omega)]; exact ⟨_, _, rfl⟩
  · refine (Ref.view hW (setIndex_ref hW (h.rep hW) i v)).panicsExactly ?_ ?_ <;> intro hc <;> unfold Spec.set
    · rw [List.getElem?_eq_none hc]
    · rw [List.getElem?_eq_getElem (by omega)]; exact ⟨_, _, rfl⟩
/-- C27. `insert` panics exactly on a full buffer or when the index is past the end. -/
theorem C27_insert (hW : 2 * N < E.W) (h : View E N c l) (i : Nat) (v : A) :
    PanicsExactly (View E N) l (insert E N i v c) (l.length = N ∨ l.length < i) := by
  have hl := (h.rep hW).le
  refine (Ref.view hW (insert_ref hW (h.rep hW) i v)).panicsExactly ?_ ?_ <;> intro hc <;> unfold Spec.insert
  · rw [if_neg (by omega)]
  · rw [if_pos (by omega)]; exact ⟨_, _, rfl⟩
/-- C27. `remove` panics exactly when the index is out of range. -/
theorem C27_remove (hW : 2 * N < E.W) (h : View E N c l) (i : Nat) :
    PanicsExactly (View E N) l (remove E N i c) (l.length ≤ i) := by
  refine (Ref.view hW (remove_ref hW (h.rep hW) i)).panicsExactly ?_ ?_ <;> intro hc <;> unfold Spec.remove
  · rw [List.getElem?_eq_none hc]
  · rw [List.getElem?_eq_getElem (by omega)]; exact ⟨_, _, rfl⟩
/-- C27. `append` panics exactly when the items do not fit; then both buffers keep their contents. -/
theorem C27_append (hW : 2 * N < E.W) (h : View E N c l) (h' : View E N d k) :
    PanicsExactly (View2 E N) (l, k) (append E N (c, d)) (N < l.length + k.length) := by
  refine (Ref.view2 hW (append_ref hW (h.rep hW) (h'.rep hW))).panicsExactly ?_ ?_ <;> intro hc <;> unfold Spec.append
  · rw [if_neg (by simpa using hc)]
  · rw [if_pos (by simpa using hc)]; exact ⟨_, _, rfl⟩
/-- C27. `drain_from_front` panics exactly when the source is too short or the destination too full; then both buffers keep
their contents.  The count is unrestricted (up to and past `usize::MAX`). -/
theorem C27_drain_from_front (hW : 2 * N < E.W) (h : View E N c l) (h' : View E N d k) (n : Nat) :
    PanicsExactly (View2 E N) (l, k) (drainFromFront E N n (c, d)) (k.length < n ∨ N < l.length + n) := by
  refine (Ref.view2 hW (drainFromFront_ref hW (h.rep hW) (h'.rep hW) n)).panicsExactly ?_ ?_ <;> intro hc <;>
    unfold Spec.drainFromFront
  · rw [if_neg (by simp; omega)]
  · rw [if_pos (by simp; omega)]; exact ⟨_, _, rfl⟩
/-- C27. `drain_from_back`, likewise. -/
theorem C27_drain_from_back (hW : 2 * N < E.W) (h : View E N c l) (h' : View E N d k) (n : Nat) :
    PanicsExactly (View2 E N) (l, k) (drainFromBack E N n (c, d)) (k.length < n ∨ N < l.length + n) := by
  refine (Ref.view2 hW (drainFromBack_ref hW (h.rep hW) (h'.rep hW) n)).panicsExactly ?_ ?_ <;> intro hc <;>
    unfold Spec.drainFromBack
  · rw [if_neg (by simp; omega)]
  · rw [if_pos (by simp; omega)]; exact ⟨_, _, rfl⟩

/-- `o` (a call producing another buffer, run with drop log `log`) panics exactly under `cond`, then dropping nothing and
leaving the buffer showing `l`. -/
def ForkPanicsExactly (E : Env) (N : Nat) (l log : List A) (o : Out (Ring A × List A) (Ring A)) (cond : Prop) : Prop :=
  PanicsExactly (RelLog (View E N)) (l, log) o cond

/-- C27. `split_off` panics exactly when the index is past the end. -/
theorem C27_split_off (hN : 0 < N) (hW : 2 * N < E.W) (h : View E N c l) (i : Nat) (log : List A) :
    ForkPanicsExactly E N l log (splitOff E N dp i (c, log)) (l.length < i) := by
  refine (RefV.viewLog hW (splitOff_ref hN hW dp i (h.rep hW) log)).panicsExactly ?_ ?_ <;>
    intro hc <;> simp only [M.onFst_run] <;> unfold Spec.splitOff
  · rw [if_neg (by omega)]; rfl
  · rw [if_pos (by omega)]; exact ⟨_, _, rfl⟩
/-- C27. `from_front` and `from_back` panic exactly when the count exceeds the length, in every build. -/
theorem C27_from_front_back (hN : 0 < N) (hW : 2 * N < E.W) (h : View E N c l) (n : Nat) (log : List A) :
    ForkPanicsExactly E N l log (fromFront E N dp n (c, log)) (l.length < n) ∧
    ForkPanicsExactly E N l log (fromBack E N dp n (c, log)) (l.length < n) := by
  constructor
  · refine (RefV.viewLog hW (fromFront_ref hN hW dp n (h.rep hW) log)).panicsExactly ?_ ?_ <;>
      intro hc <;> simp only [M.onFst_run] <;> unfold Spec.fromFront
    · rw [if_neg (by omega)]; rfl
    · rw [if_pos (by omega)]; exact ⟨_, _, rfl⟩
  · refine (RefV.viewLog hW (fromBack_ref hN hW dp n (h.rep hW) log)).panicsExactly ?_ ?_ <;>
      intro hc <;> simp only [M.onFst_run] <;> unfold Spec.fromBack
    · rw [if_neg (by omega)]; rfl
    · rw [if_pos (by omega)]; exact ⟨_, _, rfl⟩
/-- C27. `drop_left` with an index past the end panics, drops nothing and keeps the contents; so does `drop_right`. -/
theorem C27_drop_refused (hW : 2 * N < E.W) (h : View E N c l) (i : Nat) (log : List A) (hi : l.length < i) :
    (∃ s, dropLeft E N dp i (c, log) = .panic s ∧ View E N s.1 l ∧ s.2 = log) ∧
    (∃ s, dropRight E N dp i (c, log) = .panic s ∧ View E N s.1 l ∧ s.2 = log) := by
  constructor
  · obtain ⟨s, e, h1, h2⟩ := (dropLeft_ref hW dp i (h.rep hW) log).of_panic
      (by simp only [Spec.dropLeftSeq]; rw [if_neg (by omega)])
    exact ⟨s, e, h1.view hW, h2⟩
  · obtain ⟨s, e, h1, h2⟩ := (dropRight_ref hW dp i (h.rep hW) log).of_panic
      (by simp only [Spec.dropRightSeq]; rw [if_neg (by omega)])
    exact ⟨s, e, h1.view hW, h2⟩
/-- C27. `drop_left`, `drop_right` and `clear` do what they say, dropping the items in order, when no dropped item's
destructor panics. -/
theorem C27_drop_ok (hN : 0 < N) (hW : 2 * N < E.W) (h : View E N c l) (i : Nat) (log : List A) (hi : i ≤ l.length)
    (hd : ∀ a ∈ l, dp a = false) :
    Returns (RelLog (View E N)) (dropLeft E N dp i (c, log)) () (l.drop i, log ++ l.take i) ∧
    Returns (RelLog (View E N)) (dropRight E N dp i (c, log)) () (l.take i, log ++ l.drop i) ∧
    Returns (RelLog (View E N)) (clear E N dp (c, log)) () ([], log ++ l) := by
  have z : ∀ (d : List A) (l l' log : List A), d.any dp = false → Spec.droppingSeq dp d l l' log = .ok () (l', log ++ d) := by
    intro d l l' log hd; simp [Spec.droppingSeq, hd]
  have z' : ∀ d : List A, (∀ a ∈ d, a ∈ l) → d.any dp = false := by
    intro d hdl
    rw [List.any_eq_false]
    intro a ha; simp [hd a (hdl a ha)]
  refine ⟨?_, ?_, ?_⟩
  · refine (Ref.viewLog hW (dropLeft_ref hW dp i (h.rep hW) log)).of_ok ?_
    simp only [Spec.dropLeftSeq]; rw [if_pos hi, z _ _ _ _ (z' _ fun a ha => List.mem_of_mem_take ha)]
  · refine (Ref.viewLog hW (dropRight_ref hW dp i (h.rep hW) log)).of_ok ?_
    simp only [Spec.dropRightSeq]; rw [if_pos hi, z _ _ _ _ (z' _ fun a ha => List.mem_of_mem_drop ha)]
  · refine (Ref.viewLog hW (clear_ref hN hW dp (h.rep hW) log)).of_ok ?_
    simp only [Spec.clearSeq]; rw [z _ _ _ _ (z' _ fun a ha => ha)]
/-- C27. `unit` and `pair` panic exactly when the capacity is too small. -/
theorem C27_unit_pair (hW : 2 * N < E.W) (v w : A) :
    (1 ≤ N → ∃ c, unit E N v () = .ok c () ∧ View E N c [v]) ∧ (¬ 1 ≤ N → unit E N v () = .panic ()) ∧
    (2 ≤ N → ∃ c, pair E N v w () = .ok c () ∧ View E N c [v, w]) ∧ (¬ 2 ≤ N → pair E N v w () = .panic ()) := by
  refine ⟨?_, ?_, ?_, ?_⟩ <;> intro hn
  · obtain ⟨a, s, e, h1, h2⟩ := (unit_ref v).of_ok (by unfold Spec.unit; rw [if_pos hn])
    exact ⟨a, e, h1.view hW⟩
  · obtain ⟨s, e, h2⟩ := (unit_ref v).of_panic (by unfold Spec.unit; rw [if_neg hn])
    exact e
  · obtain ⟨a, s, e, h1, h2⟩ := (pair_ref v w).of_ok (by unfold Spec.pair; rw [if_pos hn])
    exact ⟨a, e, h1.view hW⟩
  · obtain ⟨s, e, h2⟩ := (pair_ref v w).of_panic (by unfold Spec.pair; rw [if_neg hn])
    exact e

/-! ### C28 -/

/-- C28. `push_back` appends. -/
theorem C28_push_back (hW : 2 * N < E.W) (h : View E N c l) (hl : l.length < N) (v : A) :
    Returns (View E N) (pushBack E N v c) () (l ++ [v]) :=
  (Ref.view hW (pushBack_ref hW (h.rep hW) v)).of_ok (by unfold Spec.pushBack; rw [if_pos hl])
/-- C28. `push_front` prepends. -/
theorem C28_push_front (hW : 2 * N < E.W) (h : View E N c l) (hl : l.length < N) (v : A) :
    Returns (View E N) (pushFront E N v c) () (v :: l) :=
  (Ref.view hW (pushFront_ref hW (h.rep hW) v)).of_ok (by unfold Spec.pushFront; rw [if_pos hl])
/-- C28. `push_back` then `pop_back`, and `push_front` then `pop_front`, return the pushed value and restore the contents. -/
theorem C28_push_pop (hW : 2 * N < E.W) (h : View E N c l) (hl : l.length < N) (v : A) :
    Returns (View E N) ((do pushBack E N v; popBack E N) c) (some v) l ∧
    Returns (View E N) ((do pushFront E N v; popFront E N) c) (some v) l := by
  constructor
  · obtain ⟨s, e, h1⟩ := C28_push_back hW h hl v
    obtain ⟨s', e', h2⟩ := (C27_pop hW h1).2
    exact ⟨s', by simp [e, e'], by simpa using h2⟩
  · obtain ⟨s, e, h1⟩ := C28_push_front hW h hl v
    obtain ⟨s', e', h2⟩ := (C27_pop hW h1).1
    exact ⟨s', by simp [e, e'], by simpa using h2⟩

/-- What a client does to a buffer used as a queue: push one item, or pop one. -/
inductive Deque (A : Type) where
  | pushFront (v : A) | pushBack (v : A) | popFront | popBack

/-- The calls. -/
def deque (E : Env) (N : Nat) : Deque A → M (Ring A) (Option A)
  | .pushFront v => do pushFront E N v; return none
  | .pushBack v => do pushBack E N v; return none
  | .popFront => popFront E N
  | .popBack => popBack E N

/-- C28. A push or pop never moves an item: it leaves all slots of the storage but (at most) one untouched, and a pop leaves
all of them untouched. -/
theorem C28_constant_work (hW : 2 * N < E.W) (h : View E N c l) (op : Deque A) :
    (∃ r s, deque E N op c = .ok r s ∧ ∃ p, (∀ j, j ≠ p → s.mem j = c.mem j) ∧
      (op = .popFront ∨ op = .popBack → s.mem = c.mem)) ∨ (∃ s, deque E N op c = .panic s ∧ s.mem = c.mem) := by
  have key : Sat (deque E N op c) (fun _ s => ∃ p, (∀ j, j ≠ p → s.mem j = c.mem j) ∧
      (op = .popFront ∨ op = .popBack → s.mem = c.mem)) (fun s => s.mem = c.mem) False := by
    have h0 := h.rep hW
    obtain ⟨h1, h2, h3, h4⟩ := h0
    have hcell : ∀ j, j < l.length → ∃ a, c.mem (ridx N c.origin j) = some a := by
      intro j hj
      have := h4 j hj
      unfold lm at this
      rw [if_pos (by omega), List.getElem?_eq_getElem hj] at this
      exact ⟨_, this⟩
    cases op with
    | pushFront v =>
      unfold deque pushFront
      vc
      · exact ⟨rsub N c.origin 1, fun j hj => by simp only [Mem.put, if_neg hj], by simp⟩
    | pushBack v =>
      unfold deque pushBack
      vc
      · exact ⟨ridx N c.origin c.length, fun j hj => by simp only [Mem.put, if_neg hj], by simp⟩
    | popFront =>
      unfold deque popFront
      vc
      · exact ⟨0, fun _ _ => rfl, fun _ => rfl⟩
      · obtain ⟨a, e⟩ := hcell 0 (by omega)
        rw [ridx_zero h1] at e
        exact sat_forceRead (v := a) (by first | exact h1 | exact ridx_lt h1 (by omega)) e ⟨0, fun _ _ => rfl, fun _ => rfl⟩
    | popBack =>
      unfold deque popBack
      vc
      · exact ⟨0, fun _ _ => rfl, fun _ => rfl⟩
      · obtain ⟨a, e⟩ := hcell (c.length - 1) (by omega)
        exact sat_forceRead (v := a) (by first | exact h1 | exact ridx_lt h1 (by omega)) e ⟨0, fun _ _ => rfl, fun _ => rfl⟩
  cases hx : deque E N op c <;> rw [hx] at key <;> simp only [Sat] at key
  · exact .inl ⟨_, _, rfl, key⟩
  · exact .inr ⟨_, rfl, key⟩

/-! ### C29 -/

/-- C29. `insert(i, v)` yields `l[..i] ++ [v] ++ l[i..]`. -/
theorem C29_insert (hW : 2 * N < E.W) (h : View E N c l) (i : Nat) (v : A) (hl : l.length < N) (hi : i ≤ l.length) :
    Returns (View E N) (insert E N i v c) () (l.take i ++ [v] ++ l.drop i) := by
  have := (Ref.view hW (insert_ref hW (h.rep hW) i v)).of_ok (by unfold Spec.insert; rw [if_pos ⟨hl, hi⟩])
  simpa [Returns] using this
/-- C29. `remove(i)` returns `l[i]` and deletes exactly that position. -/
theorem C29_remove (hW : 2 * N < E.W) (h : View E N c l) (i : Nat) (hi : i < l.length) :
    Returns (View E N) (remove E N i c) l[i] (l.take i ++ l.drop (i + 1)) :=
  (Ref.view hW (remove_ref hW (h.rep hW) i)).of_ok (by unfold Spec.remove; rw [List.getElem?_eq_getElem hi])
/-- C29. Assigning through `IndexMut` or `get_mut` replaces only that position. -/
theorem C29_set (hW : 2 * N < E.W) (h : View E N c l) (i : Nat) (v : A) (hi : i < l.length) :
    Returns (View E N) (setIndex E N i v c) l[i] (l.set i v) ∧ Returns (View E N) (replaceGet E N i v c) l[i] (l.set i v) :=
  ⟨(Ref.view hW (setIndex_ref hW (h.rep hW) i v)).of_ok (by unfold Spec.set; rw [List.getElem?_eq_getElem hi]),
   (Ref.view hW (replaceGet_ref hW (h.rep hW) i v)).of_ok (by unfold Spec.replaceGet; rw [List.getElem?_eq_getElem hi])⟩
/-- C29. `remove(i)` after `insert(i, v)` gives `v` back and restores the contents. -/
theorem C29_insert_remove (hW : 2 * N < E.W) (h : View E N c l) (i : Nat) (v : A) (hl : l.length < N) (hi : i ≤ l.length) :
    Returns (View E N) ((do insert E N i v; remove E N i) c) v l := by
  obtain ⟨s, e, h1⟩ := C29_insert hW h i v hl hi
  have hlen : i < (l.take i ++ [v] ++ l.drop i).length := by simp; omega
  obtain ⟨s', e', h2⟩ := C29_remove hW h1 i hlen
  refine ⟨s', ?_, ?_⟩
  · simp only [M.bind_run, e, Out.andThen_ok, e']
    congr 1
    simp [hi]
  · have : (l.take i ++ [v] ++ l.drop i).take i ++ (l.take i ++ [v] ++ l.drop i).drop (i + 1) = l := by
      rw [List.append_assoc, List.take_append_of_le_length (by simp; omega), List.drop_append]
      have : (l.take i).drop (i + 1) = [] := List.drop_eq_nil_of_le (by simp; omega)
      simp [List.take_take, Nat.min_eq_left hi, this]
    rwa [this] at h2
/-- C29. Overwriting through `iter_mut` changes the items and nothing else. -/
theorem C29_mutate (hW : 2 * N < E.W) (h : View E N c l) (f : List A → List A) (hf : (f l).length = l.length) :
    Returns (View E N) (mutate E N f c) () (f l) :=
  (Ref.view hW (mutate_ref hW (h.rep hW) f)).of_ok (by unfold Spec.mutate; rw [if_pos hf])

/-! ### C30 -/

/-- C30. `append` moves everything to the end of `self` and empties `other`. -/
theorem C30_append (hW : 2 * N < E.W) (h : View E N c l) (h' : View E N d k) (hl : l.length + k.length ≤ N) :
    Returns (View2 E N) (append E N (c, d)) () (l ++ k, []) :=
  (Ref.view2 hW (append_ref hW (h.rep hW) (h'.rep hW))).of_ok (by unfold Spec.append; rw [if_pos hl])
/-- C30. `drain_from_front` moves the first `n` items of `other` to the back of `self`. -/
theorem C30_drain_from_front (hW : 2 * N < E.W) (h : View E N c l) (h' : View E N d k) (n : Nat) (hl : l.length + n ≤ N)
    (hk : n ≤ k.length) : Returns (View2 E N) (drainFromFront E N n (c, d)) () (l ++ k.take n, k.drop n) :=
  (Ref.view2 hW (drainFromFront_ref hW (h.rep hW) (h'.rep hW) n)).of_ok
    (by unfold Spec.drainFromFront; rw [if_pos ⟨hl, hk⟩])
/-- C30. `drain_from_back` moves the last `n` items of `other` to the front of `self`. -/
theorem C30_drain_from_back (hW : 2 * N < E.W) (h : View E N c l) (h' : View E N d k) (n : Nat) (hl : l.length + n ≤ N)
    (hk : n ≤ k.length) :
    Returns (View2 E N) (drainFromBack E N n (c, d)) () (k.drop (k.length - n) ++ l, k.take (k.length - n)) :=
  (Ref.view2 hW (drainFromBack_ref hW (h.rep hW) (h'.rep hW) n)).of_ok
    (by unfold Spec.drainFromBack; rw [if_pos ⟨hl, hk⟩])

/-- `o`, a call producing another buffer, returns one showing `new`, drops nothing and leaves its own buffer showing `old`. -/
def Forks (E : Env) (N : Nat) (log : List A) (o : Out (Ring A × List A) (Ring A)) (new old : List A) : Prop :=
  ∃ b s, o = .ok b (s, log) ∧ View E N b new ∧ View E N s old

theorem forks_of (hW : 2 * N < E.W) {log : List A} {o : Out (Ring A × List A) (Ring A)} {o' : Out (List A × List A) (List A)} {new old : List A}
    (h : RefV (Rep N) (RelLog (Rep N)) o o') (e : o' = .ok new (old, log)) : Forks E N log o new old := by
  obtain ⟨b, ⟨s, log'⟩, e', h1, h2, h3⟩ := h.of_ok e
  simp only at h3
  subst h3
  exact ⟨b, s, e', h1.view hW, h2.view hW⟩

/-- C30. `split_off(i)` keeps the first `i` items and returns the rest. -/
theorem C30_split_off (hN : 0 < N) (hW : 2 * N < E.W) (h : View E N c l) (i : Nat) (hi : i ≤ l.length) (log : List A) :
    Forks E N log (splitOff E N dp i (c, log)) (l.drop i) (l.take i) :=
  forks_of hW (splitOff_ref hN hW dp i (h.rep hW) log) (by simp only [M.onFst_run]; unfold Spec.splitOff; rw [if_pos hi]; rfl)
/-- C30. `from_front(other, n)` takes the first `n` items of `other`. -/
theorem C30_from_front (hN : 0 < N) (hW : 2 * N < E.W) (h : View E N c l) (n : Nat) (hn : n ≤ l.length) (log : List A) :
    Forks E N log (fromFront E N dp n (c, log)) (l.take n) (l.drop n) :=
  forks_of hW (fromFront_ref hN hW dp n (h.rep hW) log) (by simp only [M.onFst_run]; unfold Spec.fromFront; rw [if_pos hn]; rfl)
/-- C30. `from_back(other, n)` takes the last `n` items of `other`. -/
theorem C30_from_back (hN : 0 < N) (hW : 2 * N < E.W) (h : View E N c l) (n : Nat) (hn : n ≤ l.length) (log : List A) :
    Forks E N log (fromBack E N dp n (c, log)) (l.drop (l.length - n)) (l.take (l.length - n)) :=
  forks_of hW (fromBack_ref hN hW dp n (h.rep hW) log) (by simp only [M.onFst_run]; unfold Spec.fromBack; rw [if_pos hn]; rfl)
/-- C30. `drain_from(other)` takes everything. -/
theorem C30_drain_from (hN : 0 < N) (hW : 2 * N < E.W) (h : View E N c l) (log : List A) :
    Forks E N log (drainFrom E N dp (c, log)) l [] :=
  forks_of hW (drainFrom_ref hN hW dp (h.rep hW) log) rfl
/-- C30. `split_off(i)` followed by `append` of the returned buffer restores the contents, for every split point. -/
theorem C30_split_off_append (hN : 0 < N) (hW : 2 * N < E.W) (h : View E N c l) (i : Nat) (hi : i ≤ l.length) (log : List A) :
    ∃ d s, splitOff E N dp i (c, log) = .ok d (s, log) ∧ Returns (View2 E N) (append E N (s, d)) () (l, []) := by
  have hl := (h.rep hW).le
  obtain ⟨d, s, e, h1, h2⟩ := C30_split_off (dp := dp) hN hW h i hi log
  refine ⟨d, s, e, ?_⟩
  have := C30_append hW h2 h1 (by simp; omega)
  simpa using this

/-- C28 - C30 on `seam`: insertion in the middle and removal across the wrap, a drain into another wrapped buffer. -/
example : (∃ s, insert dbg64 3 1 15 seam = .ok () s ∧ ∃ s', items dbg64 3 s = .ok [10, 15, 20] s') ∧
    (∃ s, remove rel64 3 0 seam = .ok 10 s ∧ ∃ s', items rel64 3 s = .ok [20] s') ∧
    (∃ s, drainFromBack dbg64 3 1 (seam, seam) = .ok () s ∧ ∃ s', items dbg64 3 s.1 = .ok [20, 10, 20] s') :=
  ⟨⟨_, rfl, _, rfl⟩, ⟨_, rfl, _, rfl⟩, ⟨_, rfl, _, rfl⟩⟩

end Verif.Ring
