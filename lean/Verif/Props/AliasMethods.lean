import Verif.AliasMethods
import Verif.Props.Moves2
/-
C100: which methods of `Chunk` and `InlineArray` obey the aliasing rules.
-/
namespace Verif.Alias
open Verif
variable {σ A : Type} {N : Nat} {E : Env}

theorem all_map {α β : Type} {P : β → Prop} {f : α → β} {xs : List α} : (∀ c ∈ xs.map f, P c) ↔ ∀ x ∈ xs, P (f x) := by simp
theorem all_flatMap {α β : Type} {P : β → Prop} {f : α → List β} {xs : List α} : (∀ c ∈ xs.flatMap f, P c) ↔ ∀ x ∈ xs, ∀ c ∈ f x, P c := by
  simp only [List.mem_flatMap, forall_exists_index, and_imp]
  exact ⟨fun h x hx c hc => h c x hx hc, fun h c x hx hc => h x hx c hc⟩
theorem all_nil {β : Type} {P : β → Prop} : (∀ c ∈ ([] : List β), P c) ↔ True := by simp

/-- The indices are inside the storage, whatever the method. -/
theorem ChunkMethod.inRange (m : ChunkMethod) {l r l' r' : Nat} (h1 : l ≤ r) (h2 : r ≤ N) (h1' : l' ≤ r') (h2' : r' ≤ N) :
    ∀ c ∈ m.calls N l r l' r', c.InRange N := by
  cases m <;> simp only [ChunkMethod.calls, writes, useItems] <;> (repeat' split) <;>
    simp only [List.forall_mem_cons, List.forall_mem_append, all_map, all_flatMap, all_nil, List.mem_range'_1, List.nil_append, List.cons_append,
      Call.InRange, true_and, and_true] <;>
    first
      | omega
      | (intro x hx; omega)
      | (refine ⟨by omega, fun x hx => by omega⟩)
      | (refine ⟨by omega, by omega, fun x hx => by omega⟩)
      | trivial
      | skip

theorem ChunkMethod.inBoxes (m : ChunkMethod) (l r l' r' : Nat) : ∀ c ∈ m.calls N l r l' r', ∀ x ∈ c.boxes, x < 2 := by
  cases m <;> simp only [ChunkMethod.calls, writes, useItems] <;> (repeat' split) <;>
    simp [List.forall_mem_cons, List.forall_mem_append, all_map, all_flatMap, all_nil, Call.boxes, -List.mem_cons, -List.mem_append, -List.mem_map, -List.mem_flatMap,
      -forall_exists_index]

theorem ChunkMethod.stale_iff (m : ChunkMethod) {l r l' r' : Nat} (h1 : l ≤ r) (h2 : r ≤ N) (h1' : l' ≤ r') (h2' : r' ≤ N) :
    (∀ c ∈ m.calls N l r l' r', ¬c.Stale) ↔ ¬m.Shifts N l r l' r' := by
  cases m <;> simp only [ChunkMethod.calls, writes, useItems, ChunkMethod.Shifts] <;> (repeat' split) <;>
    simp only [List.forall_mem_cons, List.forall_mem_append, all_map, all_flatMap, all_nil, List.nil_append, List.cons_append, Call.Stale, not_false_eq_true,
      true_and, and_true, implies_true, true_iff, and_false, false_and] <;> first | omega | trivial | skip

/-! ### The calls do what the value model does -/

theorem ActsAll.nil' {m m' : Nat → Mem A} (h : m = m') : ActsAll [] m m' := h ▸ .nil

theorem init_of {c : Chunk A} {l : List A} (h : Chunk.Rep N c l) {j : Nat} (h1 : c.left ≤ j) (h2 : j < c.right) : (c.mem j).isSome := by
  obtain ⟨g1, g2, g3⟩ := h
  rw [g3 j h1 h2, List.getElem?_eq_getElem (by omega)]
  rfl

local macro "acts" v:term:max : tactic => `(tactic| (
  repeat first
    | refine .cons .field ?_ | refine .cons .len ?_ | refine .cons (.readAt (init_of (by assumption) (by omega) (by omega))) ?_ | refine .cons (.writeAt $v) ?_ | refine .cons .copyWithin ?_
    | refine .cons .copyTo ?_
  refine .nil' (funext fun y => ?_)
  by_cases hy : y = 0
  · subst hy; simp [mems]
  · by_cases hy' : y = 1
    · subst hy'; simp [mems]
    · simp [mems, hy, hy']))

section
variable {c d c' d' : Chunk A} {l k : List A}

theorem acts_pushFront (h : Chunk.Rep N c l) (h' : Chunk.Rep N d k) (hN : 2 * N < E.W) (hr : ChunkMethod.Runs E N (.pushFront) c d c' d') :
    ActsAll (ChunkMethod.calls N c.left c.right d.left d.right (.pushFront)) (mems c d) (mems c' d') := by
  obtain ⟨h1, h2, h3⟩ := h
  obtain ⟨g1, g2, g3⟩ := h'
  obtain ⟨v, e, rfl⟩ := hr
  have hs : Sat (Chunk.pushFront E N v c) (fun _ c' => ActsAll (ChunkMethod.calls N c.left c.right d'.left d'.right (.pushFront)) (mems c d') (mems c' d'))
      (fun _ => True) False := by
    unfold Chunk.pushFront
    simp only [ChunkMethod.calls]
    vc
    all_goals (repeat' split) <;> first | omega | skip
    all_goals acts v
  rw [e] at hs
  exact hs
theorem acts_pushBack (h : Chunk.Rep N c l) (h' : Chunk.Rep N d k) (hN : 2 * N < E.W) (hr : ChunkMethod.Runs E N (.pushBack) c d c' d') :
    ActsAll (ChunkMethod.calls N c.left c.right d.left d.right (.pushBack)) (mems c d) (mems c' d') := by
  obtain ⟨h1, h2, h3⟩ := h
  obtain ⟨g1, g2, g3⟩ := h'
  obtain ⟨v, e, rfl⟩ := hr
  have hs : Sat (Chunk.pushBack E N v c) (fun _ c' => ActsAll (ChunkMethod.calls N c.left c.right d'.left d'.right (.pushBack)) (mems c d') (mems c' d'))
      (fun _ => True) False := by
    unfold Chunk.pushBack
    simp only [ChunkMethod.calls]
    vc
    all_goals (repeat' split) <;> first | omega | skip
    all_goals acts v
  rw [e] at hs
  exact hs
theorem acts_popFront (h : Chunk.Rep N c l) (h' : Chunk.Rep N d k) (hN : 2 * N < E.W) (hr : ChunkMethod.Runs E N (.popFront) c d c' d') :
    ActsAll (ChunkMethod.calls N c.left c.right d.left d.right (.popFront)) (mems c d) (mems c' d') := by
  have h0 := h
  obtain ⟨h1, h2, h3⟩ := h
  obtain ⟨g1, g2, g3⟩ := h'
  obtain ⟨v, e, rfl⟩ := hr
  have hs : Sat (Chunk.popFront E N c) (fun _ c' => ActsAll (ChunkMethod.calls N c.left c.right d'.left d'.right (.popFront)) (mems c d') (mems c' d'))
      (fun _ => True) False := by
    unfold Chunk.popFront
    simp only [ChunkMethod.calls]
    vc
    refine Chunk.sat_forceRead (v := l[0]'(by omega)) (by omega) (by rw [h3 _ (by omega) (by omega)]; grind) ?_
    vc
    all_goals (repeat' split) <;> first | omega | skip
    all_goals acts v
  rw [e] at hs
  exact hs
theorem acts_popBack (h : Chunk.Rep N c l) (h' : Chunk.Rep N d k) (hN : 2 * N < E.W) (hr : ChunkMethod.Runs E N (.popBack) c d c' d') :
    ActsAll (ChunkMethod.calls N c.left c.right d.left d.right (.popBack)) (mems c d) (mems c' d') := by
  have h0 := h
  obtain ⟨h1, h2, h3⟩ := h
  obtain ⟨g1, g2, g3⟩ := h'
  obtain ⟨v, e, rfl⟩ := hr
  have hs : Sat (Chunk.popBack E N c) (fun _ c' => ActsAll (ChunkMethod.calls N c.left c.right d'.left d'.right (.popBack)) (mems c d') (mems c' d'))
      (fun _ => True) False := by
    unfold Chunk.popBack
    simp only [ChunkMethod.calls]
    vc
    refine Chunk.sat_forceRead (v := l[l.length - 1]'(by omega)) (by omega) (by rw [h3 _ (by omega) (by omega)]; grind) ?_
    all_goals (repeat' split) <;> first | omega | skip
    all_goals acts v
  rw [e] at hs
  exact hs
theorem acts_insert (i : Nat) (h : Chunk.Rep N c l) (h' : Chunk.Rep N d k) (hN : 2 * N < E.W) (hr : ChunkMethod.Runs E N (.insert i) c d c' d') :
    ActsAll (ChunkMethod.calls N c.left c.right d.left d.right (.insert i)) (mems c d) (mems c' d') := by
  obtain ⟨h1, h2, h3⟩ := h
  obtain ⟨g1, g2, g3⟩ := h'
  obtain ⟨v, e, rfl⟩ := hr
  have hs : Sat (Chunk.insert E N i v c) (fun _ c' => ActsAll (ChunkMethod.calls N c.left c.right d'.left d'.right (.insert i)) (mems c d') (mems c' d'))
      (fun _ => True) False := by
    unfold Chunk.insert
    simp only [ChunkMethod.calls]
    vc
    all_goals (repeat' split) <;> first | omega | skip
    all_goals acts v
  rw [e] at hs
  exact hs
theorem acts_remove (i : Nat) (h : Chunk.Rep N c l) (h' : Chunk.Rep N d k) (hN : 2 * N < E.W) (hr : ChunkMethod.Runs E N (.remove i) c d c' d') :
    ActsAll (ChunkMethod.calls N c.left c.right d.left d.right (.remove i)) (mems c d) (mems c' d') := by
  have h0 := h
  obtain ⟨h1, h2, h3⟩ := h
  obtain ⟨g1, g2, g3⟩ := h'
  obtain ⟨v, e, rfl⟩ := hr
  have hs : Sat (Chunk.remove E N i c) (fun _ c' => ActsAll (ChunkMethod.calls N c.left c.right d'.left d'.right (.remove i)) (mems c d') (mems c' d'))
      (fun _ => True) False := by
    unfold Chunk.remove
    simp only [ChunkMethod.calls]
    vc
    refine Chunk.sat_forceRead (v := l[i]'(by omega)) (by omega) (by rw [h3 _ (by omega) (by omega)]; grind) ?_
    vc
    all_goals (repeat' split) <;> first | omega | skip
    all_goals acts v
  rw [e] at hs
  exact hs
theorem acts_splitOff (i : Nat) (h : Chunk.Rep N c l) (h' : Chunk.Rep N d k) (hN : 2 * N < E.W) (hr : ChunkMethod.Runs E N (.splitOff i) c d c' d') :
    ActsAll (ChunkMethod.calls N c.left c.right d.left d.right (.splitOff i)) (mems c d) (mems c' d') := by
  obtain ⟨h1, h2, h3⟩ := h
  obtain ⟨g1, g2, g3⟩ := h'
  obtain ⟨rfl, e⟩ := hr
  have hs : Sat (Chunk.splitOff E N i c) (fun d' c' => ActsAll (ChunkMethod.calls N c.left c.right (Chunk.new (A := A)).left (Chunk.new (A := A)).right (.splitOff i)) (mems c Chunk.new) (mems c' d'))
      (fun _ => True) False := by
    unfold Chunk.splitOff
    simp only [ChunkMethod.calls]
    vc
    all_goals (repeat' split) <;> first | omega | skip
    all_goals acts (l[0]'(by omega))
  rw [e] at hs
  exact hs
theorem acts_fromFront (n : Nat) (h : Chunk.Rep N c l) (h' : Chunk.Rep N d k) (hN : 2 * N < E.W) (hr : ChunkMethod.Runs E N (.fromFront n) c d c' d') :
    ActsAll (ChunkMethod.calls N c.left c.right d.left d.right (.fromFront n)) (mems c d) (mems c' d') := by
  obtain ⟨h1, h2, h3⟩ := h
  obtain ⟨g1, g2, g3⟩ := h'
  obtain ⟨rfl, hn, e⟩ := hr
  have hs : Sat (Chunk.fromFront E N n c) (fun d' c' => ActsAll (ChunkMethod.calls N c.left c.right (Chunk.new (A := A)).left (Chunk.new (A := A)).right (.fromFront n)) (mems c Chunk.new) (mems c' d'))
      (fun _ => True) False := by
    unfold Chunk.fromFront
    simp only [ChunkMethod.calls]
    vc
    all_goals (repeat' split) <;> first | omega | skip
    all_goals acts (l[0]'(by omega))
  rw [e] at hs
  exact hs
theorem acts_fromBack (n : Nat) (h : Chunk.Rep N c l) (h' : Chunk.Rep N d k) (hN : 2 * N < E.W) (hr : ChunkMethod.Runs E N (.fromBack n) c d c' d') :
    ActsAll (ChunkMethod.calls N c.left c.right d.left d.right (.fromBack n)) (mems c d) (mems c' d') := by
  obtain ⟨h1, h2, h3⟩ := h
  obtain ⟨g1, g2, g3⟩ := h'
  obtain ⟨rfl, hn, e⟩ := hr
  have hs : Sat (Chunk.fromBack E N n c) (fun d' c' => ActsAll (ChunkMethod.calls N c.left c.right (Chunk.new (A := A)).left (Chunk.new (A := A)).right (.fromBack n)) (mems c Chunk.new) (mems c' d'))
      (fun _ => True) False := by
    unfold Chunk.fromBack
    simp only [ChunkMethod.calls]
    vc
    all_goals (repeat' split) <;> first | omega | skip
    all_goals acts (l[0]'(by omega))
  rw [e] at hs
  exact hs
theorem acts_append (h : Chunk.Rep N c l) (h' : Chunk.Rep N d k) (hN : 2 * N < E.W) (hr : ChunkMethod.Runs E N (.append) c d c' d') :
    ActsAll (ChunkMethod.calls N c.left c.right d.left d.right (.append)) (mems c d) (mems c' d') := by
  obtain ⟨h1, h2, h3⟩ := h
  obtain ⟨g1, g2, g3⟩ := h'
  have e := hr
  simp only [ChunkMethod.Runs] at e
  have hs : Sat (Chunk.append E N (c, d)) (fun _ s => ActsAll (ChunkMethod.calls N c.left c.right d.left d.right (.append)) (mems c d) (mems s.1 s.2))
      (fun _ => True) False := by
    unfold Chunk.append
    simp only [ChunkMethod.calls]
    vc
    all_goals (repeat' split) <;> first | omega | skip
    all_goals acts (l[0]'(by omega))
  rw [e] at hs
  exact hs
theorem acts_drainFromFront (n : Nat) (h : Chunk.Rep N c l) (h' : Chunk.Rep N d k) (hN : 2 * N < E.W) (hr : ChunkMethod.Runs E N (.drainFromFront n) c d c' d') :
    ActsAll (ChunkMethod.calls N c.left c.right d.left d.right (.drainFromFront n)) (mems c d) (mems c' d') := by
  obtain ⟨h1, h2, h3⟩ := h
  obtain ⟨g1, g2, g3⟩ := h'
  obtain ⟨hn, e⟩ := hr
  have hs : Sat (Chunk.drainFromFront E N n (c, d)) (fun _ s => ActsAll (ChunkMethod.calls N c.left c.right d.left d.right (.drainFromFront n)) (mems c d) (mems s.1 s.2))
      (fun _ => True) False := by
    unfold Chunk.drainFromFront
    simp only [ChunkMethod.calls]
    vc
    all_goals (repeat' split) <;> first | omega | skip
    all_goals acts (l[0]'(by omega))
  rw [e] at hs
  exact hs
theorem acts_drainFromBack (n : Nat) (h : Chunk.Rep N c l) (h' : Chunk.Rep N d k) (hN : 2 * N < E.W) (hr : ChunkMethod.Runs E N (.drainFromBack n) c d c' d') :
    ActsAll (ChunkMethod.calls N c.left c.right d.left d.right (.drainFromBack n)) (mems c d) (mems c' d') := by
  obtain ⟨h1, h2, h3⟩ := h
  obtain ⟨g1, g2, g3⟩ := h'
  obtain ⟨hn, e⟩ := hr
  have hs : Sat (Chunk.drainFromBack E N n (c, d)) (fun _ s => ActsAll (ChunkMethod.calls N c.left c.right d.left d.right (.drainFromBack n)) (mems c d) (mems s.1 s.2))
      (fun _ => True) False := by
    unfold Chunk.drainFromBack
    simp only [ChunkMethod.calls]
    vc
    all_goals (repeat' split) <;> first | omega | skip
    all_goals acts (l[0]'(by omega))
  rw [e] at hs
  exact hs
theorem acts_writes (xs : List A) (w : Nat) {cs : List Call} {m m' : Nat → Mem A}
    (h : ActsAll cs (fun y => if y = 0 then (m 0).putList w xs else m y) m') : ActsAll (writes 0 w xs.length ++ cs) m m' := by
  induction xs generalizing w m with
  | nil =>
    have : (fun y => if y = 0 then (m 0).putList w [] else m y) = m := by
      funext y
      split
      · rename_i h; subst h; funext j; simp [Mem.putList]; omega
      · rfl
    rw [this] at h
    exact h
  | cons a xs ih =>
    refine .cons (.writeAt a) (ih (w + 1) ?_)
    have : (fun y => if y = 0 then (m 0).putList w (a :: xs) else m y) =
        (fun y => if y = 0 then ((fun y => if y = 0 then (m y).put w a else m y) 0).putList (w + 1) xs else (fun y => if y = 0 then (m y).put w a else m y) y) := by
      funext y
      by_cases hy : y = 0
      · subst hy
        simp only [if_true]
        funext j
        simp only [Mem.putList, Mem.put, List.length_cons]
        by_cases hj : j = w
        · subst hj; simp; intro hj; omega
        · by_cases h1 : w + 1 ≤ j ∧ j < w + 1 + xs.length
          · rw [if_pos h1, if_pos (by omega), show j - w = j - (w + 1) + 1 by omega, List.getElem?_cons_succ]
          · rw [if_neg h1, if_neg (by omega), if_neg hj]
      · simp [hy]
    rw [this] at h
    exact h
theorem acts_insertFrom (i n : Nat) (h : Chunk.Rep N c l) (hN : 2 * N < E.W) (hr : ChunkMethod.Runs E N (.insertFrom i n) c d c' d') :
    ActsAll (ChunkMethod.calls N c.left c.right d.left d.right (.insertFrom i n)) (mems c d) (mems c' d') := by
  obtain ⟨dp, it, log, log', hn, e, rfl⟩ := hr
  have hs : Sat (Chunk.insertFrom E N dp i ⟨n, n, it⟩ (c, log)) (fun _ s => ActsAll (ChunkMethod.calls N c.left c.right d'.left d'.right (.insertFrom i n))
      (mems c d') (mems s.1 d')) (fun _ => True) True := by
    obtain ⟨h1, h2, h3⟩ := h
    unfold Chunk.insertFrom
    simp only [M.lenCall_some, ChunkMethod.calls]
    apply Sat.bind
    apply Sat.onUnwind
    apply Sat.onFst
    unfold Chunk.insertFromChecks
    have fin : Sat (dropSlice dp it.owned (c, log)) (fun _ _ => True) (fun _ => True) True := by
      apply Sat.unwindDrop (P := fun _ => True) <;> intros <;> trivial
    vc
    all_goals first | exact fin | skip
    all_goals
      refine Sat.imp (Chunk.writeFromIter_sat (by omega) dp n it _ _ log (by omega)) ?_ (fun _ _ => trivial) (fun _ => trivial)
      rintro _ ⟨c', log'⟩ ⟨q1, q2, q3, q4⟩
      simp only at q2 q3
      subst q2
      have hlen : (it.items.take n).length = n := by simp; omega
      vc
      (repeat' split) <;> first | omega | skip
      simp only [List.cons_append, List.nil_append, List.append_assoc]
      repeat first | refine .cons .field ?_ | refine .cons .len ?_ | refine .cons .copyWithin ?_
      generalize it.items.take n = xs at hlen ⊢
      subst hlen
      apply acts_writes
      acts (l[0]'(by omega))
  rw [e] at hs
  exact hs
theorem mems_put0 {i : Nat} {v : A} {c d : Chunk A} {a b : Nat} : (fun y => if y = 0 then (mems c d y).put i v else mems c d y) = mems ⟨a, b, c.mem.put i v⟩ d := by
  funext y; by_cases hy : y = 0 <;> simp [mems, hy]
theorem mems_put1 {i : Nat} {v : A} {c d : Chunk A} {a b : Nat} : (fun y => if y = 1 then (mems c d y).put i v else mems c d y) = mems c ⟨a, b, d.mem.put i v⟩ := by
  funext y
  by_cases hy : y = 1
  · subst hy; simp [mems]
  · simp [mems, hy]
theorem mems_same {c c' d : Chunk A} (h : c'.mem = c.mem) : mems c' d = mems c d := by unfold mems; rw [h]

theorem acts_useItems (h : Chunk.Rep N c l) (i n : Nat) {cs : List Call} {m' : Nat → Mem A} (hc : ActsAll cs (mems c d) m') :
    ActsAll (useItems 0 c.left (c.right - c.left) i n ++ cs) (mems c d) m' := by
  unfold useItems
  induction n generalizing i with
  | zero => exact hc
  | succ n ih =>
    rw [List.range'_succ, List.map_cons, List.cons_append]
    refine .cons (.sliceDrop fun j h1 h2 => init_of h h1 ?_) (ih (i + 1))
    have := h.1; omega

theorem acts_dropLeft (i : Nat) (h : Chunk.Rep N c l) (hN : 2 * N < E.W) (hr : ChunkMethod.Runs E N (.dropLeft i) c d c' d') :
    ActsAll (ChunkMethod.calls N c.left c.right d.left d.right (.dropLeft i)) (mems c d) (mems c' d') := by
  obtain ⟨dp, log, log', e, rfl⟩ := hr
  have hs : Sat (Chunk.dropLeft E N dp i (c, log)) (fun _ s => ActsAll (ChunkMethod.calls N c.left c.right d'.left d'.right (.dropLeft i)) (mems c d') (mems s.1 d'))
      (fun _ => True) True := by
    have h0 := h
    obtain ⟨h1, h2, h3⟩ := h
    unfold Chunk.dropLeft
    simp only [ChunkMethod.calls]
    vc
    · refine Chunk.sat_asSlice h0 ?_
      vc
      refine Sat.dropSlice (fun _ => ?_) (fun _ => trivial) (fun _ => trivial)
      vc
      rw [if_neg (by omega)]
      exact acts_useItems h0 _ _ (.cons .field (.nil' rfl))
    · rw [if_pos (by omega)]
      exact .nil
  rw [e] at hs
  exact hs

theorem acts_dropRight (i : Nat) (h : Chunk.Rep N c l) (hN : 2 * N < E.W) (hr : ChunkMethod.Runs E N (.dropRight i) c d c' d') :
    ActsAll (ChunkMethod.calls N c.left c.right d.left d.right (.dropRight i)) (mems c d) (mems c' d') := by
  obtain ⟨dp, log, log', e, rfl⟩ := hr
  have hs : Sat (Chunk.dropRight E N dp i (c, log)) (fun _ s => ActsAll (ChunkMethod.calls N c.left c.right d'.left d'.right (.dropRight i)) (mems c d') (mems s.1 d'))
      (fun _ => True) True := by
    have h0 := h
    obtain ⟨h1, h2, h3⟩ := h
    unfold Chunk.dropRight
    simp only [ChunkMethod.calls]
    vc
    · refine Chunk.sat_asSlice h0 ?_
      vc
      refine Sat.dropSlice (fun _ => ?_) (fun _ => trivial) (fun _ => trivial)
      vc
      rw [if_neg (by omega)]
      exact .cons .len (acts_useItems h0 _ _ (.cons .field (.nil' rfl)))
    · rw [if_pos (by omega)]
      exact .cons .len .nil
  rw [e] at hs
  exact hs

theorem acts_clear (h : Chunk.Rep N c l) (hr : ChunkMethod.Runs E N .clear c d c' d') :
    ActsAll (ChunkMethod.calls N c.left c.right d.left d.right .clear) (mems c d) (mems c' d') := by
  obtain ⟨dp, log, log', e, rfl⟩ := hr
  have hs : Sat (Chunk.clear E N dp (c, log)) (fun _ s => ActsAll (ChunkMethod.calls N c.left c.right d'.left d'.right .clear) (mems c d') (mems s.1 d'))
      (fun _ => True) True := by
    unfold Chunk.clear
    simp only [ChunkMethod.calls]
    vc
    refine Chunk.sat_asSlice h ?_
    vc
    refine Sat.dropSlice (fun _ => ?_) (fun _ => trivial) (fun _ => trivial)
    vc
    exact acts_useItems h _ _ (.cons .field (.nil' rfl))
  rw [e] at hs
  exact hs

theorem acts_index (i : Nat) (h : Chunk.Rep N c l) (hr : ChunkMethod.Runs E N (.index i) c d c' d') :
    ActsAll (ChunkMethod.calls N c.left c.right d.left d.right (.index i)) (mems c d) (mems c' d') := by
  obtain ⟨v, e, rfl⟩ := hr
  have hl := h.1
  simp only [Chunk.index, M.bind_run, Chunk.asSlice_eq h, Out.andThen_ok] at e
  cases hi : l[i]? with
  | none => rw [hi] at e; simp at e
  | some a =>
    rw [hi] at e
    simp only [M.pure_run, Out.ok.injEq] at e
    obtain ⟨-, rfl⟩ := e
    have : i < l.length := by grind
    simp only [ChunkMethod.calls]
    rw [if_pos (by omega)]
    exact .cons (.slice fun j h1 h2 => init_of h h1 (by omega)) .nil

theorem acts_indexMut (i : Nat) (h : Chunk.Rep N c l) (hr : ChunkMethod.Runs E N (.indexMut i) c d c' d') :
    ActsAll (ChunkMethod.calls N c.left c.right d.left d.right (.indexMut i)) (mems c d) (mems c' d') := by
  obtain ⟨v, w, e, rfl⟩ := hr
  have hl := h.1
  have hs : Sat (Chunk.set E N i v c) (fun _ s => ActsAll (ChunkMethod.calls N c.left c.right d'.left d'.right (.indexMut i)) (mems c d') (mems s d'))
      (fun _ => True) True := by
    have h0 := h
    obtain ⟨h1, h2, h3⟩ := h
    unfold Chunk.set
    simp only [ChunkMethod.calls]
    vc
    refine Chunk.sat_asSlice h0 ?_
    cases hi : l[i]? <;> simp only
    · vc
    · have : i < l.length := by grind
      vc
      rw [if_pos (by omega)]
      exact .cons (.sliceMut (fun j h1 h2 => init_of h0 h1 (by omega)) v) (.nil' mems_put0)
  rw [e] at hs
  exact hs

theorem clone_acts (hN : N < E.W) {cl : A → Option A} (n i : Nat) (out : Chunk A) (hi : i + n ≤ N) (hI : ∀ j, i ≤ j → j < i + n → (c.mem j).isSome) :
    Sat (Chunk.cloneLoop E N cl c.mem n i out) (fun _ s => ActsAll ((List.range' i n).flatMap fun i => [.getRef 0 i, .writeAt 1 i, .field 1 true]) (mems c out) (mems c s))
      (fun _ => True) True := by
  induction n generalizing i out with
  | zero => exact ActsAll.nil
  | succ n ih =>
    unfold Chunk.cloneLoop
    have h0 := hI i (by omega) (by omega)
    obtain ⟨a, ha⟩ := Option.isSome_iff_exists.1 h0
    apply Sat.bind
    refine Sat.memRead (by omega) ha ?_
    cases hca : cl a with
    | none => simp only; apply Sat.panic; trivial
    | some b =>
      simp only
      vc
      refine Sat.imp (ih (i + 1) _ (by omega) fun j h1 h2 => hI j (by omega) (by omega)) ?_ (fun _ _ => trivial) (fun _ => trivial)
      intro _ s hs
      rw [List.range'_succ, List.flatMap_cons]
      refine .cons (.getRef h0) (.cons (.writeAt b) (.cons .field ?_))
      rw [mems_put1]
      exact hs

theorem acts_clone (h : Chunk.Rep N c l) (hN : 2 * N < E.W) (hr : ChunkMethod.Runs E N .clone c d c' d') :
    ActsAll (ChunkMethod.calls N c.left c.right d.left d.right .clone) (mems c d) (mems c' d') := by
  obtain ⟨dp, cl, log, log', rfl, e⟩ := hr
  have hc := clone_acts (N := N) (E := E) (cl := cl) (c := c) (by omega) (c.right - c.left) c.left ⟨c.left, c.left, Mem.uninit⟩ (by have := h.1; have := h.2; omega)
    fun j h1 h2 => init_of h h1 (by have := h.1; omega)
  unfold Chunk.clone at e
  simp only [M.bind_run, M.onFst_run, M.get_run, Out.mapState_ok, Out.andThen_ok, M.withLocal] at e
  cases hx : Chunk.cloneLoop E N cl c.mem (c.right - c.left) c.left ⟨c.left, c.left, Mem.uninit⟩ with
  | ok u s =>
    rw [hx] at e hc
    simp only [Out.mapState_ok, Out.andThen_ok, M.pure_run, Out.ok.injEq, Prod.mk.injEq] at e
    obtain ⟨rfl, rfl, rfl⟩ := e
    exact .cons .field (.cons .field hc)
  | panic s =>
    rw [hx] at e
    simp only [Out.mapState] at e
    split at e <;> simp at e
  | _ => rw [hx] at e; simp [Out.mapState] at e

end

/-- C100. The calls listed for a method of `Chunk` are what its value model does: they have exactly its effect on the storage of both
chunks. -/
theorem C100_chunk_calls {c d c' d' : Chunk A} {l k : List A} (hN : 2 * N < E.W) (h : Chunk.View E N c l) (h' : Chunk.View E N d k)
    (m : ChunkMethod) (hr : m.Runs E N c d c' d') : ActsAll (m.calls N c.left c.right d.left d.right) (mems c d) (mems c' d') := by
  cases m with
  | pushFront => exact acts_pushFront (h.rep hN) (h'.rep hN) hN hr
  | pushBack => exact acts_pushBack (h.rep hN) (h'.rep hN) hN hr
  | popFront => exact acts_popFront (h.rep hN) (h'.rep hN) hN hr
  | popBack => exact acts_popBack (h.rep hN) (h'.rep hN) hN hr
  | insert i => exact acts_insert i (h.rep hN) (h'.rep hN) hN hr
  | remove i => exact acts_remove i (h.rep hN) (h'.rep hN) hN hr
  | splitOff i => exact acts_splitOff i (h.rep hN) (h'.rep hN) hN hr
  | fromFront n => exact acts_fromFront n (h.rep hN) (h'.rep hN) hN hr
  | fromBack n => exact acts_fromBack n (h.rep hN) (h'.rep hN) hN hr
  | append => exact acts_append (h.rep hN) (h'.rep hN) hN hr
  | drainFromFront n => exact acts_drainFromFront n (h.rep hN) (h'.rep hN) hN hr
  | drainFromBack n => exact acts_drainFromBack n (h.rep hN) (h'.rep hN) hN hr
  | insertFrom i n => exact acts_insertFrom i n (h.rep hN) hN hr
  | dropLeft i => exact acts_dropLeft i (h.rep hN) hN hr
  | dropRight i => exact acts_dropRight i (h.rep hN) hN hr
  | clear => exact acts_clear (h.rep hN) hr
  | index i => exact acts_index i (h.rep hN) hr
  | indexMut i => exact acts_indexMut i (h.rep hN) hr
  | clone => exact acts_clone (h.rep hN) hN hr

/-! ### C100 -/

/-- C100, Tree Borrows: every method of `Chunk`, on every chunk, is accepted; the borrows through which it was called stay usable. -/
theorem C100_chunk_tree_borrows {k : Nat} {s : TB} (hs : Reach TB.rules (TB.start k) s) {c d : Chunk A} {l l' : List A} (hN : 2 * N < E.W)
    (h : Chunk.View E N c l) (h' : Chunk.View E N d l') (b : Nat → Nat) (hb : ∀ x, x < 2 → TB.rules.Usable s (b x) (whole x N)) (m : ChunkMethod) :
    CallsExactly TB.rules (TB.start k) N b (m.calls N c.left c.right d.left d.right) True s := by
  obtain ⟨h1, h2, -⟩ := h.rep hN
  obtain ⟨g1, g2, -⟩ := h'.rep hN
  exact C99_pointers_tree_borrows hs b _ (m.inRange (by omega) h2 (by omega) g2) fun c hc x hx => hb x (m.inBoxes _ _ _ _ c hc x hx)

/-- C100, Stacked Borrows. The full claim would be the same as for Tree Borrows. What holds is that a method of `Chunk` is accepted
exactly if it does not have to move items within the chunk. -/
theorem C100_chunk_stacked_borrows_partial {k : Nat} {s : SB} (hs : Reach SB.rules (SB.start k) s) {c d : Chunk A} {l l' : List A} (hN : 2 * N < E.W)
    (h : Chunk.View E N c l) (h' : Chunk.View E N d l') (b : Nat → Nat) (hb : ∀ x, x < 2 → SB.rules.Usable s (b x) (whole x N)) (m : ChunkMethod) :
    CallsExactly SB.rules (SB.start k) N b (m.calls N c.left c.right d.left d.right) (¬m.Shifts N c.left c.right d.left d.right) s := by
  obtain ⟨h1, h2, -⟩ := h.rep hN
  obtain ⟨g1, g2, -⟩ := h'.rep hN
  have hl : c.left ≤ c.right := by omega
  have hl' : d.left ≤ d.right := by omega
  have := C99_pointers_stacked_borrows_partial hs b _ (m.inRange hl h2 hl' g2) fun c hc x hx => hb x (m.inBoxes _ _ _ _ c hc x hx)
  rwa [show (∀ c' ∈ m.calls N c.left c.right d.left d.right, ¬c'.Stale) = ¬m.Shifts N c.left c.right d.left d.right from
    propext (m.stale_iff hl h2 hl' g2)] at this

theorem InlineMethod.inRange (m : InlineMethod) {k : Nat} (h : k ≤ N) : ∀ c ∈ m.calls N k, c.InRange N := by
  cases m <;> simp only [InlineMethod.calls] <;> (repeat' split) <;>
    simp only [List.forall_mem_cons, List.forall_mem_append, all_map, all_flatMap, all_nil, List.mem_range, List.nil_append, List.cons_append,
      Call.InRange, true_and, and_true] <;>
    first
      | omega
      | (intro x hx; omega)
      | trivial
      | skip
theorem InlineMethod.inBoxes (m : InlineMethod) (k : Nat) : ∀ c ∈ m.calls N k, ∀ x ∈ c.boxes, x < 2 := by
  cases m <;> simp only [InlineMethod.calls] <;> (repeat' split) <;>
    simp [List.forall_mem_cons, List.forall_mem_append, all_map, all_flatMap, all_nil, Call.boxes, -List.mem_cons, -List.mem_append, -List.mem_map, -List.mem_flatMap,
      -forall_exists_index]
theorem InlineMethod.stale_iff (m : InlineMethod) (k : Nat) : (∀ c ∈ m.calls N k, ¬c.Stale) ↔ ¬m.Shifts k := by
  cases m <;> simp only [InlineMethod.calls, InlineMethod.Shifts] <;> (repeat' split) <;>
    simp only [List.forall_mem_cons, List.forall_mem_append, all_map, all_flatMap, all_nil, List.nil_append, List.cons_append, Call.Stale, not_false_eq_true,
      true_and, and_true, implies_true, true_iff, and_false, false_and] <;> first | omega | trivial | skip

/-- C100, Tree Borrows: every method of `InlineArray`, on every array of `k` items and capacity `N`, is accepted. -/
theorem C100_inline_tree_borrows {k : Nat} {s : TB} (hs : Reach TB.rules (TB.start k) s) {n : Nat} (hn : n ≤ N) (b : Nat → Nat)
    (hb : ∀ x, x < 2 → TB.rules.Usable s (b x) (whole x N)) (m : InlineMethod) :
    CallsExactly TB.rules (TB.start k) N b (m.calls N n) True s :=
  C99_pointers_tree_borrows hs b _ (m.inRange hn) fun c hc x hx => hb x (m.inBoxes _ c hc x hx)

/-- C100, Stacked Borrows: a method of `InlineArray` is accepted exactly unless it is `remove` of an item which is not the last. -/
theorem C100_inline_stacked_borrows_partial {k : Nat} {s : SB} (hs : Reach SB.rules (SB.start k) s) {n : Nat} (hn : n ≤ N) (b : Nat → Nat)
    (hb : ∀ x, x < 2 → SB.rules.Usable s (b x) (whole x N)) (m : InlineMethod) :
    CallsExactly SB.rules (SB.start k) N b (m.calls N n) (¬m.Shifts n) s := by
  have := C99_pointers_stacked_borrows_partial hs b _ (m.inRange hn) fun c hc x hx => hb x (m.inBoxes _ c hc x hx)
  rwa [show (∀ c' ∈ m.calls N n, ¬c'.Stale) = ¬m.Shifts n from propext (m.stale_iff n)] at this

/-- C100 is false of the code under Stacked Borrows: `push_front` on a chunk of two items which starts at the first slot, and `remove(0)` from
an inline array of two items. -/
theorem C100_methods_counterexample :
    runCalls SB.rules 3 id (ChunkMethod.calls 3 0 2 0 0 .pushFront) (SB.start 2) = none ∧
    runCalls SB.rules 3 id (InlineMethod.calls 3 2 (.remove 0)) (SB.start 2) = none := by
  refine ⟨Option.not_isSome_iff_eq_none.1 ?_, Option.not_isSome_iff_eq_none.1 ?_⟩ <;> decide +kernel

/-- Both cases occur: on the same chunk `push_back` moves nothing. -/
example : ChunkMethod.Shifts 3 0 2 0 0 .pushFront ∧ ¬ChunkMethod.Shifts 3 0 2 0 0 .pushBack := by simp [ChunkMethod.Shifts]
/-- The hypotheses hold of a chunk of two items and a new one, at the start. -/
example : CallsExactly SB.rules (SB.start 2) 3 id (ChunkMethod.calls 3 0 2 0 0 .pushBack) (¬ChunkMethod.Shifts 3 0 2 0 0 .pushBack) (SB.start 2) :=
  C100_chunk_stacked_borrows_partial (A := Nat) (E := Chunk.dbg64) (N := 3) (c := ⟨0, 2, (Mem.uninit.put 0 10).put 1 20⟩) (d := Chunk.new) (l := [10, 20]) (l' := []) .init
    (by decide) rfl rfl id (fun _ hx => SB.start_usable hx) .pushBack
example : CallsExactly TB.rules (TB.start 2) 3 id (InlineMethod.calls 3 2 (.remove 0)) True (TB.start 2) :=
  C100_inline_tree_borrows .init (by decide) id (fun _ hx => TB.start_usable hx) (.remove 0)
/-- The calls of `push_front` on that chunk have the effect of its value model. -/
example : ActsAll (ChunkMethod.calls 3 0 2 0 0 .pushFront) (mems ⟨0, 2, (Mem.uninit.put 0 10).put 1 20⟩ Chunk.new)
    (mems (⟨0, 3, ((((Mem.uninit.put 0 10).put 1 20)).blit 0 ((Mem.uninit.put 0 10).put 1 20) 1 2).put 0 5⟩ : Chunk Nat) Chunk.new) :=
  C100_chunk_calls (A := Nat) (E := Chunk.dbg64) (N := 3) (c := ⟨0, 2, (Mem.uninit.put 0 10).put 1 20⟩) (d := Chunk.new) (l := [10, 20]) (k := []) (by decide) rfl rfl .pushFront
    ⟨5, rfl, rfl⟩

end Verif.Alias
