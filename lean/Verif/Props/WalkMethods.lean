import Verif.Props.Walk
/-
C113: what the methods that every Rust iterator has come to on the crate's iterators.
-/
namespace Verif
variable {A B R τ : Type} {both : Bool} {hint : List B → Nat × Option Nat} {toss : B → M (List B × List A) Unit} {drop : M (List B × List A) Unit}
  {gone : B → List A} {left : List B → List A} {P : B → Prop}

/-- Destroying items with `P` does not panic: destroying one destroys `gone`, and dropping the iterator when it has still `l` to yield destroys `left l`. -/
structure Ends.Quiet (ls : Ends (List B) A B) (P : B → Prop) (gone : B → List A) (left : List B → List A) : Prop where
  toss : ∀ b l log, P b → ls.toss b (l, log) = .ok () (l, log ++ gone b)
  drop : ∀ l log, (∀ b ∈ l, P b) → ls.drop (l, log) = .ok () (l, log ++ left l)

theorem ListIter.lending_quiet : (ListIter.lending hint : Ends (List B) A B).Quiet (fun _ => True) (fun _ => []) (fun _ => []) :=
  ⟨fun _ _ _ _ => by simp [lending, listEnds], fun _ _ _ => by simp [lending, listEnds]⟩
theorem ListIter.draining_quiet (dp : A → Bool) : (ListIter.draining dp).Quiet (fun a => dp a = false) (fun a => [a]) (fun _ => []) :=
  ⟨fun _ _ _ h => by simp [draining, listEnds, dropOne, h], fun _ _ _ => by simp [draining, listEnds]⟩
theorem ListIter.consuming_quiet (dp : A → Bool) : (ListIter.consuming dp).Quiet (fun a => dp a = false) (fun a => [a]) (fun l => l) :=
  ⟨fun _ _ _ h => by simp [consuming, listEnds, dropOne, h],
    fun l _ h => by simp [consuming, listEnds, Spec.drop, Spec.dropping, show l.countP dp = 0 from List.countP_eq_zero.2 (by simpa using h)]⟩
theorem ListIter.consumingSeq_quiet (dp : A → Bool) : (ListIter.consumingSeq dp).Quiet (fun a => dp a = false) (fun a => [a]) (fun l => l) :=
  ⟨fun _ _ _ h => by simp [consumingSeq, listEnds, dropOne, h],
    fun l _ h => by simp only [consumingSeq, listEnds, Spec.dropSeq, Spec.droppingSeq]; rw [if_neg (by simpa using h)]⟩
theorem ListIter.consumingOptions_quiet (dp : A → Bool) :
    (ListIter.consumingOptions dp).Quiet (fun o => ∀ a, o = some a → dp a = false) Option.toList (fun l => l.filterMap id) :=
  ⟨fun b _ _ h => by cases b <;> simp_all [consumingOptions, listEnds, tossOption, dropOne],
    fun l _ h => by
      simp only [consumingOptions, listEnds, Spec.dropSeq, Spec.droppingSeq]
      rw [if_neg (by simp; exact fun x hx => by cases x with | none => rfl | some a => exact h _ hx a rfl)]; rfl⟩

namespace Walker
local notation "ls" => listEnds hint toss drop

theorem run_next_nil (k : Option B → Walker both B R) (log : List A) : (next k).run ls ([], log) = (k none).run ls ([], log) := by
  simp [run, listEnds, M.onUnwind, Spec.popFront?]
theorem run_next_cons (k : Option B → Walker both B R) (b : B) (l : List B) (log : List A) :
    (next k).run ls (b :: l, log) = (k (some b)).run ls (l, log) := by
  simp [run, listEnds, M.onUnwind, Spec.popFront?]
theorem run_back_nil (h) (k : Option B → Walker both B R) (log : List A) : (nextBack h k).run ls ([], log) = (k none).run ls ([], log) := by
  simp [run, listEnds, M.onUnwind, Spec.popBack?]
theorem run_back_concat (h) (k : Option B → Walker both B R) (b : B) (l : List B) (log : List A) :
    (nextBack h k).run ls (l ++ [b], log) = (k (some b)).run ls (l, log) := by
  simp [run, listEnds, M.onUnwind, Spec.popBack?]
theorem run_hint (k : Nat × Option Nat → Walker both B R) (l : List B) (log : List A) : (Walker.hint k).run ls (l, log) = (k (hint l)).run ls (l, log) := by
  rfl
theorem run_toss (hq : Ends.Quiet ls P gone left) {b : B} (hb : P b) (k : Walker both B R) (l : List B) (log : List A) :
    (Walker.toss b k).run ls (l, log) = k.run ls (l, log ++ gone b) := by
  simp only [run, M.bind_run, M.onUnwind, hq.toss b l log hb, Out.andThen_ok]
theorem run_stop (hq : Ends.Quiet ls P gone left) {l : List B} (hl : ∀ b ∈ l, P b) (r : R) (log : List A) :
    (stop r : Walker both B R).run ls (l, log) = .ok r (l, log ++ left l) := by
  simp only [run, M.bind_run, hq.drop l log hl, Out.andThen_ok, M.pure_run]

theorem run_nth (hq : Ends.Quiet ls P gone left) (k : Option B → Walker both B R) (n : Nat) {l : List B} (hl : ∀ b ∈ l, P b) (log : List A) :
    (nth n k).run ls (l, log) = (k l[n]?).run ls (l.drop (n + 1), log ++ (l.take n).flatMap gone) := by
  induction n generalizing l log with
  | zero => cases l <;> simp [nth, run_next_nil, run_next_cons]
  | succ n ih =>
    cases l with
    | nil => simp [nth, run_next_nil]
    | cons b l =>
      simp only [List.mem_cons, forall_eq_or_imp] at hl
      simp [nth, run_next_cons, run_toss hq hl.1, ih hl.2]

theorem run_count (hq : Ends.Quiet ls P gone left) (k : Nat → Walker both B R) {l : List B} (hl : ∀ b ∈ l, P b) {fuel : Nat} (hf : l.length < fuel)
    (log : List A) : (count fuel k).run ls (l, log) = (k l.length).run ls ([], log ++ l.flatMap gone) := by
  unfold count
  have : ∀ n, (fold (fun n _ => (true, n + 1)) fuel n k).run ls (l, log) = (k (n + l.length)).run ls ([], log ++ l.flatMap gone) := by
    induction fuel generalizing l log with
    | zero => omega
    | succ f ih =>
      intro n
      cases l with
      | nil => simp [fold, run_next_nil]
      | cons b l =>
        simp only [List.mem_cons, forall_eq_or_imp] at hl
        simp [fold, run_next_cons, run_toss hq hl.1, ih hl.2 (by simpa using hf), Nat.add_assoc, Nat.add_comm 1]
  simpa using this 0

theorem run_collect (k : List B → Walker both B R) {l : List B} {fuel : Nat} (hf : l.length < fuel)
    (log : List A) : (collect fuel k).run ls (l, log) = (k l).run ls ([], log) := by
  unfold collect
  have : ∀ r, (fold (fun l b => (false, l ++ [b])) fuel r k).run ls (l, log) = (k (r ++ l)).run ls ([], log) := by
    induction fuel generalizing l with
    | zero => omega
    | succ f ih =>
      intro r
      cases l with
      | nil => simp [fold, run_next_nil]
      | cons b l => simp [fold, run_next_cons, ih (l := l) (by simpa using hf)]
  simpa using this []

theorem run_last (hq : Ends.Quiet ls P gone left) (k : Option B → Walker both B R) {l : List B} (hl : ∀ b ∈ l, P b) {fuel : Nat} (hf : l.length < fuel)
    (log : List A) : (last fuel k).run ls (l, log) = (k l.getLast?).run ls ([], log ++ l.dropLast.flatMap gone) := by
  have key : ∀ (f : Nat) (l : List B) (a : B) (log : List A), (∀ b ∈ l, P b) → P a → l.length < f →
      (lastFrom f (some a) k).run ls (l, log) = (k (a :: l).getLast?).run ls ([], log ++ (a :: l).dropLast.flatMap gone) := by
    intro f
    induction f with
    | zero => intro l; omega
    | succ f ih =>
      intro l a log hl ha hf
      cases l with
      | nil => simp [lastFrom, run_next_nil]
      | cons b l =>
        simp only [List.mem_cons, forall_eq_or_imp] at hl
        simp [lastFrom, run_next_cons, run_toss hq ha, ih l b _ hl.2 hl.1 (by simpa using hf)]
  unfold last
  obtain ⟨f, rfl⟩ : ∃ f, fuel = f + 1 := ⟨fuel - 1, by omega⟩
  cases l with
  | nil => simp [lastFrom, run_next_nil]
  | cons b l =>
    simp only [List.mem_cons, forall_eq_or_imp] at hl
    simp only [lastFrom, run_next_cons]
    exact key f l b log hl.2 hl.1 (by simpa using hf)

theorem run_find (hq : Ends.Quiet ls P gone left) (p : B → Bool) (k : Option B → Walker both B R) {l : List B} (hl : ∀ b ∈ l, P b) {fuel : Nat}
    (hf : l.length < fuel) (log : List A) :
    (find p fuel k).run ls (l, log) = (k (l.find? p)).run ls (l.drop (l.findIdx p + 1), log ++ (l.take (l.findIdx p)).flatMap gone) := by
  induction fuel generalizing l log with
  | zero => omega
  | succ f ih =>
    cases l with
    | nil => simp [find, run_next_nil]
    | cons b l =>
      simp only [List.mem_cons, forall_eq_or_imp] at hl
      cases hb : p b
      · simp [find, run_next_cons, hb, run_toss hq hl.1, ih hl.2 (by simpa using hf), List.findIdx_cons]
      · simp [find, run_next_cons, hb, List.findIdx_cons]

theorem run_position (hq : Ends.Quiet ls P gone left) (p : B → Bool) (k : Option Nat → Walker both B R) {l : List B} (hl : ∀ b ∈ l, P b) {fuel : Nat}
    (hf : l.length < fuel) (log : List A) :
    (position p fuel 0 k).run ls (l, log) = (k (l.findIdx? p)).run ls (l.drop (l.findIdx p + 1), log ++ (l.take (l.findIdx p + 1)).flatMap gone) := by
  have : ∀ n, (position p fuel n k).run ls (l, log) =
      (k ((l.findIdx? p).map (· + n))).run ls (l.drop (l.findIdx p + 1), log ++ (l.take (l.findIdx p + 1)).flatMap gone) := by
    induction fuel generalizing l log with
    | zero => omega
    | succ f ih =>
      intro n
      cases l with
      | nil => simp [position, run_next_nil]
      | cons b l =>
        simp only [List.mem_cons, forall_eq_or_imp] at hl
        cases hb : p b
        · simp only [position, run_next_cons, run_toss hq hl.1, hb, Bool.false_eq_true, if_false, ih hl.2 (log := log ++ gone b) (by simpa using hf) (n + 1)]
          simp [List.findIdx_cons, List.findIdx?_cons, hb, Function.comp_def, Nat.add_assoc, Nat.add_comm 1]
        · simp [position, run_next_cons, run_toss hq hl.1, hb, List.findIdx_cons, List.findIdx?_cons]
  simpa using this 0

theorem run_len {l : List B} (hh : hint l = ListIter.exactly l) (k : Nat → Walker both B R) (log : List A) :
    (len k).run ls (l, log) = (k l.length).run ls (l, log) := by
  simp [len, run_hint, hh, ListIter.exactly]

theorem run_rposition (hq : Ends.Quiet ls P gone left) (p : B → Bool) (k : Option Nat → Walker true B R) {l : List B} (hl : ∀ b ∈ l, P b)
    (hh : hint l = ListIter.exactly l) {fuel : Nat} (hf : l.length < fuel) (log : List A) :
    (rposition p fuel k).run ls (l, log) = (k ((l.reverse.findIdx? p).map (l.length - 1 - ·))).run ls
      ((l.reverse.drop (l.reverse.findIdx p + 1)).reverse, log ++ (l.reverse.take (l.reverse.findIdx p + 1)).flatMap gone) := by
  unfold rposition
  rw [run_len hh]
  clear hh
  induction fuel generalizing l log with
  | zero => omega
  | succ f ih =>
    rcases List.eq_nil_or_concat l with rfl | ⟨l', b, rfl⟩
    · simp [rpositionFrom, run_back_nil]
    · rw [List.concat_eq_append] at hl hf ⊢
      simp only [List.mem_append, List.mem_singleton, or_imp, forall_and, forall_eq] at hl
      simp only [List.length_append, List.length_singleton] at hf
      cases hb : p b
      · simp only [rpositionFrom, run_back_concat, run_toss hq hl.2, hb, Bool.false_eq_true, if_false, List.length_append, List.length_singleton, Nat.add_sub_cancel,
          ih hl.1 (by omega) (log ++ gone b)]
        simp [List.findIdx_cons, List.findIdx?_cons, hb, Function.comp_def, Nat.sub_sub, Nat.add_comm 1]
      · simp [rpositionFrom, run_back_concat, run_toss hq hl.2, hb, List.findIdx_cons, List.findIdx?_cons]

/-- The same computation on a list written down backwards. -/
def backwards {α : Type} (x : M (List B × List A) α) : M (List B × List A) α := fun s => (x (s.1.reverse, s.2)).mapState fun p => (p.1.reverse, p.2)

/-- The iterator over the list written down backwards. -/
def mirror (hint : List B → Nat × Option Nat) (toss : B → M (List B × List A) Unit) (drop : M (List B × List A) Unit) : Ends (List B) A B :=
  listEnds (fun l => hint l.reverse) (fun b => backwards (toss b)) (backwards drop)

theorem backwards_twice {α : Type} (x : M (List B × List A) α) : backwards (backwards x) = x := by
  funext s
  simp only [backwards, List.reverse_reverse]
  cases x s <;> simp

theorem backwards_bind {α β : Type} (x : M (List B × List A) α) (f : α → M (List B × List A) β) : backwards (x >>= f) = backwards x >>= fun a => backwards (f a) := by
  funext s
  simp only [backwards, M.bind_run]
  cases x (s.1.reverse, s.2) <;> simp [backwards]

theorem backwards_unwind {α : Type} (x : M (List B × List A) α) (y : M (List B × List A) Unit) :
    backwards (M.onUnwind x y) = M.onUnwind (backwards x) (backwards y) := by
  funext s
  simp only [backwards, M.onUnwind]
  cases x (s.1.reverse, s.2) with
  | panic s' => simp only [Out.mapState_panic, List.reverse_reverse]; cases y s' <;> simp
  | _ => simp

theorem backwards_next : backwards (M.onFst Spec.popFront? : M (List B × List A) (Option B)) = M.onFst Spec.popBack? := by
  funext s
  obtain ⟨l, log⟩ := s
  rcases List.eq_nil_or_concat l with rfl | ⟨l', b, rfl⟩ <;> simp [backwards, Spec.popFront?, Spec.popBack?]

theorem backwards_pure {α : Type} (r : α) : backwards (pure r : M (List B × List A) α) = pure r := by
  funext s; simp [backwards]
theorem backwards_panic {α : Type} : backwards (M.panic : M (List B × List A) α) = M.panic := by
  funext s; simp [backwards, M.panic]

theorem run_rev (w : Walker true B R) : (rev w).run ls = backwards (w.run (mirror hint toss drop)) := by
  induction w with
  | stop r => simp only [rev, run, backwards_bind, mirror, listEnds, backwards_twice, backwards_pure]
  | panic => simp only [rev, run, backwards_unwind, mirror, listEnds, backwards_twice, backwards_panic]
  | next k ih =>
    simp only [rev, run, backwards_bind, backwards_unwind, mirror, listEnds, backwards_twice, backwards_next]
    congr; funext r; exact ih r
  | nextBack h k ih =>
    have : backwards (M.onFst Spec.popBack? : M (List B × List A) (Option B)) = M.onFst Spec.popFront? := by rw [← backwards_next, backwards_twice]
    simp only [rev, run, backwards_bind, backwards_unwind, mirror, listEnds, backwards_twice, this]
    congr; funext r; exact ih r
  | hint k ih =>
    have : backwards (M.onFst (fun l => .ok (hint l.reverse) l) : M (List B × List A) _) = M.onFst (fun l => .ok (hint l) l) := by
      funext s; simp [backwards, M.onFst]
    simp only [rev, run, backwards_bind, backwards_unwind, mirror, listEnds, backwards_twice, this]
    congr; funext r; exact ih r
  | toss b k ih =>
    simp only [rev, run, backwards_bind, backwards_unwind, mirror, listEnds, backwards_twice]
    congr; funext _; exact ih

theorem mirror_quiet (hq : Ends.Quiet ls P gone left) : (mirror hint toss drop).Quiet P gone (fun l => left l.reverse) :=
  ⟨fun b l log hb => by have := hq.toss b l.reverse log hb; simp only [listEnds] at this; simp [mirror, listEnds, backwards, this],
    fun l log hl => by have := hq.drop l.reverse log (by simpa using hl); simp only [listEnds] at this; simp [mirror, listEnds, backwards, this]⟩

end Walker

section
variable {it : Ends τ A B} {T : τ → List B → Prop} {t : τ} {l : List B}
local notation "ls" => listEnds hint toss drop
open Walker

/-- C113. `it.nth(n)`, after which the code does `k`: it answers item `n`; the items before are destroyed, and the iterator goes on after it. -/
theorem C113_nth (hw : it.Walks ls both T t l) (hq : Ends.Quiet ls P gone left) (hl : ∀ b ∈ l, P b) (n : Nat) (k : Option B → Walker both B R) (log : List A) :
    Ref (RelLog T) ((nth n k).run it (t, log)) ((k l[n]?).run ls (l.drop (n + 1), log ++ (l.take n).flatMap gone)) := by
  rw [← run_nth hq k n hl]; exact hw R _ log

/-- C113. `it.len()` of an iterator that knows its length. -/
theorem C113_len (hw : it.Walks ls both T t l) (hh : hint l = ListIter.exactly l) (k : Nat → Walker both B R) (log : List A) :
    Ref (RelLog T) ((len k).run it (t, log)) ((k l.length).run ls (l, log)) := by
  rw [← run_len hh k]; exact hw R _ log

/-- C113. `it.count()` answers how many items there are, and destroys them all, in order. -/
theorem C113_count (hw : it.Walks ls both T t l) (hq : Ends.Quiet ls P gone left) (hl : ∀ b ∈ l, P b) {fuel : Nat} (hf : l.length < fuel)
    (k : Nat → Walker both B R) (log : List A) :
    Ref (RelLog T) ((count fuel k).run it (t, log)) ((k l.length).run ls ([], log ++ l.flatMap gone)) := by
  rw [← run_count hq k hl hf]; exact hw R _ log

/-- C113. `it.collect()` answers all the items, in order, and destroys none. -/
theorem C113_collect (hw : it.Walks ls both T t l) {fuel : Nat} (hf : l.length < fuel) (k : List B → Walker both B R) (log : List A) :
    Ref (RelLog T) ((collect fuel k).run it (t, log)) ((k l).run ls ([], log)) := by
  rw [← run_collect k hf]; exact hw R _ log

/-- C113. `it.last()` answers the last item, and destroys the others, in order. -/
theorem C113_last (hw : it.Walks ls both T t l) (hq : Ends.Quiet ls P gone left) (hl : ∀ b ∈ l, P b) {fuel : Nat} (hf : l.length < fuel)
    (k : Option B → Walker both B R) (log : List A) :
    Ref (RelLog T) ((last fuel k).run it (t, log)) ((k l.getLast?).run ls ([], log ++ l.dropLast.flatMap gone)) := by
  rw [← run_last hq k hl hf]; exact hw R _ log

/-- C113. `it.find(p)` answers the first item with `p`; the items before are destroyed, and the iterator goes on after it. -/
theorem C113_find (hw : it.Walks ls both T t l) (hq : Ends.Quiet ls P gone left) (hl : ∀ b ∈ l, P b) (p : B → Bool) {fuel : Nat} (hf : l.length < fuel)
    (k : Option B → Walker both B R) (log : List A) : Ref (RelLog T) ((find p fuel k).run it (t, log))
      ((k (l.find? p)).run ls (l.drop (l.findIdx p + 1), log ++ (l.take (l.findIdx p)).flatMap gone)) := by
  rw [← run_find hq p k hl hf]; exact hw R _ log

/-- C113. `it.position(p)` answers the position of the first item with `p`; it destroys that item too. -/
theorem C113_position (hw : it.Walks ls both T t l) (hq : Ends.Quiet ls P gone left) (hl : ∀ b ∈ l, P b) (p : B → Bool) {fuel : Nat} (hf : l.length < fuel)
    (k : Option Nat → Walker both B R) (log : List A) : Ref (RelLog T) ((position p fuel 0 k).run it (t, log))
      ((k (l.findIdx? p)).run ls (l.drop (l.findIdx p + 1), log ++ (l.take (l.findIdx p + 1)).flatMap gone)) := by
  rw [← run_position hq p k hl hf]; exact hw R _ log

/-- C113. `it.rposition(p)` answers the position, counted from the front, of the last item with `p`; it destroys the items from the back up to it. -/
theorem C113_rposition (hw : it.Walks ls true T t l) (hq : Ends.Quiet ls P gone left) (hl : ∀ b ∈ l, P b) (hh : hint l = ListIter.exactly l) (p : B → Bool)
    {fuel : Nat} (hf : l.length < fuel) (k : Option Nat → Walker true B R) (log : List A) : Ref (RelLog T) ((rposition p fuel k).run it (t, log))
      ((k ((l.reverse.findIdx? p).map (l.length - 1 - ·))).run ls
        ((l.reverse.drop (l.reverse.findIdx p + 1)).reverse, log ++ (l.reverse.take (l.reverse.findIdx p + 1)).flatMap gone)) := by
  rw [← run_rposition hq p k hl hh hf]; exact hw R _ log

/-- C113. Whatever code does with `it.rev()`, it sees, gets and destroys what it would with the reversed list; those not taken stay, or are
destroyed, in the order of the list itself. -/
theorem C113_rev (hw : it.Walks ls true T t l) (w : Walker true B R) (log : List A) :
    Ref (RelLog fun t k => T t k.reverse) (w.rev.run it (t, log)) (w.run (mirror hint toss drop) (l.reverse, log)) := by
  have := hw R w.rev log
  rw [run_rev] at this
  simp only [backwards] at this
  cases hx : w.rev.run it (t, log) <;> rw [hx] at this <;> cases hy : w.run (mirror hint toss drop) (l.reverse, log) <;> rw [hy] at this <;>
    simp_all [Ref, Sat, RelLog, Out.mapState]
  obtain ⟨_, ⟨h1, rfl, h2⟩, h3⟩ := this
  exact ⟨_, ⟨h1, Prod.ext rfl h2⟩, h3⟩

/-- C113. `it.rev().nth(n)`, or `it.nth_back(n)`, the iterator then being dropped. -/
theorem C113_nth_back (hw : it.Walks ls true T t l) (hq : Ends.Quiet ls P gone left) (hl : ∀ b ∈ l, P b) (n : Nat) (log : List A) :
    ∃ t', (nth n stop).rev.run it (t, log) = .ok l.reverse[n]?
        (t', log ++ (l.reverse.take n).flatMap gone ++ left (l.reverse.drop (n + 1)).reverse) ∧ T t' (l.reverse.drop (n + 1)).reverse := by
  have h1 := C113_rev hw (nth n stop) log
  have hm := mirror_quiet hq
  unfold mirror at hm h1
  have hl' : ∀ b ∈ l.reverse, P b := by simpa using hl
  rw [run_nth hm stop n hl', run_stop hm (fun b hb => hl' b (List.mem_of_mem_drop hb))] at h1
  obtain ⟨⟨t', log'⟩, e, h2, h3⟩ := h1.of_ok rfl
  simp only at h2 h3; subst h3
  exact ⟨t', e, h2⟩

end

section
open Chunk (dbg64 edge)
open Walker

/-- C113 is not vacuous: code that looks at what it gets.  It takes the first item of a buffer of two, destroys it if it is 10, and then panics. -/
def picky : Walker true Nat Unit := .next fun r => if r = some 10 then .toss 10 .panic else .stop ()

example : Ring.View dbg64 3 Ring.seam [10, 20] ∧
    (∃ t, picky.run (Ring.intoIterEnds dbg64 3 fun _ => false) (Ring.seam, []) = .panic (t, [10, 20])) ∧
    picky.run (Ring.intoIterEnds dbg64 3 (· == 20)) (Ring.seam, []) = .abort ∧
    (∃ t, picky.run (Ring.drainEnds dbg64 3 fun _ => false) (Ring.seam, []) = .panic (t, [10]) ∧ Ring.View dbg64 3 t [20]) :=
  ⟨⟨rfl, by decide, by decide⟩, ⟨_, rfl⟩, rfl, ⟨_, rfl, ⟨rfl, by decide, by decide⟩⟩⟩

/-- … the same, by the theorem. -/
example : ∃ t, picky.run (Ring.drainEnds dbg64 3 fun _ => false) (Ring.seam, []) = .panic (t, [10]) ∧ Ring.View dbg64 3 t [20] := by
  have h := Ring.C113_drain (E := dbg64) (N := 3) (c := Ring.seam) (l := [10, 20]) (by decide) (fun _ => false) ⟨rfl, by decide, by decide⟩ _ picky []
  obtain ⟨⟨t, log⟩, e, h1, h2⟩ := h.of_panic (t := ([20], [10])) rfl
  simp only at h1 h2; subst h2
  exact ⟨t, e, h1⟩

/-- `nth(1)` of a draining chunk destroys the first item, and leaves nothing; `into_iter().rev().nth(0)` takes the last and destroys the first with
the iterator; `rposition` counts from the front. -/
example : Chunk.View dbg64 3 edge [10, 20] ∧
    (∃ t, (nth 1 stop : Walker true Nat _).run (Chunk.drainEnds dbg64 3 fun _ => false) (edge, []) = .ok (some 20) (t, [10]) ∧ Chunk.View dbg64 3 t []) ∧
    (∃ t, (nth 0 stop : Walker true Nat _).rev.run (Chunk.intoIterEnds dbg64 3 fun _ => false) (edge, []) = .ok (some 20) (t, [10])) ∧
    (∃ t, (rposition (· == 10) 3 stop).run (Chunk.intoIterEnds dbg64 3 fun _ => false) (edge, []) = .ok (some 0) (t, [20, 10])) ∧
    (∃ t, (find (· == 20) 3 fun r => len fun n => stop (r, n) : Walker true Nat _).run (Chunk.drainEnds dbg64 3 fun _ => false) (edge, []) =
      .ok (some 20, 0) (t, [10])) :=
  ⟨rfl, ⟨_, rfl, rfl⟩, ⟨_, rfl⟩, ⟨_, rfl⟩, ⟨_, rfl⟩⟩

/-- … the same, by the theorems. -/
example : ∃ t, (nth 0 stop : Walker true Nat _).rev.run (Chunk.intoIterEnds dbg64 3 fun _ => false) (edge, []) = .ok (some 20) (t, [10]) := by
  have h := Chunk.C113_into_iter (E := dbg64) (N := 3) (c := edge) (l := [10, 20]) (by decide) (fun _ => false) rfl
  obtain ⟨t, e, _⟩ := C113_nth_back h (ListIter.consuming_quiet _) (by simp) 0 []
  exact ⟨t, e⟩

/-- `option_drain()` of a sparse chunk with items at 1 and 3 yields four options; `count` destroys both, `nth(1)` the first being `None` none before it. -/
example : Sparse.View 4 Sparse.sample Sparse.sampleMap ∧ (List.range 4).map Sparse.sampleMap = [none, some 20, none, some 10] ∧
    (∃ t, (count 5 stop : Walker false (Option Nat) _).run (Sparse.optionDrainEnds dbg64 4 fun _ => false) ((Sparse.sample, 0), []) = .ok 4 (t, [20, 10])) ∧
    (∃ t, (nth 1 stop : Walker false (Option Nat) _).run (Sparse.optionDrainEnds dbg64 4 fun _ => false) ((Sparse.sample, 0), []) = .ok (some (some 20)) (t, [10])) ∧
    (∃ t, (last 3 stop : Walker false Nat _).run (Sparse.drainEnds 4 fun _ => false) (Sparse.sample, []) = .ok (some 10) (t, [20])) ∧
    (∃ t, (collect 3 stop : Walker false Nat _).run (Sparse.iterMutEnds 4) ((Sparse.sample, Sparse.sample.map), []) = .ok [1, 3] (t, [])) ∧
    (∃ t, (nth 1 stop : Walker false (Nat × Nat) _).run (Sparse.entriesEnds 4) ((Sparse.sample, (0, 0)), []) = .ok (some (3, 10)) (t, [])) ∧
    (∃ t, (last 3 stop : Walker false Nat _).run (Sparse.indicesEnds 4) ((Sparse.sample, 0), []) = .ok (some 3) (t, [])) :=
  ⟨Sparse.sample_view, rfl, ⟨_, rfl⟩, ⟨_, rfl⟩, ⟨_, rfl⟩, ⟨_, rfl⟩, ⟨_, rfl⟩, ⟨_, rfl⟩⟩

/-- An inline array of three: `into_iter().position(..)` destroys what it looks at, and the rest goes with the iterator. -/
example : ∃ t, (position (· == 20) 4 0 stop : Walker true Nat _).run (Inline.intoIterEnds dbg64 Inline.words fun _ => false) (Inline.three, []) =
    .ok (some 1) (t, [10, 20, 30]) := by
  have h := Inline.C113_into_iter Inline.words_valid (fun _ => false) Inline.three_spec.1 Inline.three_spec.2
  have h2 := C113_position h (ListIter.consuming_quiet _) (by simp) (· == 20) (fuel := 4) (by decide) stop []
  obtain ⟨⟨t, log⟩, e, _, h3⟩ := h2.of_ok (t := ([30], [10, 20, 30])) rfl
  simp only at h3; subst h3
  exact ⟨t, e⟩
end
end Verif
