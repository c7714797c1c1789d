import Verif.Threads
import Verif.Props.RingAlias
/-
C101: threads that own the parts of a mutable slice.
-/
namespace Verif.Ring
open Verif
open Verif.Chunk (dbg64 rel64)
variable {A : Type} {E : Env} {N : Nat}

/-! ### Windows of a list -/

/-- The items in a window. -/
def _root_.Verif.Span.of (s : Span) (l : List A) : List A := (l.drop s.start).take (s.stop - s.start)

theorem _root_.Verif.Span.of_get (s : Span) (l : List A) (i : Nat) : (s.of l)[i]? = if i < s.stop - s.start then l[s.start + i]? else none := by
  simp [Span.of, List.getElem?_take, List.getElem?_drop]
theorem _root_.Verif.Span.of_set_in (s : Span) (l : List A) (i : Nat) (v : A) (h : s.start + i < s.stop) : s.of (l.set (s.start + i) v) = (s.of l).set i v := by
  apply List.ext_getElem?
  intro j
  have hl : (s.of l).length = min (s.stop - s.start) (l.length - s.start) := by simp [Span.of]
  rw [Span.of_get, List.getElem?_set, List.getElem?_set, hl, Span.of_get]
  (repeat' split) <;> first | rfl | omega | skip
theorem _root_.Verif.Span.of_set_out (s : Span) (l : List A) (j : Nat) (v : A) (h : ¬(s.start ≤ j ∧ j < s.stop)) : s.of (l.set j v) = s.of l := by
  apply List.ext_getElem?
  intro i
  simp only [Span.of_get, List.getElem?_set]
  split <;> (try split) <;> first | rfl | omega | skip

theorem alone_append (xs ys : List (Access A)) (l : List A) :
    alone (xs ++ ys) l = ((alone xs l).1 ++ (alone ys (alone xs l).2).1, (alone ys (alone xs l).2).2) := by
  induction xs generalizing l with
  | nil => rfl
  | cons x xs ih => simp only [List.cons_append, alone, ih]
theorem alone_length (xs : List (Access A)) (l : List A) : (alone xs l).1.length = xs.length := by
  induction xs generalizing l with
  | nil => rfl
  | cons x xs ih => simp [alone, ih]

/-! ### Splitting -/

/-- The windows the client ends up with. -/
def Parts.windows : Parts → Span → List Span
  | .whole, s => [s]
  | .split i left right, s => left.windows ⟨s.start, s.start + i⟩ ++ right.windows ⟨s.start + i, s.stop⟩

theorem Parts.deal_eq (parts : Parts) {s : Span} (h : s.start ≤ s.stop) (hW : s.stop < E.W) (hf : parts.Fits (s.stop - s.start)) (c : Ring A) :
    parts.deal E s c = .ok (parts.windows s) c := by
  induction parts generalizing s with
  | whole => rfl
  | split i left right ihl ihr =>
    obtain ⟨f1, f2, f3⟩ := hf
    have e : splitAt E s i c = .ok (⟨s.start, s.start + i⟩, ⟨s.start + i, s.stop⟩) c := by
      simp [splitAt, sliceLen, usub, uadd, h, M.panicIf, show ¬ s.stop - s.start < i by omega, show s.start + i < E.W by omega]
    simp only [Parts.deal, M.bind_run, e, Out.andThen_ok, Parts.windows]
    rw [ihl (s := ⟨s.start, s.start + i⟩) (by simp) (by simp only; omega) (by simpa using f2)]
    simp only [Out.andThen_ok]
    rw [ihr (s := ⟨s.start + i, s.stop⟩) (by simp only; omega) hW (by simp only; rwa [show s.stop - (s.start + i) = s.stop - s.start - i by omega])]
    rfl

theorem Parts.windows_inside (parts : Parts) {s : Span} (h : s.start ≤ s.stop) (hf : parts.Fits (s.stop - s.start)) :
    ∀ w ∈ parts.windows s, s.start ≤ w.start ∧ w.start ≤ w.stop ∧ w.stop ≤ s.stop := by
  induction parts generalizing s with
  | whole => intro w hw; simp [Parts.windows] at hw; subst hw; omega
  | split i left right ihl ihr =>
    obtain ⟨f1, f2, f3⟩ := hf
    intro w hw
    simp only [Parts.windows, List.mem_append] at hw
    rcases hw with hw | hw
    · have := ihl (s := ⟨s.start, s.start + i⟩) (by simp) (by simpa using f2) w hw
      simp only at this; omega
    · have := ihr (s := ⟨s.start + i, s.stop⟩) (by simp only; omega) (by simp only; rwa [show s.stop - (s.start + i) = s.stop - s.start - i by omega]) w hw
      simp only at this; omega

theorem Parts.windows_apart (parts : Parts) {s : Span} (h : s.start ≤ s.stop) (hf : parts.Fits (s.stop - s.start)) :
    (parts.windows s).Pairwise (fun v w => v.stop ≤ w.start) := by
  induction parts generalizing s with
  | whole => simp [Parts.windows]
  | split i left right ihl ihr =>
    obtain ⟨f1, f2, f3⟩ := hf
    have e : s.stop - (s.start + i) = s.stop - s.start - i := by omega
    simp only [Parts.windows, List.pairwise_append]
    refine ⟨ihl (by simp) (by simpa using f2), ihr (by simp only; omega) (by simp only; rwa [e]), fun v hv w hw => ?_⟩
    have h1 := left.windows_inside (s := ⟨s.start, s.start + i⟩) (by simp) (by simpa using f2) v hv
    have h2 := right.windows_inside (s := ⟨s.start + i, s.stop⟩) (by simp only; omega) (by simp only; rwa [e]) w hw
    simp only at h1 h2; omega

theorem Parts.pieces_eq (parts : Parts) {s : Span} (h : s.start ≤ s.stop) (hf : parts.Fits (s.stop - s.start)) (l : List A) :
    parts.pieces (s.of l) = (parts.windows s).map (fun w => w.of l) := by
  induction parts generalizing s with
  | whole => rfl
  | split i left right ihl ihr =>
    obtain ⟨f1, f2, f3⟩ := hf
    have e : s.stop - (s.start + i) = s.stop - s.start - i := by omega
    simp only [Parts.pieces, Parts.windows, List.map_append]
    rw [← ihl (s := ⟨s.start, s.start + i⟩) (by simp) (by simpa using f2), ← ihr (s := ⟨s.start + i, s.stop⟩) (by simp only; omega) (by simp only; rwa [e])]
    congr 2
    · simp only [Span.of, List.take_take]; congr 1; omega
    · simp only [Span.of, List.drop_take, List.drop_drop]; congr 1; omega

theorem Parts.pieces_flatten {α : Type} (parts : Parts) (l : List α) : (parts.pieces l).flatten = l := by
  induction parts generalizing l with
  | whole => simp [Parts.pieces]
  | split i left right ihl ihr => simp [Parts.pieces, ihl, ihr]

/-! ### The invariant -/

/-- Threads that own the windows `ws`, and have programs `prog`, started on a buffer with the items `l`. -/
structure Inv (N o : Nat) (l : List A) (wins : List Span) (prog : Nat → List (Access A)) (m : List A) (s : Ring A × (Nat → Worker A)) : Prop where
  rep : Rep N s.1 m
  len : m.length = l.length
  org : s.1.origin = o
  out : ∀ j, (∀ w ∈ wins, ¬(w.start ≤ j ∧ j < w.stop)) → m[j]? = l[j]?
  idle : ∀ t, wins[t]? = none → (s.2 t).todo = [] ∧ (s.2 t).pending = none ∧ (s.2 t).got = []
  slice : ∀ t w, wins[t]? = some w → (s.2 t).slice = w
  past : ∀ t w, wins[t]? = some w → ∃ xs, prog t = xs ++ (s.2 t).todo ∧ alone xs (w.of l) = ((s.2 t).got, w.of m)
  ptr : ∀ t w, wins[t]? = some w → ∀ p, (s.2 t).pending = some p →
    ∃ x rest, (s.2 t).todo = x :: rest ∧ w.start + x.i < w.stop ∧ p = ridx N o (w.start + x.i)

/-- How many steps a thread still needs. -/
def Worker.need (w : Worker A) : Nat := 2 * w.todo.length - (if w.pending.isSome then 1 else 0)

variable {o : Nat} {l m : List A} {wins : List Span} {prog : Nat → List (Access A)} {s : Ring A × (Nat → Worker A)}

/-- Accesses with `slice[i]` stay inside the thread's own part. -/
def OwnIndex (wins : List Span) (prog : Nat → List (Access A)) : Prop :=
  ∀ t w, wins[t]? = some w → ∀ x ∈ prog t, x.checked = false → w.start + x.i < w.stop

theorem get_apart (ha : wins.Pairwise (fun v w => v.stop ≤ w.start)) {t u : Nat} {v w : Span} (h : t ≠ u) (ht : wins[t]? = some v) (hu : wins[u]? = some w)
    {j : Nat} (h1 : v.start ≤ j) (h2 : j < v.stop) : ¬(w.start ≤ j ∧ j < w.stop) := by
  rw [List.pairwise_iff_getElem] at ha
  obtain ⟨ht1, ht2⟩ := List.getElem?_eq_some_iff.1 ht
  obtain ⟨hu1, hu2⟩ := List.getElem?_eq_some_iff.1 hu
  rcases Nat.lt_or_gt_of_ne h with g | g
  · have := ha t u ht1 hu1 g; rw [ht2, hu2] at this; omega
  · have := ha u t hu1 ht1 g; rw [ht2, hu2] at this; omega

theorem Inv.raceFree (hi : ∀ w ∈ wins, w.start ≤ w.stop ∧ w.stop ≤ l.length)
    (ha : wins.Pairwise (fun v w => v.stop ≤ w.start)) (h : Inv N o l wins prog m s) : RaceFree s.2 := by
  intro t u p htu ht hu
  rcases et : wins[t]? with _ | v
  · simp [(h.idle t et).2.1] at ht
  rcases eu : wins[u]? with _ | w
  · simp [(h.idle u eu).2.1] at hu
  obtain ⟨x, -, -, h1, h2⟩ := h.ptr t v et p ht
  obtain ⟨y, -, -, h3, h4⟩ := h.ptr u w eu p hu
  have hle := h.rep.le
  have hl := h.len
  have i1 := hi v (List.mem_of_getElem? et)
  have i2 := hi w (List.mem_of_getElem? eu)
  have := ridx_inj (o := o) (i := v.start + x.i) (j := w.start + y.i) (by omega) (by omega) (h2 ▸ h4)
  have := get_apart ha htu et eu (j := v.start + x.i) (by omega) h1
  omega

theorem swapAt_origin {c c' : Ring A} {p : Nat} {v a : A} (h : swapAt N p v c = .ok a c') : c'.origin = c.origin := by
  simp only [swapAt, M.bind_run, getMem, setMem, Out.andThen_ok, memRead, memWrite] at h
  by_cases hp : p < N
  · rcases hm : c.mem p with _ | x
    · simp [hp, hm, M.ub, M.bind_run] at h
    · simp [hp, hm, M.bind_run] at h
      rw [← h.2]
  · simp [hp, M.ub, M.bind_run] at h

/-- A step of one thread keeps the invariant and brings the thread closer to its end. -/
theorem Inv.step (hW : 2 * N < E.W) (hi : ∀ w ∈ wins, w.start ≤ w.stop ∧ w.stop ≤ l.length)
    (ha : wins.Pairwise (fun v w => v.stop ≤ w.start)) (ho : OwnIndex wins prog) (h : Inv N o l wins prog m s) (t : Nat) :
    ∃ m' c' w, (s.2 t).step E N s.1 = some (c', w) ∧ Inv N o l wins prog m' (c', fun u => if u = t then w else s.2 u) ∧ w.need ≤ (s.2 t).need - 1 := by
  -- a step after which everything is as before, but for this thread
  have frame : ∀ w : Worker A, w.slice = (s.2 t).slice → (wins[t]? = none → w.todo = [] ∧ w.pending = none ∧ w.got = []) →
      (∀ v, wins[t]? = some v → ∃ xs, prog t = xs ++ w.todo ∧ alone xs (v.of l) = (w.got, v.of m)) →
      (∀ v, wins[t]? = some v → ∀ p, w.pending = some p → ∃ x rest, w.todo = x :: rest ∧ v.start + x.i < v.stop ∧ p = ridx N o (v.start + x.i)) →
      Inv N o l wins prog m (s.1, fun u => if u = t then w else s.2 u) := by
    intro w h1 h2 h3 h4
    refine ⟨h.rep, h.len, h.org, h.out, fun u hu => ?_, fun u v hu => ?_, fun u v hu => ?_, fun u v hu => ?_⟩
    all_goals
      by_cases e : u = t
      · subst e
        simp only [if_true]
        first | exact h2 hu | exact h1.trans (h.slice _ _ hu) | exact h3 _ hu | exact h4 _ hu
      · simp only [if_neg e]
        first | exact h.idle u hu | exact h.slice u v hu | exact h.past u v hu | exact h.ptr u v hu
  rcases et : wins[t]? with _ | v
  · obtain ⟨h1, h2, h3⟩ := h.idle t et
    refine ⟨m, s.1, s.2 t, by simp [Worker.step, h1], ?_, by simp [Worker.need, h1]⟩
    refine frame _ rfl (fun _ => ⟨h1, h2, h3⟩) ?_ ?_ <;> intro v hv <;> simp [et] at hv
  obtain ⟨i1, i2⟩ := hi v (List.mem_of_getElem? et)
  have hsl := h.slice t v et
  obtain ⟨xs, hx1, hx2⟩ := h.past t v et
  have hp := h.ptr t v et
  have hlen := h.len
  have hle := h.rep.le
  rcases e1 : (s.2 t).todo with _ | ⟨x, rest⟩
  · refine ⟨m, s.1, s.2 t, by simp [Worker.step, e1], ?_, by simp [Worker.need, e1]⟩
    refine frame _ rfl (fun hn => by simp [et] at hn) ?_ ?_
    · exact fun v hv => h.past t v hv
    · exact fun v hv => h.ptr t v hv
  rw [e1] at hx1 hp
  -- the thread finishes an access
  have finish : ∀ (a : Option A), ((s.2 t).done a).need ≤ (s.2 t).need - 1 := by
    intro a
    simp only [Worker.need, Worker.done, e1, List.tail_cons, List.length_cons]
    simp; split <;> omega
  rcases e2 : (s.2 t).pending with _ | p
  · -- it looks for the item
    have got : ∀ {p}, v.start + x.i < v.stop → p = ridx N o (v.start + x.i) →
        Inv N o l wins prog m (s.1, fun u => if u = t then { s.2 t with pending := some p } else s.2 u) ∧
          ({ s.2 t with pending := some p } : Worker A).need ≤ (s.2 t).need - 1 := by
      intro p h1 h2
      refine ⟨frame _ rfl (fun hn => by simp [et] at hn) (fun w hw => h.past t w hw) ?_, ?_⟩
      · intro w hw q hq
        rw [et] at hw; cases hw
        simp only [Option.some.injEq] at hq
        subst hq
        exact ⟨x, rest, e1, h1, h2⟩
      · simp [Worker.need, e1, e2]
    by_cases hc : x.checked = true
    · have hf : x.find E N (s.2 t).slice s.1 = .ok (if x.i < v.stop - v.start then some (ridx N o (v.start + x.i)) else none) s.1 := by
        simp only [Access.find, hc, if_true, hsl]
        rw [sliceGetMut_eq hW h.rep i1 (by omega), h.org]
      by_cases hin : x.i < v.stop - v.start
      · rw [if_pos hin] at hf
        have := got (p := ridx N o (v.start + x.i)) (by omega) rfl
        exact ⟨m, s.1, { s.2 t with pending := some (ridx N o (v.start + x.i)) }, by simp [Worker.step, e1, e2, hf], this.1, this.2⟩
      · rw [if_neg hin] at hf
        refine ⟨m, s.1, (s.2 t).done none, by simp [Worker.step, e1, e2, hf], ?_, finish _⟩
        refine frame _ rfl (fun hn => by simp [et] at hn) ?_ (by simp [Worker.done])
        intro w hw
        rw [et] at hw; cases hw
        refine ⟨xs ++ [x], by simp [Worker.done, e1, hx1], ?_⟩
        have hn : (v.of m)[x.i]? = none := by rw [Span.of_get, if_neg hin]
        rw [alone_append, hx2]
        simp only [alone, hn, Worker.done]
        congr 1
        split
        · rfl
        · rw [List.set_eq_of_length_le]
          exact List.getElem?_eq_none_iff.1 hn
    · have hin := ho t v et x (by rw [hx1]; simp) (by simpa using hc)
      have hf : x.find E N (s.2 t).slice s.1 = .ok (some (ridx N o (v.start + x.i))) s.1 := by
        have hu : uadd E v.start x.i s.1 = .ok (v.start + x.i) s.1 := by simp [uadd, show v.start + x.i < E.W by omega]
        simp only [Access.find, hc, hsl, sliceIndexMut, M.bind_run, hu, Out.andThen_ok, Bool.false_eq_true, if_false]
        rw [indexMut_eq hW h.rep, if_pos (by omega), h.org]
        rfl
      have := got (p := ridx N o (v.start + x.i)) hin rfl
      exact ⟨m, s.1, { s.2 t with pending := some (ridx N o (v.start + x.i)) }, by simp [Worker.step, e1, e2, hf], this.1, this.2⟩
  · -- it uses its reference
    obtain ⟨x', rest', hx', hin, rfl⟩ := hp p e2
    simp only [List.cons.injEq] at hx'
    obtain ⟨rfl, rfl⟩ := hx'
    have hj : v.start + x.i < m.length := by omega
    have hv : (v.of m)[x.i]? = some m[v.start + x.i] := by
      rw [Span.of_get, if_pos (by omega), List.getElem?_eq_getElem hj]
    have past : ∀ m', (v.of m' = match x.new with | none => v.of m | some y => (v.of m).set x.i y) →
        ∃ xs, prog t = xs ++ ((s.2 t).done (some m[v.start + x.i])).todo ∧
          alone xs (v.of l) = (((s.2 t).done (some m[v.start + x.i])).got, v.of m') := by
      intro m' hm'
      refine ⟨xs ++ [x], by simp [Worker.done, e1, hx1], ?_⟩
      rw [alone_append, hx2]
      simp only [alone, hv, Worker.done, hm']
      cases x.new <;> rfl
    rcases hnew : x.new with _ | y
    · have hu : x.use N (ridx N o (v.start + x.i)) s.1 = .ok m[v.start + x.i] s.1 := by
        have hc := h.rep.cell' (List.getElem?_eq_getElem hj)
        simp only [lm, hc.1, if_true, h.org] at hc
        simp only [Access.use, hnew, getMem, M.bind_run, Out.andThen_ok]
        exact memRead_ok (ridx_lt (h.org ▸ h.rep.org) (by omega)) hc.2 _
      refine ⟨m, s.1, (s.2 t).done (some m[v.start + x.i]), by simp [Worker.step, e1, e2, hu], ?_, finish _⟩
      refine frame _ rfl (fun hn => by simp [et] at hn) ?_ (by simp [Worker.done])
      intro w hw
      rw [et] at hw; cases hw
      exact past m (by simp [hnew])
    · obtain ⟨c', hu, hr⟩ := swapAt_eq (N := N) h.rep hj y
      have horg : c'.origin = o := (swapAt_origin hu).trans h.org
      rw [h.org] at hu
      refine ⟨m.set (v.start + x.i) y, c', (s.2 t).done (some m[v.start + x.i]), by simp [Worker.step, e1, e2, Access.use, hnew, hu], ?_, finish _⟩
      refine ⟨hr, by simpa using h.len, horg, ?_, ?_, ?_, ?_, ?_⟩
      · intro j hj'
        simp only [List.getElem?_set]
        rw [if_neg]
        · exact h.out j hj'
        · rintro rfl
          exact hj' v (List.mem_of_getElem? et) ⟨by omega, hin⟩
      all_goals
        intro u
        by_cases e : u = t
        · subst e
          simp only [if_true]
          first
            | (intro hn; simp [et] at hn; done)
            | (intro w hw; rw [et] at hw; cases hw
               first
                 | exact hsl
                 | exact past _ (by rw [Span.of_set_in _ _ _ _ hin, hnew])
                 | simp [Worker.done])
        · simp only [if_neg e]
          first
            | exact h.idle u
            | exact h.slice u
            | exact h.ptr u
            | (intro w hw
               rw [Span.of_set_out _ _ _ _ (get_apart ha (Ne.symm e) et hw (by omega) hin)]
               exact h.past u w hw)

theorem Inv.schedule (hW : 2 * N < E.W) (hi : ∀ w ∈ wins, w.start ≤ w.stop ∧ w.stop ≤ l.length)
    (ha : wins.Pairwise (fun v w => v.stop ≤ w.start)) (ho : OwnIndex wins prog) (sched : List Nat) (h : Inv N o l wins prog m s) :
    ∃ m' s', Ring.schedule E N sched s = some s' ∧ Inv N o l wins prog m' s' ∧ ∀ t, (s'.2 t).need ≤ (s.2 t).need - sched.count t := by
  induction sched generalizing m s with
  | nil => exact ⟨m, s, rfl, h, fun t => by simp⟩
  | cons t sched ih =>
    obtain ⟨m1, c1, w, h1, h2, h3⟩ := h.step hW hi ha ho t
    obtain ⟨m2, s2, h4, h5, h6⟩ := ih h2
    refine ⟨m2, s2, by simp [Ring.schedule, h1, h4], h5, fun u => ?_⟩
    have := h6 u
    simp only at this
    by_cases e : u = t
    · subst e; simp at this ⊢; omega
    · simp only [if_neg e, List.count_cons_of_ne (Ne.symm e)] at this ⊢; exact this

/-! ### C101 -/

theorem Inv.start {c : Ring A} (h : Rep N c l) (prog : Nat → List (Access A)) : Inv N c.origin l wins prog l (c, workers wins prog) := by
  refine ⟨h, rfl, rfl, fun _ _ => rfl, fun t ht => ?_, fun t w ht => ?_, fun t w ht => ⟨[], ?_⟩, fun t w ht p hp => ?_⟩
  all_goals simp [workers, ht, alone] at *

theorem window_split {m l : List A} {a b : Nat} (h1 : a ≤ b) (hm : m.length = l.length) (h2 : b ≤ l.length)
    (ho : ∀ j, ¬(a ≤ j ∧ j < b) → m[j]? = l[j]?) : l.take a ++ (⟨a, b⟩ : Span).of m ++ l.drop b = m := by
  apply List.ext_getElem?
  intro j
  simp only [List.getElem?_append, List.length_append, List.length_take, Span.of_get, List.getElem?_take, List.getElem?_drop]
  simp only [Span.of, List.length_take, List.length_drop]
  by_cases g1 : j < a
  · rw [if_pos (by omega), if_pos (by omega), if_pos g1, ho j (by omega)]
  · by_cases g2 : j < b
    · rw [if_pos (by omega), if_neg (by omega), if_pos (by omega)]; congr 1; omega
    · rw [if_neg (by omega), show b + (j - (min a l.length + min (b - a) (m.length - a))) = j by omega, ho j (by omega)]

theorem Parts.windows_cover (parts : Parts) {s : Span} (h : s.start ≤ s.stop) (hf : parts.Fits (s.stop - s.start)) {j : Nat}
    (h1 : s.start ≤ j) (h2 : j < s.stop) : ∃ w ∈ parts.windows s, w.start ≤ j ∧ j < w.stop := by
  induction parts generalizing s with
  | whole => exact ⟨s, by simp [Parts.windows], h1, h2⟩
  | split i left right ihl ihr =>
    obtain ⟨f1, f2, f3⟩ := hf
    have e : s.stop - (s.start + i) = s.stop - s.start - i := by omega
    simp only [Parts.windows, List.mem_append]
    by_cases g : j < s.start + i
    · obtain ⟨w, hw, hj⟩ := ihl (s := ⟨s.start, s.start + i⟩) (by simp) (by simpa using f2) h1 g
      exact ⟨w, .inl hw, hj⟩
    · obtain ⟨w, hw, hj⟩ := ihr (s := ⟨s.start + i, s.stop⟩) (by simp only; omega) (by simp only; rwa [e]) (by simp only; omega) h2
      exact ⟨w, .inr hw, hj⟩

/-- The program of every thread uses `slice[i]` only with indices of its own part. -/
def InPart (pieces : List (List A)) (prog : Nat → List (Access A)) : Prop :=
  ∀ t piece, pieces[t]? = some piece → ∀ x ∈ prog t, x.checked = false → x.i < piece.length

/-- C101, the part that holds. A mutable slice of the positions `a..b` of a buffer with the items `l` is split up in any way and every part
is given to a thread; each thread makes any number of accesses, with `get_mut` or with `slice[i]` for an index of its part. Whatever the
scheduler does: nothing is undefined behaviour; no two threads are about to use the same item at the same time and the fields of the buffer
do not change (so there are no data races); every thread has read what it would read if it had a list of its own, and the buffer holds
what the threads would have left in these lists, everything else being as before; a thread that gets two turns per access is done.

The full claim has no `InPart` hypothesis: `slice[i]` outside the part should panic (and `alone` says that it finds nothing). -/
theorem C101_threads_partial (hW : 2 * N < E.W) {c : Ring A} {l : List A} (h : View E N c l) {a b : Nat} (h1 : a ≤ b) (h2 : b ≤ l.length)
    (parts : Parts) (hf : parts.Fits (b - a)) :
    ∃ slices, parts.deal E ⟨a, b⟩ c = .ok slices c ∧
      ∀ prog, InPart (parts.pieces ((l.drop a).take (b - a))) prog → ∀ sched, ∃ c' ws, ∃ pieces' : List (List A),
        schedule E N sched (c, workers slices prog) = some (c', ws) ∧
        RaceFree ws ∧ c'.origin = c.origin ∧ c'.length = c.length ∧
        View E N c' (l.take a ++ pieces'.flatten ++ l.drop b) ∧
        pieces'.length = (parts.pieces ((l.drop a).take (b - a))).length ∧
        ∀ t piece, (parts.pieces ((l.drop a).take (b - a)))[t]? = some piece →
          (∃ piece', pieces'[t]? = some piece' ∧ alone ((prog t).take (ws t).got.length) piece = ((ws t).got, piece')) ∧
          (ws t).todo = (prog t).drop (ws t).got.length ∧
          (2 * (prog t).length ≤ sched.count t → (ws t).got.length = (prog t).length) := by
  have hr := h.rep hW
  have hle := hr.le
  have hf' : parts.Fits ((⟨a, b⟩ : Span).stop - (⟨a, b⟩ : Span).start) := hf
  have hpe := parts.pieces_eq (s := ⟨a, b⟩) h1 hf' l
  have hins := parts.windows_inside (s := ⟨a, b⟩) h1 hf'
  have hap := parts.windows_apart (s := ⟨a, b⟩) h1 hf'
  refine ⟨parts.windows ⟨a, b⟩, parts.deal_eq h1 (by simp only; omega) hf' c, fun prog hp sched => ?_⟩
  have hpe' : parts.pieces ((l.drop a).take (b - a)) = (parts.windows ⟨a, b⟩).map (fun w => w.of l) := hpe
  rw [hpe'] at hp ⊢
  have hi : ∀ w ∈ parts.windows ⟨a, b⟩, w.start ≤ w.stop ∧ w.stop ≤ l.length := by
    intro w hw
    have := hins w hw
    simp only at this; omega
  have ho : OwnIndex (parts.windows ⟨a, b⟩) prog := by
    intro t w hw x hx hc
    have := hp t (w.of l) (by simp [hw]) x hx hc
    simp only [Span.of, List.length_take, List.length_drop] at this
    omega
  obtain ⟨m, ⟨c', ws⟩, e, inv, hneed⟩ := (Inv.start (wins := parts.windows ⟨a, b⟩) hr prog).schedule hW hi hap ho sched
  have hm : l.take a ++ ((parts.windows ⟨a, b⟩).map (fun w => w.of m)).flatten ++ l.drop b = m := by
    rw [← parts.pieces_eq (s := ⟨a, b⟩) h1 hf' m, parts.pieces_flatten]
    refine window_split h1 inv.len h2 fun j hj => inv.out j fun w hw hin => ?_
    have := hins w hw
    simp only at this; omega
  refine ⟨c', ws, (parts.windows ⟨a, b⟩).map (fun w => w.of m), e, inv.raceFree hi hap, inv.org, ?_, ?_, by simp, ?_⟩
  · rw [inv.rep.len, hr.len, inv.len]
  · rw [hm]; exact inv.rep.view hW
  · intro t piece ht
    rw [List.getElem?_map] at ht
    rcases hw : (parts.windows ⟨a, b⟩)[t]? with _ | w
    · simp [hw] at ht
    simp only [hw, Option.map_some, Option.some.injEq] at ht
    subst ht
    obtain ⟨xs, g1, g2⟩ := inv.past t w hw
    simp only at g1 g2
    have g3 : (ws t).got.length = xs.length := by rw [← alone_length xs (w.of l), g2]
    refine ⟨⟨w.of m, by simp [hw], by rw [g3, g1, List.take_left, g2]⟩, by rw [g3, g1, List.drop_left], fun hc => ?_⟩
    have := hneed t
    have e0 : ((workers (parts.windows ⟨a, b⟩) prog) t).need = 2 * (prog t).length := by simp [workers, hw, Worker.need]
    simp only [e0] at this
    have hz : (ws t).need = 0 := by omega
    have : (ws t).todo = [] := by
      rcases ht : (ws t).todo with _ | ⟨x, rest⟩
      · rfl
      · simp [Worker.need, ht] at hz
        split at hz <;> omega
    rw [g3, g1, this, List.append_nil]

/-- C101: a split that does not fit panics and leaves the buffer as it is. -/
theorem C101_bad_split (parts : Parts) {a b : Nat} (h1 : a ≤ b) (h2 : b < E.W) (hf : ¬parts.Fits (b - a)) (c : Ring A) :
    parts.deal E ⟨a, b⟩ c = .panic c := by
  induction parts generalizing a b with
  | whole => exact absurd trivial hf
  | split i left right ihl ihr =>
    by_cases f1 : i ≤ b - a
    · have e : splitAt E ⟨a, b⟩ i c = .ok (⟨a, a + i⟩, ⟨a + i, b⟩) c := by
        simp [splitAt, sliceLen, usub, uadd, h1, M.panicIf, show ¬ b - a < i by omega, show a + i < E.W by omega]
      have q : b - (a + i) = b - a - i := by omega
      simp only [Parts.deal, M.bind_run, e, Out.andThen_ok]
      by_cases f2 : left.Fits i
      · rw [left.deal_eq (s := ⟨a, a + i⟩) (by simp) (by simp only; omega) (by simpa using f2)]
        simp only [Out.andThen_ok]
        rw [ihr (a := a + i) (b := b) (by omega) h2 (by rw [q]; exact fun f3 => hf ⟨f1, f2, f3⟩)]
        rfl
      · rw [ihl (a := a) (b := a + i) (by omega) (by omega) (by simpa using f2)]
        rfl
    · simp [Parts.deal, splitAt, sliceLen, usub, h1, M.panicIf, M.bind_run, show b - a < i by omega, M.panic]

/-- C101: so the schedule does not matter. Two schedules under which all threads finish lead to the same contents, and every thread
reads the same. -/
theorem C101_schedule_irrelevant_partial (hW : 2 * N < E.W) {c : Ring A} {l : List A} (h : View E N c l) {a b : Nat} (h1 : a ≤ b) (h2 : b ≤ l.length)
    (parts : Parts) (hf : parts.Fits (b - a)) {slices : List Span} (hd : parts.deal E ⟨a, b⟩ c = .ok slices c)
    {prog : Nat → List (Access A)} (hp : InPart (parts.pieces ((l.drop a).take (b - a))) prog) {sched sched' : List Nat}
    (hs : ∀ t, t < slices.length → 2 * (prog t).length ≤ sched.count t) (hs' : ∀ t, t < slices.length → 2 * (prog t).length ≤ sched'.count t) :
    ∃ c1 ws1 c2 ws2 k, schedule E N sched (c, workers slices prog) = some (c1, ws1) ∧ schedule E N sched' (c, workers slices prog) = some (c2, ws2) ∧
      View E N c1 k ∧ View E N c2 k ∧ ∀ t, t < slices.length → (ws1 t).got = (ws2 t).got ∧ (ws1 t).got.length = (prog t).length := by
  have hle := (h.rep hW).le
  obtain ⟨sl, hd', H⟩ := C101_threads_partial hW h h1 h2 parts hf
  rw [hd] at hd'
  simp only [Out.ok.injEq, and_true] at hd'
  subst hd'
  have hl : slices.length = (parts.pieces ((l.drop a).take (b - a))).length := by
    have : slices = parts.windows ⟨a, b⟩ := by
      have := parts.deal_eq (E := E) (s := ⟨a, b⟩) h1 (by simp only; omega) hf c
      rw [hd] at this; simpa using this
    have hpe : parts.pieces ((l.drop a).take (b - a)) = _ := parts.pieces_eq (s := ⟨a, b⟩) h1 hf l
    rw [hpe, this, List.length_map]
  obtain ⟨c1, ws1, p1, e1, -, -, -, v1, n1, k1⟩ := H prog hp sched
  obtain ⟨c2, ws2, p2, e2, -, -, -, v2, n2, k2⟩ := H prog hp sched'
  have key : ∀ t (ht : t < slices.length), p1[t]? = p2[t]? ∧ (ws1 t).got = (ws2 t).got ∧ (ws1 t).got.length = (prog t).length := by
    intro t ht
    have hpt := List.getElem?_eq_getElem (l := parts.pieces ((l.drop a).take (b - a))) (i := t) (by omega)
    obtain ⟨⟨q1, f1, g1⟩, -, d1⟩ := k1 t _ hpt
    obtain ⟨⟨q2, f2, g2⟩, -, d2⟩ := k2 t _ hpt
    rw [d1 (hs t ht)] at g1
    rw [d2 (hs' t ht), g1] at g2
    simp only [Prod.mk.injEq] at g2
    exact ⟨by rw [f1, f2, g2.2], g2.1, d1 (hs t ht)⟩
  have : p1 = p2 := by
    apply List.ext_getElem?
    intro t
    by_cases ht : t < slices.length
    · exact (key t ht).1
    · rw [List.getElem?_eq_none (by omega), List.getElem?_eq_none (by omega)]
  subst this
  exact ⟨c1, ws1, c2, ws2, _, e1, e2, v1, v2, fun t ht => (key t ht).2⟩

/-- Two threads for the counterexample and the example: the first replaces item 1 of its part, with `get_mut` (`checked`) or `slice[1]`, the
other one reads item 0 of its own. -/
def duel (checked : Bool) : Nat → List (Access Nat)
  | 0 => [⟨checked, 1, some 7⟩]
  | _ => [⟨checked, 0, none⟩]

/-- C101 is false of the code: `IndexMut` of a part accepts indices beyond the part. Of a buffer with the items 10, 20, 30 split at 1, the thread
with the left part writes `left[1]` while the one with the right part reads `right[0]`. What it reads depends on the schedule, and both
may be about to use the same slot at the same time: a data race in safe code. -/
theorem C101_data_race_counterexample :
    View dbg64 3 full [10, 20, 30] ∧
    (Parts.split 1 .whole .whole).deal dbg64 ⟨0, 3⟩ full = .ok [⟨0, 1⟩, ⟨1, 3⟩] full ∧
    (schedule dbg64 3 [0, 0, 1, 1] (full, workers [⟨0, 1⟩, ⟨1, 3⟩] (duel false))).map (fun s => (s.2 1).got) = some [some 7] ∧
    (schedule dbg64 3 [1, 1, 0, 0] (full, workers [⟨0, 1⟩, ⟨1, 3⟩] (duel false))).map (fun s => (s.2 1).got) = some [some 20] ∧
    ∃ s, schedule dbg64 3 [0, 1] (full, workers [⟨0, 1⟩, ⟨1, 3⟩] (duel false)) = some s ∧ ¬RaceFree s.2 := by
  refine ⟨⟨rfl, by decide, by decide⟩, rfl, by decide +kernel, by decide +kernel, _, rfl, fun h => ?_⟩
  exact h 0 1 0 (by decide) (by decide +kernel) (by decide +kernel)

/-- The hypotheses can be met: the same two threads, with `get_mut`, on a part of a buffer whose items wrap around the end of the storage. -/
example : ∃ c' ws, schedule dbg64 3 [0, 1, 1, 0] (full, workers [⟨0, 1⟩, ⟨1, 3⟩] (duel true)) = some (c', ws) ∧
    (ws 0).got = [none] ∧ (ws 1).got = [some 20] ∧ View dbg64 3 c' [10, 20, 30] := ⟨_, _, rfl, rfl, rfl, rfl, by decide, by decide⟩
example : (Parts.split 1 .whole (.split 1 .whole .whole)).Fits 3 ∧ InPart [[10], [20, 30]] (duel true) :=
  ⟨⟨by decide, trivial, by decide, trivial, trivial⟩, fun t p _ x hx hc => by
    unfold duel at hx
    split at hx <;> · simp at hx; subst hx; simp at hc⟩

end Verif.Ring
