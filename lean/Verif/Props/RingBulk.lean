import Verif.Props.RingOps
import Verif.Props.ChunkBulk
/-
Bulk insertion, ordered insertion, cloning and collecting of ring buffers: C31 - C33, C35, C36.
-/
namespace Verif.Ring
open Verif.Chunk (dbg64 rel64 specInsertFrom_ok specInsertFrom_short specInsertFrom_refuse specExtend_ok specExtend_prefix
  SearchContract linearSearch linearSearch_contract bornOf_all)
variable {A : Type} {E : Env} {N : Nat} {dp : A → Bool} {cl : A → Option A} {c d : Ring A} {l k : List A}

/-! ### C31: false of the code in release builds -/

/-- C31. `insert_from(i, xs)` with an honest iterator over `xs` that fits puts `xs`, in order, at position `i`. -/
theorem C31_insert_from (hW : 2 * N < E.W) (h : View E N c l) (i : Nat) (xs log : List A)
    (hl : l.length + xs.length ≤ N) (hi : i ≤ l.length) :
    Returns (RelLog (View E N)) (insertFrom E N dp i xs.length (It.ofList xs) (c, log)) () (l.take i ++ xs ++ l.drop i, log) := by
  refine (Ref.viewLog hW (insertFrom_ref hW dp i xs.length (It.ofList xs) (h.rep hW) log (.inr (by omega)))).of_ok ?_
  unfold Spec.insertFromOrExtend
  by_cases hx : i = l.length
  · rw [if_pos ⟨hl, hx⟩, specExtend_ok xs hl]; subst hx; simp
  · rw [if_neg (by simp [hx]), specInsertFrom_ok ⟨hl, hi⟩ (by rw [It.items_ofList]; exact Nat.le_refl _)]
    · simp [It.items_ofList, It.drop_ofList, It.owned_ofList]
    · simp [It.drop_ofList, It.owned_ofList]

/-- C31, the part of the refusal that holds: items that do not fit (in debug builds always, and in release builds as long as the sum
of the lengths, wrapped to `usize`, still exceeds the capacity: in particular when it does not wrap), or an index past the end, make
the call panic with the contents unchanged; the iterator's items are dropped once. -/
theorem C31_refuses_partial (hW : 2 * N < E.W) (h : View E N c l) (i n : Nat) (it : It A) (log : List A)
    (hb : (N < l.length + n ∧ (E.debug = true ∨ N < (l.length + n) % E.W)) ∨ l.length < i) (hd : it.owned.any dp = false) :
    insertFrom E N dp i (some n) it (c, log) = .panic (c, log ++ it.owned) := by
  have hr := h.rep hW
  have e : insertFromChecks E N i n c = .panic c := by
    have hl : getLen c = .ok l.length c := by rw [← hr.len]; rfl
    rcases hb with ⟨hb, hn⟩ | hi
    · rcases uadd_over (s := c) hn hb with e | ⟨r, hr, e⟩
      · simp [insertFromChecks, hl, e]
      · simp [insertFromChecks, hl, e, hr]
    · simp only [insertFromChecks, uadd, M.bind_run, hl, Out.andThen]
      by_cases h1 : l.length + n < E.W
      · by_cases h2 : N < l.length + n <;> simp [h1, h2, hl, hi]
      · by_cases h2 : E.debug = true
        · simp [h1, h2]
        · by_cases h3 : N < (l.length + n) % E.W <;> simp [h1, h2, h3, hl, hi]
  have key : Sat (insertFrom E N dp i (some n) it (c, log)) (fun _ _ => False) (fun s => s = (c, log ++ it.owned)) False := by
    unfold insertFrom
    simp only [M.lenCall_some]
    apply Sat.bind
    apply Sat.onUnwind
    apply Sat.onFst
    rw [e]
    refine Sat.unwindDrop (fun _ => rfl) (fun h => ?_)
    rw [hd] at h; exact Bool.noConfusion h
  cases hx : insertFrom E N dp i (some n) it (c, log) <;> rw [hx] at key <;> simp only [Sat] at key
  rw [key]

/-- C31 fails in release builds: the sum of the lengths wraps around, so an honest iterator with far too many items is not
refused; inserted at the end of a non-empty buffer it fills the buffer before the call panics. -/
theorem C31_overflow_counterexample (hW : 2 * N < E.W) (he : E.debug = false) (h : View E N c l) (_hl : 0 < l.length)
    (hf : l.length < N) (xs log : List A) (hx : l.length + xs.length = E.W) (hd : xs.any dp = false) :
    ∃ s, insertFrom E N dp l.length xs.length (It.ofList xs) (c, log) = .panic s ∧ View E N s.1 (l ++ xs.take (N - l.length)) ∧
      l ++ xs.take (N - l.length) ≠ l := by
  have hr := h.rep hW
  have e : insertFrom E N dp l.length xs.length (It.ofList xs) (c, log) = extend E N dp (It.ofList xs) (c, log) := by
    simp [insertFrom, M.lenCall, insertFromChecks, M.onUnwind, getLen, hr.len, uadd, he, hx, M.panicIf]
  rw [e]
  obtain ⟨a, r, hz⟩ : ∃ a r, xs.drop (N - l.length) = a :: r := by
    cases hq : xs.drop (N - l.length) with
    | nil => have := congrArg List.length hq; simp at this; omega
    | cons a r => exact ⟨a, r, rfl⟩
  have hsp : It.ofList xs = It.ofList (xs.take (N - l.length)) ++ .item a :: It.ofList r := by
    conv => lhs; rw [← List.take_append_drop (N - l.length) xs, hz]
    simp [It.ofList]
  have hsub : (a :: r).any dp = false := by
    rw [List.any_eq_false] at hd ⊢
    intro y hy; rw [← hz] at hy; exact hd y (List.mem_of_mem_drop hy)
  have hlt : (xs.take (N - l.length)).length = N - l.length := by simp; omega
  obtain ⟨s, e2, h1, h2⟩ := (Ref.viewLog hW (extend_ref hW dp (It.ofList xs) hr log)).of_panic
    (t := (l ++ xs.take (N - l.length), log ++ (a :: r))) (by
      rw [hsp, specExtend_prefix _ _ (by omega)]
      simp only [Spec.extend, List.length_append]
      rw [if_neg (by omega), It.owned_ofList, Spec.panicDropping, hsub]; rfl)
  refine ⟨s, e2, h1, ?_⟩
  intro e3
  have := congrArg List.length e3
  simp only [List.length_append, hlt] at this
  omega

theorem subLoop_diverges {σ : Type} (he : E.debug = false) {k : Nat} (hdiv : N ∣ E.W) (hk : ∀ s, s < E.W → s % N = 0 → s < k)
    (f s : Nat) (hs : s < E.W) (h0 : s % N = 0) (t : σ) : subLoop E N k f s t = .diverge := by
  induction f generalizing s with
  | zero => rfl
  | succ f ih =>
    have hw : 0 < E.W := by omega
    have e : uadd E s N t = .ok ((s + N) % E.W) t := by
      unfold uadd
      split
      · rw [Nat.mod_eq_of_lt (by assumption)]; rfl
      · simp [he, M.pure_run]
    simp only [subLoop, hk s hs h0, if_true, M.bind_run, e, Out.andThen_ok]
    refine ih _ (Nat.mod_lt _ hw) ?_
    rw [Nat.mod_mod_of_dvd _ hdiv, Nat.add_mod_right, h0]

/-- C31 (and C26 without its side condition) fail in release builds in another way too: when the capacity is a power of two,
a non-empty buffer whose first item is in slot 0, asked to insert at the front an iterator announcing `usize::MAX` items, does
not panic but loops forever. -/
theorem C31_endless_loop_counterexample (hW : 2 * N < E.W) (he : E.debug = false) (hdiv : N ∣ E.W) (h : View E N c l)
    (h0 : c.origin = 0) (hl : 0 < l.length) (h2 : 2 ≤ N) (it : It A) (log : List A) :
    insertFrom E N dp 0 (some (E.W - 1)) it (c, log) = .diverge := by
  have hr := h.rep hW
  have hlen := hr.len
  have hle := hr.le
  have e : rawSubAssign E N 0 (E.W - 1) c = .diverge := by
    simp only [rawSubAssign, M.bind_run]
    rw [subLoop_diverges he hdiv ?_ _ _ (by omega) (by simp)]
    · rfl
    · intro s hs h0
      obtain ⟨q, hq⟩ := hdiv
      have : s ≠ E.W - 1 := by
        intro e
        have h1 : (s + 1) % N = 0 := by rw [show s + 1 = N * q by omega]; simp
        rw [Nat.add_mod, h0] at h1
        rw [Nat.mod_eq_of_lt (a := 0 + 1 % N) (by have := Nat.mod_lt 1 (show 0 < N by omega); omega), Nat.mod_eq_of_lt (by omega)] at h1
        omega
      omega
  have e1 : shiftLeft E N 0 (E.W - 1) c = .diverge := by
    simp only [shiftLeft, M.bind_run, getOrigin, Out.andThen_ok, h0, e]
    rfl
  have hu : (l.length + (E.W - 1)) % E.W = l.length - 1 := by
    rw [show l.length + (E.W - 1) = (l.length - 1) + E.W by omega, Nat.add_mod_right, Nat.mod_eq_of_lt (by omega)]
  have e2 : insertFromChecks E N 0 (E.W - 1) c = .ok () c := by
    have h1 : ¬ l.length + (E.W - 1) < E.W := by omega
    have h2 : ¬ N < l.length - 1 := by omega
    simp [insertFromChecks, getLen, hlen, uadd, h1, he, hu, M.panicIf, h2]
  have h3 : l.length ≠ 0 := by omega
  simp [insertFrom, M.lenCall, M.onUnwind, e2, getLen, hlen, usub, e1, h3.symm]

/-- The hypotheses of `C31_endless_loop_counterexample` can be met: 64 bits, capacity 4, contents `[1, 2]` from slot 0. -/
example : View rel64 4 (⟨0, 2, (Mem.uninit.put 0 1).put 1 2⟩ : Ring Nat) [1, 2] ∧ 4 ∣ rel64.W ∧ rel64.debug = false ∧ 2 * 4 < rel64.W :=
  ⟨⟨rfl, by decide, by decide⟩, ⟨2 ^ 62, by decide⟩, rfl, by decide⟩

/-- C31 is not vacuous: into `seam`, whose items wrap, at index 1. -/
example : ∃ s, insertFrom dbg64 3 (fun _ => false) 1 (some 1) (It.ofList [15]) (seam, []) = .ok () s ∧
    items dbg64 3 s.1 = .ok [10, 15, 20] s.1 := ⟨_, rfl, rfl⟩
/-- The side condition of `C31_overflow_counterexample` can be met, in a 2-byte `usize` with 65534 items. -/
example : (List.replicate 65534 (7 : Nat)).length + [10, 20].length = 2 ^ 16 := by rw [List.length_replicate]; rfl

/-! ### C32: iterators that lie about their length -/

/-- C32, the part that holds: whatever an iterator yields (too little, too much, a panic), `insert_from` has no undefined
behaviour and terminates.  (That nothing is dropped twice is `C34_never_twice`, over whole histories.) -/
theorem C32_no_undefined_behaviour_partial (hW : 2 * N < E.W) (h : View E N c l) (i n : Nat) (it : It A) (log : List A)
    (hn : E.debug = true ∨ N + n < E.W) :
    insertFrom E N dp i n it (c, log) ≠ .ub ∧ insertFrom E N dp i n it (c, log) ≠ .diverge := by
  have hr := insertFrom_ref hW dp i n it (h.rep hW) log hn
  constructor <;> intro e <;> rw [e] at hr <;> exact hr

/-- C32, the part that holds, before the end: an iterator that yields more than announced; exactly the announced number is
inserted, the rest is dropped with the iterator. -/
theorem C32_long_partial (hW : 2 * N < E.W) (h : View E N c l) (i n : Nat) (it : It A) (log : List A)
    (hl : l.length + n ≤ N) (hi : i < l.length) (hs : n ≤ it.items.length) (hd : (It.owned (it.drop n)).countP dp = 0) :
    Returns (RelLog (View E N)) (insertFrom E N dp i n it (c, log)) ()
      (l.take i ++ it.items.take n ++ l.drop i, log ++ It.owned (it.drop n)) := by
  refine (Ref.viewLog hW (insertFrom_ref hW dp i n it (h.rep hW) log (.inr (by omega)))).of_ok ?_
  unfold Spec.insertFromOrExtend
  rw [if_neg (by simp only; omega)]
  exact specInsertFrom_ok ⟨hl, by omega⟩ hs hd

/-- C32. An iterator whose `len()` panics: the call panics, nothing changes, and the iterator's items are dropped. -/
theorem C32_panicking_len (i : Nat) (it : It A) (log : List A) (hd : it.owned.any dp = false) :
    insertFrom E N dp i none it (c, log) = .panic (c, log ++ it.owned) := by
  have key : Sat (insertFrom E N dp i none it (c, log)) (fun _ _ => False) (fun s => s = (c, log ++ it.owned)) False := by
    unfold insertFrom
    apply Sat.bind
    apply Sat.onUnwind
    apply Sat.panic
    refine Sat.unwindDrop (fun _ => rfl) (fun h => ?_)
    rw [hd] at h; exact Bool.noConfusion h
  cases hx : insertFrom E N dp i none it (c, log) <;> rw [hx] at key <;> simp only [Sat] at key
  rw [key]

/-- C32 (panicking `len()`) is not vacuous. -/
example : insertFrom rel64 3 (fun a => a == 5) 1 none (It.ofList [7, 8]) (seam, []) = .panic (seam, [7, 8]) :=
  C32_panicking_len 1 _ [] rfl

/-- C32, before the end: an iterator that yields fewer items than announced, or panics: the call panics and leaves an empty
buffer, dropping only what was still inside the iterator. -/
theorem C32_short_or_panicking (hW : 2 * N < E.W) (h : View E N c l) (i n : Nat) (it : It A) (log : List A)
    (hl : l.length + n ≤ N) (hi : i < l.length) (hs : it.items.length < n)
    (hd : (It.owned (it.drop (it.items.length + 1))).any dp = false) :
    ∃ s, insertFrom E N dp i n it (c, log) = .panic s ∧ View E N s.1 [] ∧ s.2 = log ++ It.owned (it.drop (it.items.length + 1)) := by
  refine (Ref.viewLog hW (insertFrom_ref hW dp i n it (h.rep hW) log (.inr (by omega)))).of_panic
    (t := ([], log ++ It.owned (it.drop (it.items.length + 1)))) ?_
  unfold Spec.insertFromOrExtend
  rw [if_neg (by simp only; omega), specInsertFrom_short ⟨hl, by omega⟩ hs, Spec.panicDropping, if_neg (by rw [hd]; simp)]

/-- C32 fails at the end of the buffer: there `insert_from` is `extend`, which takes everything the iterator yields, whatever
it announced. -/
theorem C32_takes_more_counterexample :
    View rel64 3 seam [10, 20] ∧
    ∃ s, insertFrom rel64 3 (fun _ => false) 2 (some 0) (It.ofList [7]) (seam, []) = .ok () s ∧ View rel64 3 s.1 [10, 20, 7] :=
  ⟨⟨rfl, by decide, by decide⟩, _, rfl, rfl, by decide, by decide⟩

/-- C32 is not vacuous. -/
example : ∃ s, insertFrom rel64 3 (fun _ => false) 1 (some 1) [.panic, .item 9] (seam, []) = .panic s ∧
    s.2 = [9] ∧ items rel64 3 s.1 = .ok [] s.1 ∧ ∃ s', pushBack rel64 3 5 s.1 = .ok () s' ∧ items rel64 3 s' = .ok [5] s' :=
  ⟨_, rfl, rfl, rfl, _, rfl, rfl⟩

/-! ### C33 -/

/-- C33. On a sorted, non-full buffer `insert_ordered(v)` leaves the buffer sorted, with exactly one more `v`. -/
theorem C33_insert_ordered_sorted (hW : 2 * N < E.W) (h : View E N c l) (hl : l.length < N) (le : A → A → Prop)
    (htr : ∀ x y z, le x y → le y z → le x z) (search : List A → A → Option (Except Nat Nat)) (hc : SearchContract le search)
    (hs : l.Pairwise le) (v : A) :
    ∃ l', Returns (View E N) (insertOrdered E N search v c) () l' ∧ l'.Pairwise le ∧ l'.Perm (v :: l) := by
  obtain ⟨i, hsr, hi, h1, h2⟩ := search_split htr hc l v hs
  refine ⟨l.take i ++ [v] ++ l.drop i, ?_, pairwise_insert hs h1 h2, ?_⟩
  · refine (Ref.view hW (insertOrdered_ref hW (h.rep hW) search v)).of_ok ?_
    simp only [Spec.insertOrdered, if_pos hl]
    rcases hsr with e | e <;> rw [e] <;> simp [Spec.insert, if_pos (And.intro hl hi)]
  · have := List.perm_middle (a := v) (l₁ := l.take i) (l₂ := l.drop i)
    simpa using this

/-- C33. On any buffer, if the search proposes a position within bounds then `v` is inserted exactly once there; on a full
buffer the call panics and changes nothing. -/
theorem C33_insert_ordered_unsorted (hW : 2 * N < E.W) (h : View E N c l) (search : List A → A → Option (Except Nat Nat)) (v : A)
    (i : Nat) (hs : search l v = some (.ok i) ∨ search l v = some (.error i)) (hi : i ≤ l.length) :
    (l.length < N → Returns (View E N) (insertOrdered E N search v c) () (l.take i ++ [v] ++ l.drop i)) ∧
    (l.length = N → ∃ s, insertOrdered E N search v c = .panic s ∧ View E N s l) := by
  constructor
  · intro hl
    refine (Ref.view hW (insertOrdered_ref hW (h.rep hW) search v)).of_ok ?_
    simp only [Spec.insertOrdered, if_pos hl]
    rcases hs with e | e <;> rw [e] <;> simp [Spec.insert, if_pos (And.intro hl hi)]
  · intro hl
    refine (Ref.view hW (insertOrdered_ref hW (h.rep hW) search v)).of_panic ?_
    simp only [Spec.insertOrdered]; rw [if_neg (by omega)]

/-- C33. If a comparison panics during the search, the call panics and the buffer holds what it held: nothing was inserted. -/
theorem C33_panicking_comparison (hW : 2 * N < E.W) (h : View E N c l) (search : List A → A → Option (Except Nat Nat)) (v : A)
    (hs : search l v = none) : ∃ s, insertOrdered E N search v c = .panic s ∧ View E N s l := by
  refine (Ref.view hW (insertOrdered_ref hW (h.rep hW) search v)).of_panic ?_
  simp only [Spec.insertOrdered, hs, ite_self]

/-- The hypotheses of `C33_panicking_comparison` are met: comparing with 13 panics. -/
example : ∃ s, insertOrdered dbg64 3 (fun l v => if v = 13 then none else some (.error l.length)) 13 seam = .panic s ∧
    items dbg64 3 s = .ok [10, 20] s := ⟨_, rfl, rfl⟩

/-- C33 is not vacuous: the contract is satisfiable (`linearSearch_contract`) and the sorted, wrapped `seam` receives 15. -/
example : SearchContract (· ≤ ·) linearSearch ∧ ∃ s, insertOrdered dbg64 3 linearSearch 15 seam = .ok () s ∧
    items dbg64 3 s = .ok [10, 15, 20] s := ⟨linearSearch_contract, _, rfl, rfl⟩

/-! ### C35: false of the code -/

/-- C35 fails: if a destructor panics inside `clear`, `drop_left` or `drop_right`, the buffer still claims the items that were
just destroyed, and destroys them a second time when it is dropped (and the one that panicked panics again). -/
theorem C35_double_drop_counterexample :
    let run := fun k => ((machine rel64 2 (fun a => a == 2) (fun a => some a)).run
      [.ctor (.pair 1 2), .un 0 k, .drop 0] World.empty).final.map (·.log)
    run .clear = some [1, 2, 1, 2] ∧ run (.dropLeft 2) = some [1, 2, 1, 2] ∧ run (.dropRight 0) = some [1, 2, 1, 2] := by
  decide +kernel

/-- What the part of C35 that holds asks of an action and its result: a `clear`, `drop_left` or `drop_right` did not panic,
and nothing was written through `&mut` except single assignments. -/
def NoPanicInClear : Op (Ctor A) (Un A) Fork Bin → Obs A → Prop
  | .un _ (.dropLeft _), o => o ≠ .panicked
  | .un _ (.dropRight _), o => o ≠ .panicked
  | .un _ .clear, o => o ≠ .panicked
  | .un _ (.mutate _), _ => False
  | .un _ (.slice _ _ _ (.mutate _)), _ => False
  | _, _ => True

/-- C35, the part that holds: with destructors that may panic anywhere, as long as no `clear`, `drop_left` or `drop_right`
call panicked, no element is destroyed, returned or stored more than once in total. -/
theorem C35_no_double_drop_partial [DecidableEq A] (hN : 0 < N) (hW : 2 * N < E.W) (ops : List (Op (Ctor A) (Un A) Fork Bin))
    {os : List (Obs A)} {w : World A (Ring A)} (hr : (machine E N dp cl).run ops World.empty = .ok os w)
    (hg : AllSteps NoPanicInClear ops os) (hd : (inputs.ofRun ops os ++ w.made).Nodup) :
    (outsOf os ++ w.log ++ w.live (peek E N)).Nodup := by
  refine C34_never_twice hN hW ops hr (AllSteps.imp ?_ hg) hd
  intro op o ho
  cases op with
  | un h k =>
    have hp : o ≠ .panicked → o.panic = false := by cases o <;> simp [Obs.panic]
    cases k with
    | slice lo hi cuts q => cases q <;> first | trivial | exact ho.elim
    | _ => first | trivial | exact .inl (hp ho) | exact ho.elim
  | _ => trivial

/-- C35 (partial) is not vacuous: a history with a successful `drop_left` and a panicking destructor in the final drop. -/
example : ((machine rel64 2 (fun a => a == 1) (fun a => some a)).run
    [.ctor (.pair 2 1), .un 0 (.dropLeft 1), .drop 0] World.empty).seen = some [.handle 0, .res .unit, .panicked] := by
  decide +kernel
example : AllSteps (A := Nat) NoPanicInClear [.ctor (.pair 2 1), .un 0 (.dropLeft 1), .drop 0]
    [.handle 0, .res .unit, .panicked] := by simp [AllSteps, NoPanicInClear]

/-! ### C36 -/

/-- C36. If every item clones (to `cs`, in order), `clone` returns a buffer showing `cs` (with the same origin), and the
original is untouched. -/
theorem C36_clone (hN : 0 < N) (hW : 2 * N < E.W) (h : View E N c l) (log cs : List A) (hc : l.map cl = cs.map some) :
    ∃ d, clone E N dp cl (c, log) = .ok d (c, log) ∧ View E N d cs ∧ d.origin = c.origin := by
  have hb := bornOf_all hc
  have hlen : cs.length = l.length := by have := congrArg List.length hc; simpa using this.symm
  obtain ⟨d, s, e, ⟨h1, h2⟩, h3, h4, h5⟩ := (clone_ref hN hW dp cl (h.rep hW) log).of_ok
    (b := cs) (t := (l, log)) (by simp only [Spec.clone, hb]; rw [if_pos hlen])
  refine ⟨d, ?_, h1.view hW, h2⟩
  rw [e]; obtain ⟨s1, s2⟩ := s; simp only at h3 h5; subst h3; subst h5; rfl
/-- C36. If cloning an item panics, `clone` panics, the original is untouched, and exactly the clones made before are
destroyed, once each, in order. -/
theorem C36_clone_panics (hN : 0 < N) (hW : 2 * N < E.W) (l₁ l₂ : List A) (x : A) (h : View E N c (l₁ ++ x :: l₂)) (log cs : List A)
    (hc : l₁.map cl = cs.map some) (hx : cl x = none) (hd : cs.any dp = false) :
    clone E N dp cl (c, log) = .panic (c, log ++ cs) := by
  have hb := Verif.Chunk.bornOf_stop (l₂ := l₂) hc hx
  have hlen : cs.length = l₁.length := by have := congrArg List.length hc; simpa using this.symm
  obtain ⟨s, e, h3, h4, h5⟩ := (clone_ref hN hW dp cl (h.rep hW) log).of_panic
    (t := (l₁ ++ x :: l₂, log ++ cs)) (by
      simp only [Spec.clone, hb]; rw [if_neg (by simp; omega)]; simp [Spec.panicDropping, hd])
  rw [e]; obtain ⟨s1, s2⟩ := s; simp only at h3 h5; subst h3; subst h5; rfl

/-- C36 is not vacuous: `seam` clones, and a clone that panics at the second item destroys the first clone. -/
example : (∃ d, clone dbg64 3 (fun _ => false) (fun a => some (a + 1)) (seam, []) = .ok d (seam, []) ∧ items dbg64 3 d = .ok [11, 21] d) ∧
    (clone dbg64 3 (fun _ => false) (fun a => if a = 20 then none else some (a + 1)) (seam, [])).final.map (·.2) = some [11] :=
  ⟨⟨_, rfl, rfl⟩, rfl⟩

/-! ### C67: collecting -/

/-- C67. `extend` with items that fit appends them in order. -/
theorem C67_extend (hW : 2 * N < E.W) (h : View E N c l) (xs log : List A) (hl : l.length + xs.length ≤ N) :
    Returns (RelLog (View E N)) (extend E N dp (It.ofList xs) (c, log)) () (l ++ xs, log) :=
  (Ref.viewLog hW (extend_ref hW dp _ (h.rep hW) log)).of_ok (specExtend_ok xs hl)
/-- C67. `extend` past the capacity panics: the items that fitted stay, the one that did not and everything still in the
iterator are dropped once. -/
theorem C67_extend_overflow (hW : 2 * N < E.W) (h : View E N c l) (xs : List A) (a : A) (rest : It A) (log : List A)
    (hl : l.length + xs.length = N) (hd : (a :: rest.owned).any dp = false) :
    ∃ s, extend E N dp (It.ofList xs ++ .item a :: rest) (c, log) = .panic s ∧ View E N s.1 (l ++ xs) ∧
      s.2 = log ++ a :: rest.owned := by
  refine (Ref.viewLog hW (extend_ref hW dp _ (h.rep hW) log)).of_panic (t := (l ++ xs, log ++ a :: rest.owned)) ?_
  rw [specExtend_prefix xs _ (by omega)]
  simp only [Spec.extend, List.length_append]
  rw [if_neg (by omega)]; simp only [Spec.panicDropping, hd]; rfl
/-- C67. If the iterator itself panics, the items pushed before stay. -/
theorem C67_extend_iterator_panics (hW : 2 * N < E.W) (h : View E N c l) (xs : List A) (rest : It A) (log : List A)
    (hl : l.length + xs.length ≤ N) (hd : rest.owned.any dp = false) :
    ∃ s, extend E N dp (It.ofList xs ++ .panic :: rest) (c, log) = .panic s ∧ View E N s.1 (l ++ xs) ∧
      s.2 = log ++ rest.owned := by
  refine (Ref.viewLog hW (extend_ref hW dp _ (h.rep hW) log)).of_panic (t := (l ++ xs, log ++ rest.owned)) ?_
  rw [specExtend_prefix xs _ (by omega)]
  simp only [Spec.extend, Spec.panicDropping, hd]; rfl
/-- C67. `from_iter` (`collect`) with items that fit yields exactly them, in order. -/
theorem C67_from_iter (hN : 0 < N) (hW : 2 * N < E.W) (xs log : List A) (hl : xs.length ≤ N) :
    ∃ c, fromIter E N dp (It.ofList xs) log = .ok c log ∧ View E N c xs := by
  obtain ⟨c, s, e, h1, h2⟩ := (fromIter_ref hN hW dp (It.ofList xs) log).of_ok (b := xs) (t := log)
    (by simp only [Spec.fromIter]; rw [specExtend_ok xs (by simpa using hl)]; simp)
  subst h2
  exact ⟨c, e, h1.view hW⟩
/-- C67. `from_iter` with too many items panics and destroys every item exactly once. -/
theorem C67_from_iter_overflow (hN : 0 < N) (hW : 2 * N < E.W) (xs log : List A) (hl : N < xs.length) (hd : xs.any dp = false) :
    ∃ log', fromIter E N dp (It.ofList xs) log = .panic (log ++ log') ∧ log'.Perm xs := by
  have hx : xs = xs.take N ++ xs.drop N := (List.take_append_drop N xs).symm
  have hz : ∃ a r, xs.drop N = a :: r := by
    cases hq : xs.drop N with
    | nil => have := congrArg List.length hq; simp at this; omega
    | cons a r => exact ⟨a, r, rfl⟩
  obtain ⟨a, r, hz⟩ := hz
  have hsub : ∀ ys : List A, (∀ y ∈ ys, y ∈ xs) → ys.any dp = false := by
    intro ys hy
    rw [List.any_eq_false] at hd ⊢
    exact fun y h => hd y (hy y h)
  have e : Spec.fromIter N dp (It.ofList xs) log = .panic (log ++ (a :: r ++ xs.take N)) := by
    have h1 : It.ofList xs = It.ofList (xs.take N) ++ .item a :: It.ofList r := by
      conv => lhs; rw [hx, hz]
      simp [It.ofList]
    simp only [Spec.fromIter]
    rw [h1, specExtend_prefix _ _ (by simp; omega)]
    simp only [Spec.extend, List.nil_append]
    rw [if_neg (by simp; omega), It.owned_ofList]
    have h2 : (a :: r).any dp = false := hsub _ (fun y hy => by rw [← hz] at hy; exact List.mem_of_mem_drop hy)
    have h3 : (xs.take N).any dp = false := hsub _ (fun y hy => List.mem_of_mem_take hy)
    simp only [Spec.panicDropping, h2]
    simp [h3]
  obtain ⟨s, e', h2⟩ := (fromIter_ref hN hW dp (It.ofList xs) log).of_panic e
  refine ⟨_, by rw [e', h2], ?_⟩
  rw [← hz]
  exact List.perm_append_comm.trans (by rw [List.take_append_drop])
/-- C67. `collect_from(iter, n)` takes exactly `n` items and leaves the rest in the caller's iterator. -/
theorem C67_collect_from (hN : 0 < N) (hW : 2 * N < E.W) (n : Nat) (it : It A) (log : List A) (hn : n ≤ it.items.length) (hc : n ≤ N) :
    ∃ c, collectFrom E N dp n (it, log) = .ok c (it.drop n, log) ∧ View E N c (it.items.take n) := by
  obtain ⟨c, s, e, h1, h2⟩ := (collectFrom_ref hN hW dp n it log).of_ok (b := it.items.take n) (t := (it.drop n, log))
    (by simp only [Spec.collectFrom]; rw [if_pos hn, if_pos hc])
  subst h2
  exact ⟨c, e, h1.view hW⟩
/-- C67. `collect_from` with too few items (or an iterator that panics) panics and destroys what it had collected. -/
theorem C67_collect_from_short (hN : 0 < N) (hW : 2 * N < E.W) (n : Nat) (it : It A) (log : List A) (hn : it.items.length < n)
    (hc : it.items.length ≤ N) (hd : it.items.any dp = false) :
    collectFrom E N dp n (it, log) = .panic (it.drop (it.items.length + 1), log ++ it.items) := by
  obtain ⟨s, e, h2⟩ := (collectFrom_ref hN hW dp n it log).of_panic
    (t := (it.drop (it.items.length + 1), log ++ it.items))
    (by simp only [Spec.collectFrom]; rw [if_neg (by omega), if_pos hc]; simp [hd])
  rw [e, h2]

/-- C67. `collect_from` asked for more items than fit, with enough items coming: it panics after taking `N + 1` items; these are destroyed
exactly once (the one that did not fit first) and the rest stays in the caller's iterator. -/
theorem C67_collect_from_overflow (hN : 0 < N) (hW : 2 * N < E.W) (n : Nat) (it : It A) (log : List A) (hn : N < n)
    (hc : N < it.items.length) (hd : (it.items.take (N + 1)).any dp = false) :
    ∃ log', collectFrom E N dp n (it, log) = .panic (it.drop (N + 1), log ++ log') ∧ log'.Perm (it.items.take (N + 1)) := by
  obtain ⟨s, e, h2⟩ := (collectFrom_ref hN hW dp n it log).of_panic
    (t := (it.drop (N + 1), log ++ (it.items.drop N).take 1 ++ it.items.take N))
    (by
      simp only [Spec.collectFrom]
      by_cases h : n ≤ it.items.length
      · rw [if_pos h, if_neg (by omega)]; simp [hd]
      · rw [if_neg h, if_neg (by omega)]; simp [hd])
  refine ⟨_, by rw [e, h2, List.append_assoc], ?_⟩
  rw [List.take_add]
  exact List.perm_append_comm
/-- C67. `from_iter` with an iterator that panics after `xs`: the panic goes on to the caller; the items already collected and those the iterator
still owned are all destroyed, exactly once. -/
theorem C67_from_iter_iter_panics (hN : 0 < N) (hW : 2 * N < E.W) (xs : List A) (rest : It A) (log : List A) (hl : xs.length ≤ N)
    (hd : rest.owned.any dp = false) (hx : xs.any dp = false) :
    fromIter E N dp (It.ofList xs ++ .panic :: rest) log = .panic (log ++ rest.owned ++ xs) := by
  have e : Spec.fromIter N dp (It.ofList xs ++ .panic :: rest) log = .panic (log ++ rest.owned ++ xs) := by
    simp only [Spec.fromIter]
    rw [specExtend_prefix _ _ (by simp; omega)]
    simp only [Spec.extend, Spec.panicDropping, hd]
    simp [hx]
  obtain ⟨s, e', h2⟩ := (fromIter_ref hN hW dp _ log).of_panic e
  rw [e', h2]

/-- C67 is not vacuous. -/
example : (∃ s, extend dbg64 3 (fun _ => false) (It.ofList [1, 2, 3]) (seam, []) = .panic s ∧ s.2 = [2, 3] ∧
      items dbg64 3 s.1 = .ok [10, 20, 1] s.1) ∧
    (∃ c, collectFrom dbg64 3 (fun _ => false) 2 (It.ofList [1, 2, 3], []) = .ok c ([.item 3], []) ∧ items dbg64 3 c = .ok [1, 2] c) :=
  ⟨⟨_, rfl, rfl, rfl⟩, ⟨_, rfl, rfl⟩⟩

end Verif.Ring
