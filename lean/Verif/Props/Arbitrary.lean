import Verif.Props.ChunkBulk
import Verif.Props.RingBulk
import Verif.Props.SparseOps
import Verif.Props.InlineOps
import Verif.Arbitrary
/-
C65 and C77: the `Arbitrary` instances (src/arbitrary.rs).  `gen` is what the generator yields: `some a` an item, `none` an `Err`.
-/
namespace Verif

/-- Every finite sequence of results is a run of items, followed by nothing or by an `Err` and more. -/
theorem gen_split {B : Type} : ∀ g : List (Option B), (∃ xs : List B, g = xs.map some) ∨ (∃ (xs : List B) (r : List (Option B)), g = xs.map some ++ none :: r)
  | [] => .inl ⟨[], rfl⟩
  | none :: g => .inr ⟨[], g, rfl⟩
  | some a :: g => by
    rcases gen_split g with ⟨xs, rfl⟩ | ⟨xs, r, rfl⟩
    · exact .inl ⟨a :: xs, rfl⟩
    · exact .inr ⟨a :: xs, r, rfl⟩

theorem takeWhile_some {B : Type} (xs : List B) (r : List (Option B)) (hr : r.head?.join = none) :
    (xs.map some ++ r).takeWhile Option.isSome = xs.map some := by
  induction xs with
  | nil =>
    cases r with
    | nil => rfl
    | cons a r => cases a <;> simp at hr ⊢
  | cons a xs ih => simp [ih]

theorem filterMap_some {B : Type} (xs : List B) : (xs.map some).filterMap id = xs := by
  induction xs with
  | nil => rfl
  | cons a xs ih => simp

/-- The outcome of `arbitrary` the documentation promises, over a model of the container `C` with items `B`: either every one
of the first `N` results is an item and the container `c` shows exactly those, with nothing destroyed; or there is an
`Err` among the first `N` and the items before it (`owned` gives the values in them) are destroyed. -/
def GoodArbitrary {A B C : Type} (shows : C → List B → Prop) (owned : List B → List A) (N : Nat) (gen : List (Option B)) (log : List A)
    (out : Out (List A) (Option C)) : Prop :=
  (∃ xs c, gen.take N = xs.map some ∧ xs.length ≤ N ∧ out = .ok (some c) log ∧ shows c xs) ∨
  (∃ xs rest log', gen.take N = xs.map some ++ none :: rest ∧ out = .ok none (log ++ log') ∧ log' = owned xs)

theorem goodArbitrary_of {A B C : Type} {shows : C → List B → Prop} {owned : List B → List A} {N : Nat} {log : List A}
    {from_ : List B → Out (List A) C} {dtor : C → List A → Out (List A) (Option C)} (gen : List (Option B))
    (hf : ∀ xs : List B, xs.length ≤ N → ∃ c, from_ xs = .ok c log ∧ shows c xs)
    (hd : ∀ c xs, shows c xs → dtor c log = .ok none (log ++ owned xs)) :
    GoodArbitrary shows owned N gen log
      ((from_ (((gen.take N).takeWhile Option.isSome).filterMap id)).andThen fun c log' =>
        if ((gen.take N).takeWhile Option.isSome).length = (gen.take N).length then .ok (some c) log' else dtor c log') := by
  have hN : (gen.take N).length ≤ N := by simp; omega
  rcases gen_split (gen.take N) with ⟨xs, e⟩ | ⟨xs, r, e⟩
  · left
    have ht : (gen.take N).takeWhile Option.isSome = xs.map some := by
      rw [e]; simpa using takeWhile_some xs [] rfl
    rw [e] at hN
    simp only [List.length_map] at hN
    obtain ⟨c, h1, h2⟩ := hf xs hN
    refine ⟨xs, c, e, hN, ?_, h2⟩
    rw [ht, filterMap_some, h1, e]
    simp
  · right
    have ht : (gen.take N).takeWhile Option.isSome = xs.map some := by
      rw [e]; exact takeWhile_some xs _ rfl
    rw [e] at hN
    simp only [List.length_map, List.length_append, List.length_cons] at hN
    obtain ⟨c, h1, h2⟩ := hf xs (by omega)
    refine ⟨xs, r, _, e, ?_, rfl⟩
    rw [ht, filterMap_some, h1, e]
    simp only [Out.andThen_ok, List.length_map, List.length_append, List.length_cons]
    rw [if_neg (by omega)]
    exact hd c xs h2

theorem GoodArbitrary.imp {A B C : Type} {shows shows' : C → List B → Prop} {owned : List B → List A} {N : Nat} {gen : List (Option B)}
    {log : List A} {out : Out (List A) (Option C)} (h : ∀ c xs, shows c xs → shows' c xs) (hg : GoodArbitrary shows owned N gen log out) :
    GoodArbitrary shows' owned N gen log out := by
  rcases hg with ⟨xs, c, h1, h2, h3, h4⟩ | hg
  · exact .inl ⟨xs, c, h1, h2, h3, h _ _ h4⟩
  · exact .inr hg

namespace Chunk
variable {A : Type} {E : Env} {N : Nat} {dp : A → Bool}

/-- C65 for `Chunk`: whatever the generator yields, `arbitrary` does not panic; it gives a chunk with the generated items in
order, or an error, the items generated so far being destroyed once each. -/
theorem C65_chunk (hN : 2 * N < E.W) (hdp : ∀ a, dp a = false) (gen : List (Option A)) (log : List A) :
    GoodArbitrary (View E N) id N gen log (arbitrary E N dp gen log) := by
  have := goodArbitrary_of (shows := View E N) (owned := id) (N := N) (log := log) (from_ := fun xs => fromIter E N dp (It.ofList xs) log)
    (dtor := fun c log => ((do drop E N dp; return none : M (Chunk A × List A) (Option (Chunk A))) (c, log)).mapState (·.2)) gen
    (fun xs h => C17_from_iter hN xs log h) (fun c xs h => ?_)
  · refine cast (congrArg _ ?_) this
    simp only [arbitrary, M.bind_run, arbitraryEnd, decide_eq_true_eq]
  · obtain ⟨s, e, h1, h2⟩ := (drop_ref (E := E) dp (h.rep hN) log).of_ok (a := ()) (t := (xs, log ++ xs))
      (by rw [Spec.drop, dropping_zero]; exact any_false_iff_countP.1 (any_total hdp _))
    simp only [M.bind_run, e, Out.andThen_ok, M.pure_run, Out.mapState_ok, h2, id]

/-- C65 is not vacuous: five items for a chunk of three; and an error after two items. -/
example : ∃ c, arbitrary rel64 3 (fun _ => false) [some 1, some 2, some 3, none, some 5] [] = .ok (some c) [] ∧ View rel64 3 c [1, 2, 3] :=
  ⟨_, rfl, rfl⟩
example : arbitrary rel64 3 (fun _ => false) [some 1, some 2, none, some 5] [] = .ok none [1, 2] := rfl
end Chunk

namespace Ring
variable {A : Type} {E : Env} {N : Nat} {dp : A → Bool}

/-- C65 for `RingBuffer`. -/
theorem C65_ring (hN : 0 < N) (hW : 2 * N < E.W) (hdp : ∀ a, dp a = false) (gen : List (Option A)) (log : List A) :
    GoodArbitrary (View E N) id N gen log (arbitrary E N dp gen log) := by
  have := goodArbitrary_of (shows := View E N) (owned := id) (N := N) (log := log) (from_ := fun xs => fromIter E N dp (It.ofList xs) log)
    (dtor := fun c log => ((do drop E N dp; return none : M (Ring A × List A) (Option (Ring A))) (c, log)).mapState (·.2)) gen
    (fun xs h => C67_from_iter hN hW xs log h) (fun c xs h => ?_)
  · refine cast (congrArg _ ?_) this
    simp only [arbitrary, M.bind_run, arbitraryEnd, decide_eq_true_eq]
  · obtain ⟨s, e, h1, h2⟩ := (drop_ref hW dp (h.rep hW) log).of_ok (a := ()) (t := (xs, log ++ xs))
      (by rw [Spec.dropSeq, Spec.droppingSeq, any_total hdp]; rfl)
    simp only [M.bind_run, e, Out.andThen_ok, M.pure_run, Out.mapState_ok, h2, id]

/-- C65 is not vacuous: five items for a buffer of three; and an error after two items. -/
example : (arbitrary Chunk.rel64 3 (fun _ => false) [some 1, some 2, some 3, none, some 5] []).seen.map
    (fun r => r.map fun c => (items Chunk.rel64 3 c).seen) = some (some (some [1, 2, 3])) := by decide +kernel
example : arbitrary Chunk.rel64 3 (fun _ => false) [some 1, some 2, none, some 5] [] = .ok none [1, 2] := rfl
end Ring

namespace Sparse
variable {A : Type} {N : Nat} {dp : A → Bool}

/-- C65 for `SparseChunk`, whose generator yields options: the chunk shows at index `i` the `i`-th option. -/
theorem C65_sparse (hdp : ∀ a, dp a = false) (gen : List (Option (Option A))) (log : List A) :
    GoodArbitrary (fun c xs => View N c (fun i => xs[i]?.join)) (fun xs => xs.filterMap id) N gen log (arbitrary N dp gen log) := by
  have := goodArbitrary_of (shows := fun c xs => View N c (fun i => xs[i]?.join) ∧ xs.length ≤ N) (owned := fun xs : List (Option A) => xs.filterMap id)
    (N := N) (log := log) (from_ := fun xs => fromIter N dp (It.ofList xs) log)
    (dtor := fun c log => ((do drop N dp; return none : M (Sparse A × List A) (Option (Sparse A))) (c, log)).mapState (·.2)) gen
    (fun xs h => ?_) (fun c xs h => ?_)
  · refine GoodArbitrary.imp (fun c xs h => h.1) (cast (congrArg _ ?_) this)
    simp only [arbitrary, M.bind_run, arbitraryEnd, decide_eq_true_eq]
  · obtain ⟨c, h1, h2⟩ := C51_from_iter (N := N) (dp := dp) xs log (fun i v e => by
      have := (List.getElem?_eq_some_iff.1 e).1; omega)
    exact ⟨c, h1, h2, h⟩
  · have hv : SMap.vals N (fun i => xs[i]?.join) = xs.filterMap id := by
      have : ∀ (xs : List (Option A)) k, xs.length ≤ k → (List.range k).filterMap (fun i => xs[i]?.join) = xs.filterMap id := by
        intro xs
        induction xs with
        | nil => intro k _; simp
        | cons a xs ih =>
          intro k hk
          obtain ⟨k, rfl⟩ : ∃ j, k = j + 1 := ⟨k - 1, by simp at hk; omega⟩
          rw [List.range_succ_eq_map, List.filterMap_cons, List.filterMap_map]
          have := ih k (by simpa using hk)
          cases a <;> simp_all [Function.comp_def]
      exact this xs N h.2
    obtain ⟨s, e, h1, h2⟩ := (drop_ref h.1.rep dp log).of_ok (a := ()) (t := (_, log ++ xs.filterMap id))
      (by rw [MSpec.drop]; simp only [hv, any_total hdp]; rfl)
    simp only [M.bind_run, e, Out.andThen_ok, M.pure_run, Out.mapState_ok, h2]

/-- C65 is not vacuous. -/
example : ∃ c, arbitrary 3 (fun _ => false) [some (some 1), some none, some (some 3), none] [] = .ok (some c) [] ∧
    View 3 c (fun i => if i = 0 then some 1 else if i = 2 then some 3 else none) :=
  ⟨_, rfl, fun i => match i with | 0 => rfl | 1 => rfl | 2 => rfl | _ + 3 => rfl⟩
example : arbitrary 3 (fun _ => false) [some (some 1), some none, none, some none] [] = .ok none [1] := rfl
end Sparse

namespace Inline
variable {A : Type} [DecidableEq A] {E : Env} {L : Layout A} {dp : A → Bool}

/-- C65 for `InlineArray`, for the element and host types with which `InlineArray::new` does not panic. -/
theorem C65_inline (hv : L.Valid E) (k : Nat) {s0 : Inline A} (hn : new E L k () = .ok s0 ()) (hdp : ∀ a, dp a = false)
    (gen : List (Option A)) (log : List A) :
    GoodArbitrary (View E L) id (cap E L) gen log (arbitrary E L dp k gen log) := by
  have ha : Accepted E L := by
    apply Classical.byContradiction
    intro h
    have := new_panic h k
    rw [hn] at this; cases this
  have := goodArbitrary_of (shows := Rep E L) (owned := id) (N := cap E L) (log := log) (from_ := fun xs => fromIter E L dp k (It.ofList xs) log)
    (dtor := fun c log => ((do drop E L dp; return none : M (Inline A × List A) (Option (Inline A))) (c, log)).mapState (·.2)) gen
    (fun xs h => ?_) (fun c xs h => ?_)
  · refine GoodArbitrary.imp (fun c xs h => h.view hv) (cast (congrArg _ ?_) this)
    simp only [arbitrary, M.bind_run, arbitraryEnd, decide_eq_true_eq]
  · obtain ⟨c, s, e, h1, h2⟩ := (fromIter_ref hv dp k (It.ofList xs) log).of_ok (b := xs) (t := log)
      (by simp only [specFromIter, if_pos ha, Spec.fromIter]; rw [Chunk.specExtend_ok xs (by simpa using h)]; simp)
    exact ⟨c, by rw [e, h2], h1⟩
  · obtain ⟨s, e, h1, h2⟩ := (drop_ref hv h dp log).of_ok (a := ()) (t := (xs, log ++ xs))
      (by rw [Spec.drop, dropping_zero]; exact any_false_iff_countP.1 (any_total hdp _))
    simp only [M.bind_run, e, Out.andThen_ok, M.pure_run, Out.mapState_ok, h2, id]

/-- C65 for the other element and host types: with them `InlineArray::new`, and so `arbitrary`, panics on every input. -/
theorem C65_inline_refused (k : Nat) (hn : ∀ k s, new E L k () ≠ .ok s ()) (hv : L.Valid E) (hdp : ∀ a, dp a = false)
    (gen : List (Option A)) (log : List A) : (arbitrary E L dp k gen log).isPanic = true := by
  have ha : ¬ Accepted E L := fun h => by
    obtain ⟨s, h1, _⟩ := new_ok hv h k
    exact hn k s h1
  obtain ⟨s, e, _⟩ := (fromIter_ref hv dp k (It.ofList ((gen.take (cap E L)).takeWhile Option.isSome |>.filterMap id)) log).of_panic
    (by simp only [specFromIter, if_neg ha, any_total hdp]; rfl)
  simp only [arbitrary, M.bind_run, e]; rfl

/-- C65 is not vacuous: `words` has room for seven items. -/
example : (arbitrary Chunk.rel64 words (fun _ => false) 3 [some 1, some 2, some 3] []).seen.map
    (fun r => r.map fun c => (items Chunk.rel64 words c).seen) = some (some (some [1, 2, 3])) := by decide +kernel
/-- The other case exists: a host of the size of a `usize`. -/
example : (arbitrary Chunk.rel64 (⟨8, 8, 4, 4, 8, 8, 8, none⟩ : Layout Nat) (fun _ => false) 3 [] []).isPanic = true := by decide +kernel
end Inline

/-! ### C77: `size_hint` -/
namespace Arb
variable {B : Type} {E : Env}

/-- `takeItems` never takes more than one byte per item above what the elements take. -/
theorem takeItems_bytes {el : List Nat → Option B × Nat} {u : Nat} (hu : ∀ bs, (el bs).2 ≤ u) :
    ∀ n bs, (takeItems el n bs).2 ≤ n * (u + 1)
  | 0, _ => by simp [takeItems]
  | n + 1, [] => by simp [takeItems]
  | n + 1, b :: bs => by
    have := hu bs
    have ih := takeItems_bytes hu n (bs.drop (el bs).2)
    rw [takeItems, Nat.succ_mul]
    split
    · cases h : el bs with
      | mk r k => cases r <;> rw [h] at this ih <;> simp_all <;> omega
    · simp; omega

/-- What `takeItems` yields: never more than it is asked for, and a failure only where an element's own `arbitrary` failed, last. -/
theorem takeItems_results (el : List Nat → Option B × Nat) :
    ∀ n bs, (takeItems el n bs).1.length ≤ n ∧ (none ∈ (takeItems el n bs).1 → ∃ bs', (el bs').1 = none)
  | 0, _ => by simp [takeItems]
  | n + 1, [] => by simp [takeItems]
  | n + 1, b :: bs => by
    have ih := takeItems_results el n (bs.drop (el bs).2)
    rw [takeItems]
    split
    · cases h : el bs with
      | mk r k =>
        rw [h] at ih
        cases r with
        | none => exact ⟨by simp, fun _ => ⟨bs, by rw [h]⟩⟩
        | some a => exact ⟨by dsimp only at ih; simp; omega, fun hm => ih.2 (by simpa using hm)⟩
    · simp

/-- C77 fails of the code: the upper bound of `size_hint` leaves out the byte that `arbitrary_iter` reads before every item, so `arbitrary`
reads more bytes than the bound says: a chunk of two bytes has the bound 2, and is generated from 4 bytes. -/
theorem C77_size_hint_counterexample :
    (∀ bs, (byte bs).2 ≤ 1) ∧ sizeHint Chunk.rel64 2 false (some 1) () = .ok (0, some 2) () ∧
    (∃ c, Chunk.arbitrary Chunk.rel64 2 (fun _ => false) (takeItems byte 2 [1, 50, 1, 60]).1 [] = .ok (some c) [] ∧
      Chunk.View Chunk.rel64 2 c [50, 60]) ∧ (takeItems byte 2 [1, 50, 1, 60]).2 = 4 :=
  ⟨fun bs => by cases bs <;> simp [byte], rfl, ⟨_, rfl, rfl⟩, rfl⟩

/-- C77 fails of the code in a second way: the bound is multiplied without a check, so a large element bound panics in debug builds and gives a
wrong bound (here 0) in release builds. -/
theorem C77_overflow_counterexample : (sizeHint Chunk.dbg64 2 false (some (2 ^ 63)) ()).isPanic = true ∧
    (sizeHint Chunk.rel64 2 false (some (2 ^ 63)) ()).seen = some (0, some 0) := by decide +kernel

/-- C77, what holds: if the multiplication fits, `size_hint` does not panic and its bound, when it gives one, is what the elements of a full container
may take; `arbitrary` reads at most one byte per item more.  The lower bound is always 0. -/
theorem C77_size_hint_partial (cap : Nat) (deep : Bool) (upper : Option Nat) (hfit : ∀ u, upper = some u → u * cap < E.W) :
    ∃ hi, sizeHint E cap deep upper () = .ok (0, hi) () ∧ (upper = none → hi = none) ∧
      ∀ h, hi = some h → ∃ u, upper = some u ∧ h = u * cap ∧
        ∀ (el : List Nat → Option B × Nat), (∀ bs, (el bs).2 ≤ u) → ∀ bs, (takeItems el cap bs).2 ≤ h + cap := by
  cases deep with
  | true => exact ⟨none, rfl, fun _ => rfl, fun _ h => nomatch h⟩
  | false =>
    cases upper with
    | none => exact ⟨none, rfl, fun _ => rfl, fun _ h => nomatch h⟩
    | some u =>
      refine ⟨some (u * cap), ?_, (fun h => nomatch h), ?_⟩
      · simp [sizeHint, umul, hfit u rfl]
      · rintro h ⟨⟩
        refine ⟨u, rfl, rfl, fun el hu bs => ?_⟩
        have := takeItems_bytes hu cap bs
        rw [Nat.mul_add, Nat.mul_one, Nat.mul_comm] at this
        exact this

/-- `C77_size_hint_partial` is not vacuous, and its bound on the bytes is reached. -/
example : (∀ u, some 1 = some u → u * 2 < Chunk.dbg64.W) ∧ (∀ bs, (byte bs).2 ≤ 1) ∧ (takeItems byte 2 [1, 50, 1, 60]).2 = 1 * 2 + 2 :=
  ⟨by rintro u ⟨⟩; decide, fun bs => by cases bs <;> simp [byte], rfl⟩
end Arb
end Verif
