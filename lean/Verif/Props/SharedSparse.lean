import Verif.Shared
import Verif.Sparse.View
import Verif.Props.SparseOps
import Verif.Fuzz
/-! # C91 for `SparseChunk`: shared calls write nothing; concurrent readers agree -/
namespace Verif.Sparse
open Shared
variable {A H : Type}

/-- The calls that take a chunk by `&self` (src/sparse_chunk/mod.rs:72-84, 140-154, 193-202, 237-252, 270-283, 318-327, 387-424, 427-442; iter.rs).
The iterators are driven to their end. -/
inductive Query (A : Type) where
  | len | isEmpty | isFull | firstIndex | indices | items | entries | optionItems | fmt
  | get (i : Nat) | index (i : Nat)
  | eqMap (eq : A → A → Bool) (other : List (Nat × A))
  | clone (cl : A → Option A)
/-- The call that takes two chunks by shared reference (src/sparse_chunk/mod.rs:370-386). -/
inductive Query2 (A : Type) where
  | eq (eq : A → A → Bool)

/-- The calls on the model of the code. -/
def ask (E : Env) (N : Nat) (dp : A → Bool) : Query A → M (Sparse A) (Ans A H)
  | .len => do return .nat (← len N)
  | .isEmpty => do return .bool (← isEmpty N)
  | .isFull => do return .bool (← isFull N)
  | .firstIndex => do return .index (← firstIndex N)
  | .indices => do return .nats (← indices N)
  | .items => do return .refs (← items N)
  | .entries => do return .entries (← entries N)
  | .optionItems => do return .optRefs (← optionItems N E)
  | .fmt => do return .fmt (← fmt N)
  | .get i => do return .optRef (← get N i)
  | .index i => do return .ref (← index N i)
  | .eqMap eq other => do return .bool (← eqMap N eq other)
  | .clone cl => do return .entries (← cloneThen (clone N dp cl) (entries N))
def ask2 (N : Nat) : Query2 A → M (Sparse A × Sparse A) (Ans A H)
  | .eq eq => do return .bool (← eqSparse N eq)

/-- What a map from indices below `N` answers; `none` if the call panics. -/
def answer (N : Nat) : Query A → SMap A → Option (Ans A H)
  | .len, m => some (.nat (m.keys N).length)
  | .isEmpty, m => some (.bool (decide ((m.keys N).length = 0)))
  | .isFull, m => some (.bool (decide ((m.keys N).length = N)))
  | .firstIndex, m => some (.index (m.keys N).head?)
  | .indices, m => some (.nats (m.keys N))
  | .items, m => some (.refs (m.vals N))
  | .entries, m => some (.entries (m.pairs N))
  | .optionItems, m => some (.optRefs (m.slots N))
  | .fmt, m => some (.fmt [.text "SparseChunk", .map (m.pairs N)])
  | .get i, m => some (.optRef (m i))
  | .index i, m => (m i).map .ref
  | .eqMap eq other, m =>
    some (.bool (decide ((m.keys N).length = other.length) && (m.keys N).all (fun i => MSpec.sameOpt eq (m i) (other.lookup i))))
  | .clone cl, m => if ∀ a ∈ m.vals N, (cl a).isSome then some (.entries (SMap.pairs N (fun i => (m i).bind cl))) else none
def answer2 (N : Nat) : Query2 A → SMap A → SMap A → Option (Ans A H)
  | .eq eq, m, m' => some (.bool ((List.range N).all (fun i => MSpec.sameOpt eq (m i) (m' i))))

section proof
variable {E : Env} {N : Nat} {dp : A → Bool} {σ ρ : Type} {part : σ → ρ}

theorem k_forBits {b : Bitmap} {body : Nat → M σ Unit} (h : ∀ i, Keeps part (body i)) (f p : Nat) : Keeps part (forBits N b body f p) := by
  induction f generalizing p with
  | zero => exact Keeps.diverge
  | succ f ih =>
    unfold forBits
    split
    · exact Keeps.pure _
    · exact Keeps.bind (h _) fun _ => ih _
theorem k_allBits {b : Bitmap} {test : Nat → M σ Bool} (h : ∀ i, Keeps part (test i)) (f p : Nat) : Keeps part (allBits N b test f p) := by
  induction f generalizing p with
  | zero => exact Keeps.diverge
  | succ f ih =>
    unfold allBits
    split
    · exact Keeps.pure _
    · exact Keeps.bind (h _) fun _ => Keeps.ite (ih _) (Keeps.pure _)
theorem k_collectAll {S α : Type} {next : S → M σ (Option (α × S))} (h : ∀ s, Keeps part (next s)) (f : Nat) (s : S) : Keeps part (collectAll next f s) := by
  induction f generalizing s with
  | zero => exact Keeps.diverge
  | succ f ih =>
    unfold collectAll
    refine Keeps.bind (h s) fun r => ?_
    split
    · exact Keeps.pure _
    · exact Keeps.bind (ih _) fun _ => Keeps.pure _
theorem k_bmGet (b : Bitmap) (i : Nat) : Keeps part (bmGet N b i) := Keeps.ite (Keeps.pure _) Keeps.ub
theorem k_unwrap {α : Type} (o : Option α) : Keeps part (unwrap o) := by unfold unwrap; split; exact Keeps.pure _; exact Keeps.panic
theorem ro_getMap : ReadOnly (getMap : M (Sparse A) Bitmap) := Keeps.get
theorem ro_get (i : Nat) : ReadOnly (get N i : M (Sparse A) (Option A)) := by
  have h := fun b => k_bmGet (N := N) (part := fun s : Sparse A => s) b i
  have h1 := ro_getMap (A := A)
  unfold get getUnchecked getMem
  exact Keeps.ite (Keeps.pure _) (Keeps.bind h1 fun b => Keeps.bind (h b) fun _ => by keeps)
theorem ro_index (i : Nat) : ReadOnly (index N i : M (Sparse A) A) := by unfold index; exact Keeps.bind (ro_get i) k_unwrap
theorem ro_indicesNext (p : Nat) : ReadOnly (indicesNext N p : M (Sparse A) _) := by unfold indicesNext getMap; keeps
theorem ro_iterNext (p : Nat) : ReadOnly (iterNext N p : M (Sparse A) _) := by
  unfold iterNext
  refine Keeps.bind (ro_indicesNext p) fun r => ?_
  unfold readIf forceRead getMem
  keeps
theorem ro_entriesNext (s : Nat × Nat) : ReadOnly (entriesNext N s : M (Sparse A) _) := by
  unfold entriesNext
  refine Keeps.bind (ro_indicesNext _) fun r => ?_
  split
  · exact Keeps.pure _
  · refine Keeps.bind (ro_iterNext _) fun r => ?_
    keeps
theorem ro_optionIterNext (i : Nat) : ReadOnly (optionIterNext N E i : M (Sparse A) _) := by
  unfold optionIterNext
  exact Keeps.ite (Keeps.bind (ro_get i) fun _ => Keeps.bind (Keeps.uadd _ _ _) fun _ => Keeps.pure _) (Keeps.pure _)
theorem ro_len : ReadOnly (len N : M (Sparse A) Nat) := by unfold len getMap; keeps
theorem ro_indices : ReadOnly (indices N : M (Sparse A) _) := k_collectAll ro_indicesNext _ _
theorem ro_items : ReadOnly (items N : M (Sparse A) _) := k_collectAll ro_iterNext _ _
theorem ro_entries : ReadOnly (entries N : M (Sparse A) _) := k_collectAll ro_entriesNext _ _
theorem ro_optionItems : ReadOnly (optionItems N E : M (Sparse A) _) := k_collectAll ro_optionIterNext _ _
theorem ro_eqMap (eq : A → A → Bool) (other : List (Nat × A)) : ReadOnly (eqMap N eq other) := by
  unfold eqMap
  exact Keeps.bind ro_len fun _ => Keeps.ite
    (Keeps.bind ro_getMap fun _ => k_allBits (fun i => Keeps.bind (ro_get i) fun _ => Keeps.pure _) _ _) (Keeps.pure _)
theorem ro_eqSparse (eq : A → A → Bool) : ReadOnly (eqSparse N eq) := by
  unfold eqSparse
  exact Keeps.bind (Keeps.onFst ro_getMap) fun _ => Keeps.bind (Keeps.onSnd ro_getMap) fun _ => Keeps.ite
    (Keeps.bind (Keeps.onFst ro_getMap) fun _ => k_allBits (fun i =>
      Keeps.bind (Keeps.onFst (ro_get i)) fun _ => Keeps.bind (Keeps.onSnd (ro_get i)) fun _ => Keeps.pure _) _ _) (Keeps.pure _)
theorem keeps_clone (cl : A → Option A) : Keeps (·.1) (clone N dp cl) := by
  unfold clone
  refine Keeps.bind (Keeps.of_readOnly (Keeps.onFst ro_getMap)) fun _ => Keeps.bind ?_ fun _ => Keeps.pure _
  refine Keeps.withLocal (part := fun s => s) (k_forBits (fun i => ?_) _ _) Keeps.atFst
  unfold cloneBody
  refine Keeps.bind (Keeps.of_readOnly (Keeps.onFst (Keeps.onSnd (ro_index i)))) fun _ => ?_
  unfold insertClone
  split
  · exact Keeps.panic
  · exact Keeps.atFst

/-- C91. A call through a shared reference to a sparse chunk writes nothing: on every chunk, in whatever state, it leaves every byte as it
was, whether it returns or panics. -/
theorem C91_shared_calls_write_nothing (q : Query A) : ReadOnly (ask E N dp q : M (Sparse A) (Ans A H)) := by
  cases q with
  | clone cl => exact Keeps.bind (Keeps.cloneThen (keeps_clone cl)) fun _ => Keeps.pure _
  | len => exact Keeps.bind ro_len fun _ => Keeps.pure _
  | isEmpty => exact Keeps.bind (Keeps.bind ro_getMap fun _ => Keeps.pure _) fun _ => Keeps.pure _
  | isFull => exact Keeps.bind (Keeps.bind ro_len fun _ => Keeps.pure _) fun _ => Keeps.pure _
  | firstIndex => exact Keeps.bind (Keeps.bind ro_getMap fun _ => Keeps.pure _) fun _ => Keeps.pure _
  | indices => exact Keeps.bind ro_indices fun _ => Keeps.pure _
  | items => exact Keeps.bind ro_items fun _ => Keeps.pure _
  | entries => exact Keeps.bind ro_entries fun _ => Keeps.pure _
  | optionItems => exact Keeps.bind ro_optionItems fun _ => Keeps.pure _
  | fmt => exact Keeps.bind (Keeps.bind ro_entries fun _ => Keeps.pure _) fun _ => Keeps.pure _
  | get i => exact Keeps.bind (ro_get i) fun _ => Keeps.pure _
  | index i => exact Keeps.bind (ro_index i) fun _ => Keeps.pure _
  | eqMap eq other => exact Keeps.bind (ro_eqMap eq other) fun _ => Keeps.pure _
theorem C91_shared_calls_on_two_write_nothing (q : Query2 A) : ReadOnly (ask2 N q : M (Sparse A × Sparse A) (Ans A H)) := by
  cases q with
  | eq eq => exact Keeps.bind (ro_eqSparse eq) fun _ => Keeps.pure _
/-- C91. So do the borrowing iterators, at every step. -/
theorem C91_iterators_write_nothing (p : Nat) (s : Nat × Nat) :
    ReadOnly (indicesNext N p : M (Sparse A) _) ∧ ReadOnly (iterNext N p : M (Sparse A) _) ∧ ReadOnly (entriesNext N s : M (Sparse A) _) ∧
    ReadOnly (optionIterNext N E p : M (Sparse A) _) :=
  ⟨ro_indicesNext p, ro_iterNext p, ro_entriesNext s, ro_optionIterNext p⟩

/-- C91. Threads that share sparse chunks and call them through shared references: whatever the scheduler does, the chunks never change,
and every thread gets from each of its calls the answer that a map with the same entries gives. -/
theorem C91_readers_agree (hW : N < E.W) (hd : ∀ a, dp a = false) :
    Agree (View N) (ask E N dp) (ask2 N) (answer N : Query A → SMap A → Option (Ans A H)) (answer2 N) := by
  refine agree (fun q c m h => ?_) (fun q c m c' m' h h' => ?_)
  · have hr := h.rep
    cases q with
    | get i => simp [ask, answer, get_eq hr]
    | index i =>
      cases hi : m i <;> simp [ask, answer, index, get_eq hr, hi, unwrap] <;> rfl
    | eqMap eq other => simp [ask, answer, eqMap_eq hr]
    | clone cl =>
      by_cases hc : ∀ a ∈ m.vals N, (cl a).isSome
      · obtain ⟨d, s, e, hv, _⟩ := C55_clone (dp := dp) (cl := cl) h [] (fun i a hi => hc a (by
          simp only [SMap.vals, List.mem_filterMap, List.mem_range]
          exact ⟨i, Nat.lt_of_not_le fun hle => by simp [h.out hle] at hi, hi⟩))
        have := (keeps_clone (dp := dp) cl (c, [])).1 _ _ e
        simp only at this
        subst this
        simp only [ask, answer, if_pos hc, cloneThen]
        simp [unlogged, own, e, entries_eq hv.rep]
      · have hn : ∃ p a r, m.vals N = p ++ a :: r ∧ (∀ x ∈ p, (cl x).isSome = true) ∧ cl a = none := by
          generalize m.vals N = l at hc
          induction l with
          | nil => simp at hc
          | cons x l ih =>
            cases hx : cl x with
            | none => exact ⟨[], x, l, rfl, by simp, hx⟩
            | some b =>
              obtain ⟨p, a, r, rfl, h1, h2⟩ := ih (fun hh => hc (by simpa [hx] using hh))
              exact ⟨x :: p, a, r, rfl, by simpa [hx] using h1, h2⟩
        obtain ⟨p, a, r, hv, h1, h2⟩ := hn
        obtain ⟨s, e, _⟩ := C55_clone_panics (dp := dp) h [] (hv ▸ items_eq hr) h1 h2 (by simp [hd])
        have := (keeps_clone (dp := dp) cl (c, [])).2 _ e
        simp only at this
        subst this
        simp only [ask, answer, if_neg hc, cloneThen]
        simp [unlogged, e]
    | _ => simp [ask, answer, len_eq hr, isEmpty_eq hr, isFull_eq hr, items_eq hr, indices_eq hr, entries_eq hr, optionItems_eq (E := E) hr hW, firstIndex_eq hr, fmt, SMap.first]
  · cases q
    simp [ask2, answer2, eqSparse_eq h.rep h'.rep]
end proof

section examples
/-- Two threads on two shared chunks; one of the calls panics. -/
def readers : Nat → Thread (Call (Query Nat) (Query2 Nat)) (Ans Nat Nat)
  | 0 => ⟨[.one 0 .len, .one 0 (.index 0), .two 0 1 (.eq fun a b => decide (a = b)), .one 0 (.eqMap (fun a b => decide (a = b)) [(3, 10), (1, 20)])], []⟩
  | 1 => ⟨[.one 1 .items, .one 0 (.clone fun a => some (a + 1))], []⟩
  | _ => ⟨[], []⟩
def sharedSparse : Nat → Sparse Nat := fun h => if h = 0 then sample else new
example : ∀ h, View 4 (sharedSparse h) (if h = 0 then sampleMap else SMap.empty) := by
  intro h; unfold sharedSparse; split
  · exact sample_view
  · intro i; by_cases hi : i < 4 <;> simp [get, bmGet, getMap, new, bmEmpty, SMap.empty, hi, Nat.not_le.2, Nat.le_of_not_lt]
example : (interleave (call (ask Chunk.dbg64 4 Fuzz.nodrop) (ask2 4)) [1, 0, 0, 1, 7, 0, 0] (sharedSparse, readers)).map
      (fun s => ((s.2 0).got, (s.2 1).got)) =
    some ([some (.nat 2), none, some (.bool false), some (.bool true)], [some (.refs []), some (.entries [(1, 21), (3, 11)])]) := by decide +kernel
end examples
end Verif.Sparse
