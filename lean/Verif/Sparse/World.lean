import Verif.Sparse.Lemmas2
/-
Histories of `SparseChunk` calls: the table of operations over the model of the code (`machine`) and over maps
(`specMachine`), and the refinement between them.
-/
namespace Verif
section
variable {A C D α : Type} {R : C → D → Prop}
/-- Call an operation that looks at two containers. -/
def askTwo (x : M (C × C) α) (f : α → Res A) : M ((C × C) × List A) (Res A) := do return f (← M.onFst x)

theorem askTwo_ref {x : M (C × C) α} {y : M (D × D) α} {f : α → Res A} {c c' : C} {d d' : D} {log : List A}
    (h : Ref (fun s t => R s.1 t.1 ∧ R s.2 t.2) (x (c, c')) (y (d, d'))) :
    Ref (RelLog2 R) (askTwo x f ((c, c'), log)) (askTwo y f ((d, d'), log)) := by
  simp only [askTwo, M.bind_run, M.onFst_run, M.pure_run]
  cases hx : x (c, c') <;> rw [hx] at h <;> simp only [Ref, Sat] at h
  · obtain ⟨t, e, h1, h2⟩ := h; rw [e]; exact ⟨_, rfl, h1, h2, rfl⟩
  · obtain ⟨t, e, h1, h2⟩ := h; rw [e]; exact ⟨_, rfl, h1, h2, rfl⟩
  · rw [h]; simp [Ref, Sat]
end

namespace Sparse
variable {A : Type}

/-- Constructors of `SparseChunk` (src/sparse_chunk/mod.rs:116-136, 308-315, 356-367). -/
inductive Ctor (A : Type) where
  | new
  | unit (i : Nat) (v : A)
  | pair (i : Nat) (v : A) (j : Nat) (w : A)
  | fromIter (it : It (Option A))

/-- Calls on one chunk (src/sparse_chunk/mod.rs:140-305, 318-337; src/sparse_chunk/iter.rs).  `replace` is `mem::replace` through
`get_mut`, `set` through `IndexMut`; `mutate`/`mutateOpt` any writing through `iter_mut`/`option_iter_mut`; `next` and `sizeHint`
are those of `Drain`; `OptionDrain::next` at index `i` is `remove(i)`. -/
inductive Un (A : Type) where
  | len | isEmpty | isFull
  | insert (i : Nat) (v : A) | remove (i : Nat) | pop
  | get (i : Nat) | index (i : Nat)
  | replace (i : Nat) (v : A) | set (i : Nat) (v : A)
  | firstIndex | indices | items | entries | optionItems
  | mutate (f : List A → List A) | mutateOpt (f : List A → List A)
  | next | sizeHint

/-- Calls producing another chunk (src/sparse_chunk/mod.rs:72-84). -/
inductive Fork where
  | clone

/-- Calls on two chunks (src/sparse_chunk/mod.rs:370-386); `eq` is the `PartialEq` of the elements. -/
inductive Bin (A : Type) where
  | eq (eq : A → A → Bool)

variable (E : Env) (N : Nat) (dp : A → Bool) (cl : A → Option A)

/-- The items seen through `iter`. -/
def peek (c : Sparse A) : List A := match items N c with
  | .ok l _ => l
  | _ => []

/-- The table of calls over the model of src/sparse_chunk. -/
def machine : Machine A (Sparse A) (Ctor A) (Un A) Fork (Bin A) where
  ctor
    | .new => pure new
    | .unit i v => unit N dp i v
    | .pair i v j w => pair N dp i v j w
    | .fromIter it => fromIter N dp it
  un
    | .len => ask (len N) .nat
    | .isEmpty => ask (isEmpty N) .bool
    | .isFull => ask (isFull N) .bool
    | .insert i v => giving dp [v] (insert N i v) .opt
    | .remove i => ask (remove N i) .opt
    | .pop => ask (pop N) .opt
    | .get i => ask (get N i) .optRef
    | .index i => ask (index N i) .ref
    | .replace i v => giving dp [v] (replaceGet N i v) .val
    | .set i v => giving dp [v] (setIndex N i v) .val
    | .firstIndex => ask (firstIndex N) (fun o => .nats o.toList)
    | .indices => ask (indices N) .nats
    | .items => ask (items N) .refs
    | .entries => ask (entries N) .entries
    | .optionItems => ask (optionItems N E) .optRefs
    | .mutate f => ask (mutate N f) (fun _ => .unit)
    | .mutateOpt f => ask (mutateOpt N E f) (fun _ => .unit)
    | .next => ask (pop N) .opt
    | .sizeHint => ask (drainSizeHint N) (fun r => .hint r.1 r.2)
  fork
    | .clone => do return some (← clone N dp cl)
  bin
    | .eq e => askTwo (eqSparse N e) .bool
  dtor := drop N dp
  born
    | .clone, c => Spec.bornOf cl (peek N c)

/-- The same table over maps. -/
def specMachine : Machine A (SMap A) (Ctor A) (Un A) Fork (Bin A) where
  ctor
    | .new => pure SMap.empty
    | .unit i v => MSpec.unit N dp i v
    | .pair i v j w => MSpec.pair N dp i v j w
    | .fromIter it => MSpec.fromIter N dp it
  un
    | .len => ask (MSpec.len N) .nat
    | .isEmpty => ask (MSpec.isEmpty N) .bool
    | .isFull => ask (MSpec.isFull N) .bool
    | .insert i v => giving dp [v] (MSpec.insert N i v) .opt
    | .remove i => ask (MSpec.remove N i) .opt
    | .pop => ask (MSpec.pop N) .opt
    | .get i => ask (MSpec.get i) .optRef
    | .index i => ask (MSpec.index i) .ref
    | .replace i v => giving dp [v] (MSpec.replaceGet N i v) .val
    | .set i v => giving dp [v] (MSpec.setIndex N i v) .val
    | .firstIndex => ask (MSpec.firstIndex N) (fun o => .nats o.toList)
    | .indices => ask (MSpec.indices N) .nats
    | .items => ask (MSpec.items N) .refs
    | .entries => ask (MSpec.entries N) .entries
    | .optionItems => ask (MSpec.optionItems N) .optRefs
    | .mutate f => ask (MSpec.mutate N f) (fun _ => .unit)
    | .mutateOpt f => ask (MSpec.mutate N f) (fun _ => .unit)
    | .next => ask (MSpec.pop N) .opt
    | .sizeHint => ask (do let n ← MSpec.len N; return (n, some n)) (fun r => .hint r.1 r.2)
  fork
    | .clone => do return some (← MSpec.clone N dp cl)
  bin
    | .eq e => askTwo (MSpec.eq N e) .bool
  dtor := MSpec.drop N dp
  born
    | .clone, m => Spec.bornOf cl (m.vals N)

variable {E N dp cl}

theorem peek_eq {c : Sparse A} {m : SMap A} (h : Rep N c m) : peek N c = m.vals N := by
  simp [peek, items_eq h]

theorem some_ref {x : M (Sparse A × List A) (Sparse A)} {y : M (SMap A × List A) (SMap A)} {c : Sparse A} {m : SMap A} {log : List A}
    (h : RefV (Rep N) (RelLog (Rep N)) (x (c, log)) (y (m, log))) :
    RefV (RelOpt (Rep N)) (RelLog (Rep N)) ((do return some (← x) : M (Sparse A × List A) (Option (Sparse A))) (c, log))
      ((do return some (← y) : M (SMap A × List A) (Option (SMap A))) (m, log)) := by
  simp only [M.bind_run, M.pure_run]
  cases hx : x (c, log) <;> rw [hx] at h <;> simp only [RefV, Sat] at h
  · obtain ⟨b, t, e, h3, h4⟩ := h; rw [e]; exact ⟨_, _, rfl, h3, h4⟩
  · obtain ⟨t, e, h3⟩ := h; rw [e]; exact ⟨_, rfl, h3⟩
  · rw [h]; simp [RefV, Sat]

theorem machineRel (hW : N < E.W) : MachineRel (Rep N) (machine E N dp cl) (specMachine N dp cl) where
  ctor k log := by
    cases k with
    | new => exact ⟨_, _, rfl, Rep.empty _, rfl⟩
    | unit i v => exact unit_ref dp i v log
    | pair i v j w => exact pair_ref dp i v j w log
    | fromIter it => exact fromIter_ref dp it log
  un k c d log h := by
    cases k with
    | len => exact ask_ref (Ref.of_eq (len_eq h) rfl h)
    | isEmpty => exact ask_ref (Ref.of_eq (isEmpty_eq h) rfl h)
    | isFull => exact ask_ref (Ref.of_eq (isFull_eq h) rfl h)
    | insert i v => exact giving_ref (insert_ref h i v)
    | remove i => exact ask_ref (remove_ref h i)
    | pop => exact ask_ref (pop_ref h)
    | get i => exact ask_ref (Ref.of_eq (get_eq h i) rfl h)
    | index i => exact ask_ref (index_ref h i)
    | replace i v => exact giving_ref (replaceGet_ref h i v)
    | set i v => exact giving_ref (setIndex_ref h i v)
    | firstIndex => exact ask_ref (Ref.of_eq (firstIndex_eq h) rfl h)
    | indices => exact ask_ref (Ref.of_eq (indices_eq h) rfl h)
    | items => exact ask_ref (Ref.of_eq (items_eq h) rfl h)
    | entries => exact ask_ref (Ref.of_eq (entries_eq h) rfl h)
    | optionItems => exact ask_ref (Ref.of_eq (optionItems_eq h hW) rfl h)
    | mutate f => exact ask_ref (mutate_ref h f)
    | mutateOpt f => exact ask_ref (mutateOpt_ref h hW f)
    | next => exact ask_ref (pop_ref h)
    | sizeHint => exact ask_ref (Ref.of_eq (by simp [drainSizeHint, len_eq h]) rfl h)
  fork k c d log h := by
    cases k with
    | clone => exact some_ref (clone_ref dp cl h log)
  bin k c d c' d' log h h' := by
    cases k with
    | eq e => exact askTwo_ref (Ref.of_eq (eqSparse_eq h h' e) rfl ⟨h, h'⟩)
  dtor c d log h := drop_ref h dp log
  born k c d h := by
    cases k; simp [machine, specMachine, peek_eq h]

/-! ### Histories without panicking destructors -/

theorem specTotal (hd : ∀ a, dp a = false) : (specMachine N dp cl).Total where
  ctor k log := by
    cases k with
    | new => trivial
    | unit i v =>
      simp only [specMachine, MSpec.unit, hd]; repeat' split
      all_goals first | trivial | contradiction
    | pair i v j w =>
      simp only [specMachine, MSpec.pair, hd]; repeat' split
      all_goals first | trivial | contradiction
    | fromIter it =>
      have : ∀ (it : It (Option A)) i s, Runs (MSpec.fill N dp i it s) := by
        intro it
        induction it with
        | nil => intro i s; trivial
        | cons e r ih =>
          intro i s
          cases e with
          | panic => simp only [MSpec.fill, MSpec.panicDropping, any_total hd]; trivial
          | item o =>
            cases o with
            | none => exact ih _ _
            | some v =>
              simp only [MSpec.fill]; split
              · exact ih _ _
              · simp only [MSpec.panicDropping, any_total hd]; trivial
      have h := this it 0 (SMap.empty, log)
      simp only [specMachine, MSpec.fromIter]
      cases hx : MSpec.fill N dp 0 it (SMap.empty, log) <;> rw [hx] at h <;> simp only [Runs, Sat] at h
      · trivial
      · simp only [any_total hd]; trivial
  un k s := by
    cases k
    case len => exact ask_total trivial
    case isEmpty => exact ask_total trivial
    case isFull => exact ask_total trivial
    case insert i v => exact giving_total hd (by unfold MSpec.insert; split <;> trivial)
    case remove i => exact ask_total (by unfold MSpec.remove; split <;> trivial)
    case pop => exact ask_total (by unfold MSpec.pop; split <;> trivial)
    case get => exact ask_total trivial
    case index i => exact ask_total (by unfold MSpec.index; split <;> trivial)
    case replace i v => exact giving_total hd (by unfold MSpec.replaceGet; (repeat' split) <;> trivial)
    case set i v => exact giving_total hd (by unfold MSpec.setIndex; (repeat' split) <;> trivial)
    case firstIndex => exact ask_total trivial
    case indices => exact ask_total trivial
    case items => exact ask_total trivial
    case entries => exact ask_total trivial
    case optionItems => exact ask_total trivial
    case mutate => exact ask_total trivial
    case mutateOpt => exact ask_total trivial
    case next => exact ask_total (by unfold MSpec.pop; split <;> trivial)
    case sizeHint => exact ask_total trivial
  fork k s := by
    cases k
    simp only [specMachine, M.bind_run, MSpec.clone, MSpec.panicDropping, any_total hd]
    split
    · trivial
    · trivial
  bin k s := by cases k; trivial
  dtor s := by simp only [specMachine, MSpec.drop, any_total hd]; trivial

end Sparse
end Verif
