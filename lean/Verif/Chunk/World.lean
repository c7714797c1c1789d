import Verif.Driver
import Verif.Chunk.Lemmas2
/-
Histories of `Chunk` calls: the table of operations over the model of the code (`machine`) and over plain
lists (`specMachine`), the refinement between them, and the accounting of elements on the list side.
-/
namespace Verif
namespace Chunk
variable {A : Type}

/-- Constructors of `Chunk` (src/sized_chunk/mod.rs:129-194, 873-882). -/
inductive Ctor (A : Type) where
  | new
  | unit (v : A)
  | pair (v w : A)
  | collectFrom (n : Nat) (it : It A)
  | fromIter (it : It A)

/-- Calls on one chunk (src/sized_chunk/mod.rs:226-240, 336-424, 520-699, 708-716, 783-806, 907-933;
src/sized_chunk/iter.rs). `search` is the result of `binary_search`; `mutate` any writing through `&mut [A]`;
`insertFrom i n it` an iterator whose `len()` is `n` and whose `next()` calls do `it`. -/
inductive Un (A : Type) where
  | len | isEmpty | isFull | asSlice
  | index (i : Nat)
  | pushFront (v : A) | pushBack (v : A)
  | popFront | popBack
  | dropLeft (i : Nat) | dropRight (i : Nat) | clear
  | set (i : Nat) (v : A)
  | insert (i : Nat) (v : A)
  | insertOrdered (search : List A → A → Option (Except Nat Nat)) (v : A)
  | insertFrom (i n : Nat) (it : It A)
  | remove (i : Nat)
  | extend (it : It A)
  | next | nextBack | sizeHint
  | mutate (f : List A → List A)
  | write (buf : List A)
  | read (n : Nat)

/-- Calls producing another chunk (src/sized_chunk/mod.rs:109-121, 170-173, 200-222, 433-447). -/
inductive Fork where
  | fromFront (n : Nat) | fromBack (n : Nat) | drainFrom | splitOff (i : Nat) | clone

/-- Calls on two chunks (src/sized_chunk/mod.rs:454-513). -/
inductive Bin where
  | append | drainFromFront (n : Nat) | drainFromBack (n : Nat)

variable (E : Env) (N : Nat) (dp : A → Bool) (cl : A → Option A)

/-- The items seen through `as_slice` (used by the client to guard a call). -/
def peek (c : Chunk A) : List A := match asSlice E N c with
  | .ok l _ => l
  | _ => []

/-- The table of calls over the model of src/sized_chunk/mod.rs and iter.rs.  The client does not call
`from_front`/`from_back` with an excessive count in a release build (see C22) nor `insert_from` with a length
overflowing `usize` in a release build (see C12). -/
def machine : Machine A (Chunk A) (Ctor A) (Un A) Fork Bin where
  ctor
    | .new => pure Chunk.new
    | .unit v => making dp [v] (unit N v)
    | .pair v w => making dp [w, v] (pair N v w)
    | .collectFrom n it => borrowing it (collectFrom E N dp n)
    | .fromIter it => fromIter E N dp it
  un
    | .len => ask (len E) .nat
    | .isEmpty => ask isEmpty .bool
    | .isFull => ask (isFull N) .bool
    | .asSlice => ask (asSlice E N) .refs
    | .index i => ask (index E N i) .ref
    | .pushFront v => giving dp [v] (pushFront E N v) (fun _ => .unit)
    | .pushBack v => giving dp [v] (pushBack E N v) (fun _ => .unit)
    | .popFront => ask (popFront E N) .val
    | .popBack => ask (popBack E N) .val
    | .dropLeft i => logged (dropLeft E N dp i)
    | .dropRight i => logged (dropRight E N dp i)
    | .clear => logged (clear E N dp)
    | .set i v => giving dp [v] (set E N i v) .val
    | .insert i v => giving dp [v] (insert E N i v) (fun _ => .unit)
    | .insertOrdered search v => giving dp [v] (insertOrdered E N search v) (fun _ => .unit)
    | .insertFrom i n it =>
      guarded (fun _ => decide (E.debug = true ∨ N + n < E.W)) .skipped (logged (insertFrom E N dp i ⟨n, n, it⟩))
    | .remove i => ask (remove E N i) .val
    | .extend it => logged (extend E N dp it)
    | .next => ask (iterNext E N) .opt
    | .nextBack => ask (iterNextBack E N) .opt
    | .sizeHint => ask (sizeHint E) (fun r => .hint r.1 r.2)
    | .mutate f => ask (mutate E N f) (fun _ => .unit)
    | .write buf => ask (write E N buf) (fun n => .read n (buf.drop n))
    | .read n => ask (read E N n) (fun r => .read r.1 r.2)
  fork
    | .fromFront n =>
      guarded (fun c => decide (E.debug = true ∨ n ≤ (peek E N c).length)) none (forking (fromFront E N n))
    | .fromBack n =>
      guarded (fun c => decide (E.debug = true ∨ n ≤ (peek E N c).length)) none (forking (fromBack E N n))
    | .drainFrom => forking (drainFrom E N)
    | .splitOff i => forking (splitOff E N i)
    | .clone => do return some (← clone E N dp cl)
  bin
    | .append => both (append E N)
    | .drainFromFront n => both (drainFromFront E N n)
    | .drainFromBack n => both (drainFromBack E N n)
  dtor := drop E N dp
  born
    | .clone, c => Spec.bornOf cl (peek E N c)
    | _, _ => []

/-- The same table over plain lists bounded by `N`. -/
def specMachine : Machine A (List A) (Ctor A) (Un A) Fork Bin where
  ctor
    | .new => pure []
    | .unit v => making dp [v] (Spec.unit N v)
    | .pair v w => making dp [w, v] (Spec.pair N v w)
    | .collectFrom n it => borrowing it (Spec.collectFrom N dp n)
    | .fromIter it => Spec.fromIter N dp it
  un
    | .len => ask Spec.len .nat
    | .isEmpty => ask Spec.isEmpty .bool
    | .isFull => ask (Spec.isFull N) .bool
    | .asSlice => ask Spec.items .refs
    | .index i => ask (Spec.index i) .ref
    | .pushFront v => giving dp [v] (Spec.pushFront N v) (fun _ => .unit)
    | .pushBack v => giving dp [v] (Spec.pushBack N v) (fun _ => .unit)
    | .popFront => ask Spec.popFront .val
    | .popBack => ask Spec.popBack .val
    | .dropLeft i => logged (Spec.dropLeft dp i)
    | .dropRight i => logged (Spec.dropRight dp i)
    | .clear => logged (Spec.clear dp)
    | .set i v => giving dp [v] (Spec.set i v) .val
    | .insert i v => giving dp [v] (Spec.insert N i v) (fun _ => .unit)
    | .insertOrdered search v => giving dp [v] (Spec.insertOrdered N search v) (fun _ => .unit)
    | .insertFrom i n it =>
      guarded (fun _ => decide (E.debug = true ∨ N + n < E.W)) .skipped (logged (Spec.insertFrom N dp i n it))
    | .remove i => ask (Spec.remove i) .val
    | .extend it => logged (Spec.extend N dp it)
    | .next => ask Spec.popFront? .opt
    | .nextBack => ask Spec.popBack? .opt
    | .sizeHint => ask Spec.sizeHint (fun r => .hint r.1 r.2)
    | .mutate f => ask (Spec.mutate f) (fun _ => .unit)
    | .write buf => ask (Spec.write N buf) (fun n => .read n (buf.drop n))
    | .read n => ask (Spec.read n) (fun r => .read r.1 r.2)
  fork
    | .fromFront n => guarded (fun l => decide (E.debug = true ∨ n ≤ l.length)) none (forking (Spec.fromFront n))
    | .fromBack n => guarded (fun l => decide (E.debug = true ∨ n ≤ l.length)) none (forking (Spec.fromBack n))
    | .drainFrom => forking Spec.drainFrom
    | .splitOff i => forking (Spec.splitOff i)
    | .clone => do return some (← Spec.clone dp cl)
  bin
    | .append => both (Spec.append N)
    | .drainFromFront n => both (Spec.drainFromFront N n)
    | .drainFromBack n => both (Spec.drainFromBack N n)
  dtor := Spec.drop dp
  born
    | .clone, l => Spec.bornOf cl l
    | _, _ => []

variable {E N dp cl}

theorem unit_ref (v : A) : RefV (Rep N) Eq (unit N v ()) (Spec.unit N v ()) := by
  unfold unit Spec.unit RefV
  by_cases h : 1 ≤ N
  · vc
    rw [if_pos h]
    exact ⟨_, _, rfl, by rep, rfl⟩
  · vc
    rw [if_neg h]; exact ⟨_, rfl, rfl⟩

theorem pair_ref (v w : A) : RefV (Rep N) Eq (pair N v w ()) (Spec.pair N v w ()) := by
  unfold pair Spec.pair RefV
  by_cases h : 2 ≤ N
  · vc
    rw [if_pos h]
    exact ⟨_, _, rfl, by rep, rfl⟩
  · vc
    rw [if_neg h]; exact ⟨_, rfl, rfl⟩

theorem peek_eq {c : Chunk A} {l : List A} (h : Rep N c l) : peek E N c = l := by
  simp [peek, asSlice_eq h]

theorem ctorRel (hN' : N < E.W) (k : Ctor A) (log : List A) :
    RefV (Rep N) Eq ((machine E N dp cl).ctor k log) ((specMachine E N dp cl).ctor k log) := by
  cases k with
  | new => exact ⟨_, _, rfl, Rep.new, rfl⟩
  | unit v => exact making_ref (unit_ref v)
  | pair v w => exact making_ref (pair_ref v w)
  | collectFrom n it => exact borrowing_ref (collectFrom_ref hN' dp n it log)
  | fromIter it => exact fromIter_ref hN' dp it log

/-- A call that works with every capacity: the announced length of `insert_from` does not overflow. -/
def Un.wide (E : Env) (N : Nat) : Un A → Prop
  | .insertFrom _ n _ => 2 * N < E.W ∨ N + n < E.W
  | _ => True

theorem unRel (hN' : N < E.W) (k : Un A) (hk : k.wide E N) {c : Chunk A} {d : List A} (log : List A) (h : Rep N c d) :
    Ref (RelLog (Rep N)) ((machine E N dp cl).un k (c, log)) ((specMachine E N dp cl).un k (d, log)) := by
  cases k with
  | len => exact ask_ref (Ref.of_eq (len_eq h) rfl h)
  | isEmpty => exact ask_ref (Ref.of_eq (isEmpty_eq h) rfl h)
  | isFull => exact ask_ref (Ref.of_eq (isFull_eq h) rfl h)
  | asSlice => exact ask_ref (Ref.of_eq (asSlice_eq h) rfl h)
  | index i => exact ask_ref (index_ref h i)
  | pushFront v => exact giving_ref (pushFront_ref h v)
  | pushBack v => exact giving_ref (pushBack_ref hN' h v)
  | popFront => exact ask_ref (popFront_ref hN' h)
  | popBack => exact ask_ref (popBack_ref h)
  | dropLeft i => exact logged_ref (dropLeft_ref hN' dp i h log)
  | dropRight i => exact logged_ref (dropRight_ref hN' dp i h log)
  | clear => exact logged_ref (clear_ref dp h log)
  | set i v => exact giving_ref (set_ref h i v)
  | insert i v => exact giving_ref (insert_ref hN' h i v)
  | insertOrdered f v => exact giving_ref (insertOrdered_ref hN' h f v)
  | insertFrom i n it =>
    dsimp only [machine, specMachine]
    refine guarded_ref h rfl ?_
    intro hg
    refine logged_ref (insertFrom_wide hN' dp i n it h log ?_)
    simp only [decide_eq_true_eq] at hg
    rcases hk with hk | hk
    · exact hg.imp (fun hd => ⟨hd, hk⟩) id
    · exact .inr hk
  | remove i => exact ask_ref (remove_ref hN' h i)
  | extend it => exact logged_ref (extend_ref hN' dp it h log)
  | next => exact ask_ref (iterNext_ref hN' h)
  | nextBack => exact ask_ref (iterNextBack_ref h)
  | sizeHint => exact ask_ref (Ref.of_eq (sizeHint_eq h) rfl h)
  | mutate f => exact ask_ref (mutate_ref h f)
  | write buf => exact ask_ref (write_ref hN' buf h)
  | read n => exact ask_ref (read_ref hN' n h)

theorem forkRel (hN' : N < E.W) (k : Fork) {c : Chunk A} {d : List A} (log : List A) (h : Rep N c d) :
    RefV (RelOpt (Rep N)) (RelLog (Rep N)) ((machine E N dp cl).fork k (c, log)) ((specMachine E N dp cl).fork k (d, log)) := by
  cases k with
  | fromFront n =>
    dsimp only [machine, specMachine]
    refine guarded_refV h (by simp [peek_eq h]) ?_
    intro hg
    exact forking_ref (fromFront_ref hN' h n (by simpa using hg))
  | fromBack n =>
    dsimp only [machine, specMachine]
    refine guarded_refV h (by simp [peek_eq h]) ?_
    intro hg
    exact forking_ref (fromBack_ref h n (by simpa using hg))
  | drainFrom => exact forking_ref (drainFrom_ref hN' h)
  | splitOff i => exact forking_ref (splitOff_ref hN' h i)
  | clone =>
    have h2 := clone_ref hN' dp cl h log
    simp only [machine, specMachine, M.bind_run, M.pure_run]
    cases hx : clone E N dp cl (c, log) <;> rw [hx] at h2 <;> simp only [RefV, Sat] at h2
    · obtain ⟨b, t, e, h3, h4⟩ := h2; rw [e]; exact ⟨_, _, rfl, h3.1, h4.2⟩
    · obtain ⟨t, e, h3⟩ := h2; rw [e]; exact ⟨_, rfl, h3.2⟩
    · rw [h2]; simp [RefV, Sat]

theorem machineRel (hN : 2 * N < E.W) : MachineRel (Rep N) (machine E N dp cl) (specMachine E N dp cl) where
  ctor k log := ctorRel (by omega) k log
  un k c d log h := unRel (by omega) k (by cases k <;> first | trivial | exact .inl hN) log h
  fork k c d log h := forkRel (by omega) k log h
  bin k c d c' d' log h h' := by
    cases k with
    | append => exact both_ref (append_ref hN h h')
    | drainFromFront n => exact both_ref (drainFromFront_ref hN h h' n)
    | drainFromBack n => exact both_ref (drainFromBack_ref hN h h' n)
  dtor c d log h := drop_ref dp h log
  born k c d h := by
    cases k <;> simp [machine, specMachine, peek_eq h]


theorem specTotal (hd : ∀ a, dp a = false) : (specMachine E N dp cl).Total where
  ctor k log := by
    cases k with
    | new => trivial
    | unit v => exact making_total hd (by unfold Spec.unit; split <;> trivial)
    | pair v w => exact making_total hd (by unfold Spec.pair; split <;> trivial)
    | collectFrom n it => exact borrowing_total (Spec.collectFrom_total hd N n _)
    | fromIter it => exact Spec.fromIter_total hd N it log
  un k s := by
    cases k with
    | len => trivial
    | isEmpty => trivial
    | isFull => trivial
    | asSlice => trivial
    | index i => exact ask_total (by unfold Spec.index; split <;> trivial)
    | pushFront v => exact giving_total hd (by unfold Spec.pushFront; split <;> trivial)
    | pushBack v => exact giving_total hd (by unfold Spec.pushBack; split <;> trivial)
    | popFront => exact ask_total (by unfold Spec.popFront; split <;> trivial)
    | popBack => exact ask_total (by unfold Spec.popBack; split <;> trivial)
    | dropLeft i =>
      refine logged_total ?_
      unfold Spec.dropLeft; split
      · rw [Spec.dropping_total hd]; trivial
      · trivial
    | dropRight i =>
      refine logged_total ?_
      unfold Spec.dropRight; split
      · rw [Spec.dropping_total hd]; trivial
      · trivial
    | clear =>
      refine logged_total ?_
      unfold Spec.clear; rw [Spec.dropping_total hd]; trivial
    | set i v => exact giving_total hd (by unfold Spec.set; split <;> trivial)
    | insert i v => exact giving_total hd (by unfold Spec.insert; split <;> trivial)
    | insertOrdered f v =>
      refine giving_total hd ?_
      unfold Spec.insertOrdered Spec.insert
      repeat' split
      all_goals trivial
    | insertFrom i n it => dsimp only [specMachine]; exact guarded_total (logged_total (Spec.insertFrom_total hd N i n it s))
    | remove i => exact ask_total (by unfold Spec.remove; split <;> trivial)
    | extend it => exact logged_total (Spec.extend_total hd N it s)
    | next => trivial
    | nextBack => trivial
    | sizeHint => trivial
    | mutate f => trivial
    | write buf => trivial
    | read n => trivial
  fork k s := by
    cases k with
    | fromFront n => dsimp only [specMachine]; exact guarded_total (forking_total (by unfold Spec.fromFront; split <;> trivial))
    | fromBack n => dsimp only [specMachine]; exact guarded_total (forking_total (by unfold Spec.fromBack; split <;> trivial))
    | drainFrom => trivial
    | splitOff i => exact forking_total (by unfold Spec.splitOff; split <;> trivial)
    | clone =>
      have := Spec.clone_total hd cl s
      simp only [specMachine, M.bind_run, M.pure_run]
      cases hx : Spec.clone dp cl s <;> simp_all [Runs, Sat]
  bin k s := by
    cases k with
    | append => exact both_total (by unfold Spec.append; split <;> trivial)
    | drainFromFront n => exact both_total (by unfold Spec.drainFromFront; split <;> trivial)
    | drainFromBack n => exact both_total (by unfold Spec.drainFromBack; split <;> trivial)
  dtor s := by
    simp only [specMachine, Spec.drop]; rw [Spec.dropping_total hd]; trivial

end Chunk
end Verif
