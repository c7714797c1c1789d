import Verif.Driver
import Verif.Ring.Lemmas5
/-
Histories of `RingBuffer` calls: the table of operations over the model of the code (`machine`) and over plain lists
(`specMachine`), and the refinement between them.
-/
namespace Verif
namespace Ring
variable {A : Type}

/-- Constructors of `RingBuffer` (src/ring_buffer/mod.rs:225-264, 283-292, 764-766, 941-945). -/
inductive Ctor (A : Type) where
  | new
  | unit (v : A)
  | pair (v w : A)
  | collectFrom (n : Nat) (it : It A)
  | fromIter (it : It A)

/-- Calls on a slice (src/ring_buffer/slice.rs); `replace` is `mem::replace` through `get_mut`, `set` through `IndexMut`,
`mutate` any writing through `iter_mut`. -/
inductive SliceOp (A : Type) where
  | len | items
  | get (i : Nat) | index (i : Nat)
  | replace (i : Nat) (v : A) | set (i : Nat) (v : A)
  | mutate (f : List A → List A)

/-- Calls on one buffer (src/ring_buffer/mod.rs:81-107, 319-342, 366-494, 582-758, 789-812, 874-878, 908-936;
src/ring_buffer/iter.rs; src/ring_buffer/slice.rs).  `search` is the result of `binary_search`; `replace` is `mem::replace` through
`get_mut`, `set` through `IndexMut`; `mutate` any writing through `iter_mut`; `next`/`nextBack`/`sizeHint` are those of `Drain`
and `OwnedIter`; `insertFrom i n it` an iterator whose `len()` is `n` and whose `next()` calls do `it`; `slice lo hi cuts k`
makes a slice, narrows it by `cuts` and calls `k` on it. -/
inductive Un (A : Type) where
  | len | isEmpty | isFull | items
  | get (i : Nat) | index (i : Nat)
  | replace (i : Nat) (v : A) | set (i : Nat) (v : A)
  | pushFront (v : A) | pushBack (v : A)
  | popFront | popBack
  | dropLeft (i : Nat) | dropRight (i : Nat) | clear
  | insert (i : Nat) (v : A)
  | insertOrdered (search : List A → A → Option (Except Nat Nat)) (v : A)
  | insertFrom (i n : Nat) (it : It A)
  | remove (i : Nat)
  | extend (it : It A)
  | next | nextBack | sizeHint
  | mutate (f : List A → List A)
  | write (buf : List A)
  | read (n : Nat)
  | slice (lo hi : Bound) (cuts : List Cut) (k : SliceOp A)

/-- Calls producing another buffer (src/ring_buffer/mod.rs:272-274, 299-314, 504-517, 770-782; slice.rs:128-133, 410-415). -/
inductive Fork where
  | fromFront (n : Nat) | fromBack (n : Nat) | drainFrom | splitOff (i : Nat) | clone
  | toOwned (lo hi : Bound) (cuts : List Cut)

/-- Calls on two buffers (src/ring_buffer/mod.rs:527-574). -/
inductive Bin where
  | append | drainFromFront (n : Nat) | drainFromBack (n : Nat)

variable (E : Env) (N : Nat) (dp : A → Bool) (cl : A → Option A)

/-- The items seen through `iter` (used by the client to guard a call). -/
def peek (c : Ring A) : List A := match items E N c with
  | .ok l _ => l
  | _ => []

/-- Is `i` a position inside the slice (if the slice can be made at all)? -/
def inside (lo hi : Bound) (cuts : List Cut) (i : Nat) (l : List A) : Bool :=
  match Spec.window lo hi cuts l.length with
  | none => true
  | some w => decide (i < w.2 - w.1)

/-- The table of calls on a slice of the buffer. The client only indexes inside the slice (see C39). -/
def sliceCall (lo hi : Bound) (cuts : List Cut) : SliceOp A → M (Ring A × List A) (Res A)
  | .len => ask (do sliceLen E (← sliceVia E lo hi cuts)) .nat
  | .items => ask (do sliceItems E N (← sliceVia E lo hi cuts)) .refs
  | .get i => ask (do sliceGet E N (← sliceVia E lo hi cuts) i) .optRef
  | .index i =>
    guarded (fun c => inside lo hi cuts i (peek E N c)) .skipped (ask (do sliceIndex E N (← sliceVia E lo hi cuts) i) .ref)
  | .replace i v => giving dp [v] (do sliceReplace E N (← sliceVia E lo hi cuts) i v) .val
  | .set i v =>
    guarded (fun c => inside lo hi cuts i (peek E N c)) .skipped
      (giving dp [v] (do sliceSetIndex E N (← sliceVia E lo hi cuts) i v) .val)
  | .mutate f => ask (do sliceMutate E N (← sliceVia E lo hi cuts) f) (fun _ => .unit)

/-- Make a slice, narrow it and clone its items into a new buffer (slice.rs:128-133, 410-415 `to_owned`). -/
def toOwned (lo hi : Bound) (cuts : List Cut) : M (Ring A × List A) (Ring A) := do
  sliceToOwned E N dp cl (← M.onFst (sliceVia E lo hi cuts))

/-- The table of calls over the model of src/ring_buffer.  The client does not call `insert_from` with a length overflowing
`usize` in a release build, `write` in a debug build (see C41), nor slice with `..=usize::MAX` in a release build (see C40). -/
def machine : Machine A (Ring A) (Ctor A) (Un A) Fork Bin where
  ctor
    | .new => new E N
    | .unit v => making dp [v] (unit E N v)
    | .pair v w => making dp [w, v] (pair E N v w)
    | .collectFrom n it => borrowing it (collectFrom E N dp n)
    | .fromIter it => fromIter E N dp it
  un
    | .len => ask getLen .nat
    | .isEmpty => ask isEmpty .bool
    | .isFull => ask (isFull N) .bool
    | .items => ask (items E N) .refs
    | .get i => ask (get E N i) .optRef
    | .index i => ask (index E N i) .ref
    | .replace i v => giving dp [v] (replaceGet E N i v) .val
    | .set i v => giving dp [v] (setIndex E N i v) .val
    | .pushFront v => giving dp [v] (pushFront E N v) (fun _ => .unit)
    | .pushBack v => giving dp [v] (pushBack E N v) (fun _ => .unit)
    | .popFront => ask (popFront E N) .opt
    | .popBack => ask (popBack E N) .opt
    | .dropLeft i => logged (dropLeft E N dp i)
    | .dropRight i => logged (dropRight E N dp i)
    | .clear => logged (clear E N dp)
    | .insert i v => giving dp [v] (insert E N i v) (fun _ => .unit)
    | .insertOrdered search v => giving dp [v] (insertOrdered E N search v) (fun _ => .unit)
    | .insertFrom i n it =>
      guarded (fun _ => decide (E.debug = true ∨ N + n < E.W)) .skipped (logged (insertFrom E N dp i n it))
    | .remove i => ask (remove E N i) .val
    | .extend it => logged (extend E N dp it)
    | .next => ask (popFront E N) .opt
    | .nextBack => ask (popBack E N) .opt
    | .sizeHint => ask sizeHint (fun r => .hint r.1 r.2)
    | .mutate f => ask (mutate E N f) (fun _ => .unit)
    | .write buf =>
      guarded (fun _ => decide (E.debug = false)) .skipped (ask (write E N buf) (fun n => .read n (buf.drop n)))
    | .read n => ask (read E N n) (fun r => .read r.1 r.2)
    | .slice lo hi cuts k =>
      guarded (fun _ => Bound.regular E lo hi && Cut.regular E cuts) .skipped (sliceCall E N dp lo hi cuts k)
  fork
    | .fromFront n => do return some (← fromFront E N dp n)
    | .fromBack n => do return some (← fromBack E N dp n)
    | .drainFrom => do return some (← drainFrom E N dp)
    | .splitOff i => do return some (← splitOff E N dp i)
    | .clone => do return some (← clone E N dp cl)
    | .toOwned lo hi cuts =>
      guarded (fun _ => Bound.regular E lo hi && Cut.regular E cuts) none
        (do return some (← toOwned E N dp cl lo hi cuts))
  bin
    | .append => both (append E N)
    | .drainFromFront n => both (drainFromFront E N n)
    | .drainFromBack n => both (drainFromBack E N n)
  dtor := drop E N dp
  born
    | .clone, c => Spec.bornOf cl (peek E N c)
    | .toOwned lo hi cuts, c => Spec.bornWithin cl lo hi cuts (peek E N c)
    | _, _ => []

/-- The table of calls on a part of a plain list. -/
def specSliceCall (lo hi : Bound) (cuts : List Cut) : SliceOp A → M (List A × List A) (Res A)
  | .len => ask (Spec.within lo hi cuts Spec.len) .nat
  | .items => ask (Spec.within lo hi cuts Spec.items) .refs
  | .get i => ask (Spec.within lo hi cuts (Spec.get i)) .optRef
  | .index i => guarded (fun l => inside lo hi cuts i l) .skipped (ask (Spec.within lo hi cuts (Spec.index i)) .ref)
  | .replace i v => giving dp [v] (Spec.within lo hi cuts (Spec.replaceGet i v)) .val
  | .set i v => guarded (fun l => inside lo hi cuts i l) .skipped (giving dp [v] (Spec.within lo hi cuts (Spec.set i v)) .val)
  | .mutate f => ask (Spec.within lo hi cuts (Spec.mutate f)) (fun _ => .unit)

/-- The same table over plain lists bounded by `N`. -/
def specMachine : Machine A (List A) (Ctor A) (Un A) Fork Bin where
  ctor
    | .new => pure []
    | .unit v => making dp [v] (Spec.unit N v)
    | .pair v w => making dp [w, v] (Spec.pair N v w)
    | .collectFrom n it => borrowing it (Spec.collectFrom N dp n)
    | .fromIter it => Spec.fromIter N dp it
  un
    | .len => ask Spec.len .nat
    | .isEmpty => ask Spec.isEmpty .bool
    | .isFull => ask (Spec.isFull N) .bool
    | .items => ask Spec.items .refs
    | .get i => ask (Spec.get i) .optRef
    | .index i => ask (Spec.index i) .ref
    | .replace i v => giving dp [v] (Spec.replaceGet i v) .val
    | .set i v => giving dp [v] (Spec.set i v) .val
    | .pushFront v => giving dp [v] (Spec.pushFront N v) (fun _ => .unit)
    | .pushBack v => giving dp [v] (Spec.pushBack N v) (fun _ => .unit)
    | .popFront => ask Spec.popFront? .opt
    | .popBack => ask Spec.popBack? .opt
    | .dropLeft i => logged (Spec.dropLeftSeq dp i)
    | .dropRight i => logged (Spec.dropRightSeq dp i)
    | .clear => logged (Spec.clearSeq dp)
    | .insert i v => giving dp [v] (Spec.insert N i v) (fun _ => .unit)
    | .insertOrdered search v => giving dp [v] (Spec.insertOrdered N search v) (fun _ => .unit)
    | .insertFrom i n it =>
      guarded (fun _ => decide (E.debug = true ∨ N + n < E.W)) .skipped (logged (Spec.insertFromOrExtend N dp i n it))
    | .remove i => ask (Spec.remove i) .val
    | .extend it => logged (Spec.extend N dp it)
    | .next => ask Spec.popFront? .opt
    | .nextBack => ask Spec.popBack? .opt
    | .sizeHint => ask Spec.sizeHint (fun r => .hint r.1 r.2)
    | .mutate f => ask (Spec.mutate f) (fun _ => .unit)
    | .write buf =>
      guarded (fun _ => decide (E.debug = false)) .skipped (ask (Spec.write N buf) (fun n => .read n (buf.drop n)))
    | .read n => ask (Spec.read n) (fun r => .read r.1 r.2)
    | .slice lo hi cuts k =>
      guarded (fun _ => Bound.regular E lo hi && Cut.regular E cuts) .skipped (specSliceCall dp lo hi cuts k)
  fork
    | .fromFront n => forking (Spec.fromFront n)
    | .fromBack n => forking (Spec.fromBack n)
    | .drainFrom => forking Spec.drainFrom
    | .splitOff i => forking (Spec.splitOff i)
    | .clone => do return some (← Spec.clone dp cl)
    | .toOwned lo hi cuts =>
      guarded (fun _ => Bound.regular E lo hi && Cut.regular E cuts) none (do return some (← Spec.cloneWithin dp cl lo hi cuts))
  bin
    | .append => both (Spec.append N)
    | .drainFromFront n => both (Spec.drainFromFront N n)
    | .drainFromBack n => both (Spec.drainFromBack N n)
  dtor := Spec.dropSeq dp
  born
    | .clone, l => Spec.bornOf cl l
    | .toOwned lo hi cuts, l => Spec.bornWithin cl lo hi cuts l
    | _, _ => []

variable {E N dp cl}

theorem unit_ref (v : A) : RefV (Rep N) Eq (unit E N v ()) (Spec.unit N v ()) := by
  unfold unit Spec.unit RefV
  by_cases h : 1 ≤ N
  · vc
    rw [if_pos h]
    refine ⟨_, _, rfl, Rep.mk' h rfl h ?_, rfl⟩
    rw [lm_put_self h]
    intro j hj
    have : j = 0 := by simp at hj; omega
    subst this; simp [Mem.put]
  · vc
    rw [if_neg h]; exact ⟨_, rfl, rfl⟩

theorem pair_ref (v w : A) : RefV (Rep N) Eq (pair E N v w ()) (Spec.pair N v w ()) := by
  unfold pair Spec.pair RefV
  by_cases h : 2 ≤ N
  · vc
    rw [if_pos h]
    refine ⟨_, _, rfl, Rep.mk' (by omega) rfl h ?_, rfl⟩
    have e : ridx N 0 1 = 1 := by unfold ridx; rw [if_pos (by omega)]
    have := lm_put (N := N) (o := 0) (k := 1) (m := (Mem.uninit : Mem A).put 0 v) (v := w) (by omega)
    rw [e] at this
    rw [this, lm_put_self (by omega)]
    intro j hj
    simp only [List.length_cons, List.length_nil] at hj
    obtain rfl | rfl : j = 0 ∨ j = 1 := by omega
    · simp [Mem.put]
    · simp [Mem.put]
  · vc
    rw [if_neg h]; exact ⟨_, rfl, rfl⟩

theorem peek_eq (hW : 2 * N < E.W) {c : Ring A} {l : List A} (h : Rep N c l) : peek E N c = l := by
  simp [peek, items_eq hW h]

theorem some_ref {x : M (Ring A × List A) (Ring A)} {y : M (List A × List A) (List A)} {c : Ring A} {l log : List A}
    (h : RefV (Rep N) (RelLog (Rep N)) (x (c, log)) (y (l, log))) :
    RefV (RelOpt (Rep N)) (RelLog (Rep N)) ((do return some (← x) : M (Ring A × List A) (Option (Ring A))) (c, log))
      ((do return some (← y) : M (List A × List A) (Option (List A))) (l, log)) := by
  simp only [M.bind_run, M.pure_run]
  cases hx : x (c, log) <;> rw [hx] at h <;> simp only [RefV, Sat] at h
  · obtain ⟨b, t, e, h3, h4⟩ := h; rw [e]; exact ⟨_, _, rfl, h3, h4⟩
  · obtain ⟨t, e, h3⟩ := h; rw [e]; exact ⟨_, rfl, h3⟩
  · rw [h]; simp [RefV, Sat]

theorem sliceCall_ref (hW : 2 * N < E.W) {c : Ring A} {l : List A} (h : Rep N c l) (log : List A) (lo hi : Bound)
    (cuts : List Cut) (hr : Bound.regular E lo hi = true) (hr' : Cut.regular E cuts = true) (k : SliceOp A) :
    Ref (RelLog (Rep N)) (sliceCall E N dp lo hi cuts k (c, log)) (specSliceCall dp lo hi cuts k (l, log)) := by
  cases k with
  | len => exact ask_ref (within_ref hW h lo hi cuts hr hr' _ _ (fun a b h1 h2 _ => sliceLen_ref h h1 h2))
  | items => exact ask_ref (within_ref hW h lo hi cuts hr hr' _ _ (fun a b h1 h2 _ => sliceItems_ref hW h h1 h2))
  | get i => exact ask_ref (within_ref hW h lo hi cuts hr hr' _ _ (fun a b h1 h2 _ => sliceGet_ref hW h h1 h2 i))
  | index i =>
    dsimp only [sliceCall, specSliceCall]
    refine guarded_ref h (by rw [peek_eq hW h]) ?_
    intro hg
    refine ask_ref (within_ref hW h lo hi cuts hr hr' (fun s => sliceIndex E N s i) _ (fun a b h1 h2 hw => sliceIndex_ref hW h h1 h2 i ?_))
    simpa [inside, hw] using hg
  | replace i v => exact giving_ref (within_ref hW h lo hi cuts hr hr' (fun s => sliceReplace E N s i v) _ (fun a b h1 h2 _ => sliceReplace_ref hW h h1 h2 i v))
  | set i v =>
    dsimp only [sliceCall, specSliceCall]
    refine guarded_ref h (by rw [peek_eq hW h]) ?_
    intro hg
    refine giving_ref (within_ref hW h lo hi cuts hr hr' (fun s => sliceSetIndex E N s i v) _ (fun a b h1 h2 hw => sliceSetIndex_ref hW h h1 h2 i ?_ v))
    simpa [inside, hw] using hg
  | mutate f => exact ask_ref (within_ref hW h lo hi cuts hr hr' (fun s => sliceMutate E N s f) _ (fun a b h1 h2 _ => sliceMutate_ref hW h h1 h2 f))

theorem machineRel (hN : 0 < N) (hW : 2 * N < E.W) : MachineRel (Rep N) (machine E N dp cl) (specMachine E N dp cl) where
  ctor k log := by
    cases k with
    | new => exact sat_new hN ⟨_, _, rfl, Rep.empty hN, rfl⟩
    | unit v => exact making_ref (unit_ref v)
    | pair v w => exact making_ref (pair_ref v w)
    | collectFrom n it => exact borrowing_ref (collectFrom_ref hN hW dp n it log)
    | fromIter it => exact fromIter_ref hN hW dp it log
  un k c d log h := by
    cases k with
    | len => exact ask_ref (Ref.of_eq (getLen_eq h) rfl h)
    | isEmpty => exact ask_ref (Ref.of_eq (isEmpty_eq h) rfl h)
    | isFull => exact ask_ref (Ref.of_eq (isFull_eq h) rfl h)
    | items => exact ask_ref (Ref.of_eq (items_eq hW h) rfl h)
    | get i => exact ask_ref (Ref.of_eq (get_eq hW h i) rfl h)
    | index i => exact ask_ref (index_ref hW h i)
    | replace i v => exact giving_ref (replaceGet_ref hW h i v)
    | set i v => exact giving_ref (setIndex_ref hW h i v)
    | pushFront v => exact giving_ref (pushFront_ref hW h v)
    | pushBack v => exact giving_ref (pushBack_ref hW h v)
    | popFront => exact ask_ref (popFront_ref hW h)
    | popBack => exact ask_ref (popBack_ref hW h)
    | dropLeft i => exact logged_ref (dropLeft_ref hW dp i h log)
    | dropRight i => exact logged_ref (dropRight_ref hW dp i h log)
    | clear => exact logged_ref (clear_ref hN hW dp h log)
    | insert i v => exact giving_ref (insert_ref hW h i v)
    | insertOrdered f v => exact giving_ref (insertOrdered_ref hW h f v)
    | insertFrom i n it =>
      dsimp only [machine, specMachine]
      refine guarded_ref h rfl ?_
      intro hg
      exact logged_ref (insertFrom_ref hW dp i n it h log (by simpa using hg))
    | remove i => exact ask_ref (remove_ref hW h i)
    | extend it => exact logged_ref (extend_ref hW dp it h log)
    | next => exact ask_ref (popFront_ref hW h)
    | nextBack => exact ask_ref (popBack_ref hW h)
    | sizeHint => exact ask_ref (Ref.of_eq (sizeHint_eq h) rfl h)
    | mutate f => exact ask_ref (mutate_ref hW h f)
    | write buf =>
      dsimp only [machine, specMachine]
      refine guarded_ref h rfl ?_
      intro hg
      exact ask_ref (write_ref hW (by simpa using hg) buf h)
    | read n => exact ask_ref (read_ref hW n h)
    | slice lo hi cuts k =>
      dsimp only [machine, specMachine]
      refine guarded_ref h rfl ?_
      intro hg
      simp only [Bool.and_eq_true] at hg
      exact sliceCall_ref hW h log lo hi cuts hg.1 hg.2 k
  fork k c d log h := by
    cases k with
    | fromFront n => exact some_ref (fromFront_ref hN hW dp n h log)
    | fromBack n => exact some_ref (fromBack_ref hN hW dp n h log)
    | drainFrom => exact some_ref (drainFrom_ref hN hW dp h log)
    | splitOff i => exact some_ref (splitOff_ref hN hW dp i h log)
    | clone => exact some_ref ((clone_ref hN hW dp cl h log).imp (fun _ _ h => h.1) (fun _ _ h => h.2))
    | toOwned lo hi cuts =>
      dsimp only [machine, specMachine]
      refine guarded_refV h rfl ?_
      intro hg
      simp only [Bool.and_eq_true] at hg
      exact some_ref (toOwned_ref hN hW dp cl h log lo hi cuts hg.1 hg.2)
  bin k c d c' d' log h h' := by
    cases k with
    | append => exact both_ref (append_ref hW h h')
    | drainFromFront n => exact both_ref (drainFromFront_ref hW h h' n)
    | drainFromBack n => exact both_ref (drainFromBack_ref hW h h' n)
  dtor c d log h := drop_ref hW dp h log
  born k c d h := by
    cases k <;> simp [machine, specMachine, peek_eq hW h]

end Ring
end Verif
