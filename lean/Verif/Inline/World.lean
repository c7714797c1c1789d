import Verif.Driver
import Verif.Inline.Lemmas2
/-
Histories of `InlineArray` calls: the table of operations over the byte-level model of the code (`machine`) and over plain
lists (`specMachine`), and the refinement between them.
-/
namespace Verif
namespace Inline
variable {A : Type}

/-- Constructors of `InlineArray` (src/inline_array/mod.rs:260-291, 415-419, 540-551); the new array is placed at `k` times its
alignment. -/
inductive Ctor (A : Type) where
  | new (k : Nat)
  | fromIter (k : Nat) (it : It A)

/-- Calls on one array (src/inline_array/mod.rs:231-250, 298-364, 396-401, 442-453, 575-601; src/inline_array/iter.rs).  `next`,
`nextBack` and `sizeHint` are those of `IntoIter` and `Drain`; `moveTo k` moves the array to `k` times its alignment. -/
inductive Un (A : Type) where
  | len | isEmpty | isFull | items
  | index (i : Nat) | get (i : Nat)
  | push (v : A) | pop
  | insert (i : Nat) (v : A)
  | remove (i : Nat)
  | set (i : Nat) (v : A)
  | clear
  | extend (it : It A)
  | next | nextBack | sizeHint
  | mutate (f : List A → List A)
  | moveTo (k : Nat)

/-- Calls producing another array (src/inline_array/mod.rs:373-386, 424-440), placed at `k` times the alignment. -/
inductive Fork where
  | splitOff (k i : Nat) | clone (k : Nat)

variable (E : Env) (L : Layout A) (dp : A → Bool) (cl : A → Option A)

section
variable [DecidableEq A]
/-- The items seen through `deref`. -/
def peek (s : Inline A) : List A := match items E L s with
  | .ok l _ => l
  | _ => []

/-- The table of calls over the model of src/inline_array/mod.rs and iter.rs. -/
def machine : Machine A (Inline A) (Ctor A) (Un A) Fork Empty where
  ctor
    | .new k => make (new E L k)
    | .fromIter k it => fromIter E L dp k it
  un
    | .len => ask (len E L) .nat
    | .isEmpty => ask (isEmpty E L) .bool
    | .isFull => ask (isFull E L) .bool
    | .items => ask (items E L) .refs
    | .index i => ask (index E L i) .ref
    | .get i => ask (get E L i) .optRef
    | .push v => giving dp [v] (push E L v) (fun _ => .unit)
    | .pop => ask (pop E L) .opt
    | .insert i v => giving dp [v] (insert E L i v) (fun _ => .unit)
    | .remove i => ask (remove E L i) .opt
    | .set i v => giving dp [v] (set E L i v) .val
    | .clear => logged (clear E L dp)
    | .extend it => logged (extend E L dp it)
    | .next => ask (iterNext E L) .opt
    | .nextBack => ask (iterNextBack E L) .opt
    | .sizeHint => ask (sizeHint E L) (fun r => .hint r.1 r.2)
    | .mutate f => ask (mutate E L f) (fun _ => .unit)
    | .moveTo k => ask (moveTo L k) (fun _ => .unit)
  fork
    | .splitOff k i => forking (splitOff E L k i)
    | .clone k => do return some (← clone E L dp cl k)
  bin e := e.elim
  dtor := drop E L dp
  born
    | .clone _, s => Spec.bornOf cl (peek E L s)
    | _, _ => []
end

/-- The same table over plain lists bounded by `N`; `ok` says whether arrays of this type can be made at all.  Where the array is in memory
makes no difference. -/
def specMachine (ok : Prop) [Decidable ok] (N : Nat) : Machine A (List A) (Ctor A) (Un A) Fork Empty where
  ctor
    | .new _ => fun log => if ok then .ok [] log else .panic log
    | .fromIter _ it => specFromIter ok N dp it
  un
    | .len => ask Spec.len .nat
    | .isEmpty => ask Spec.isEmpty .bool
    | .isFull => ask (Spec.isFull N) .bool
    | .items => ask Spec.items .refs
    | .index i => ask (Spec.index i) .ref
    | .get i => ask (Spec.get i) .optRef
    | .push v => giving dp [v] (Spec.pushBack N v) (fun _ => .unit)
    | .pop => ask Spec.popBack? .opt
    | .insert i v => giving dp [v] (Spec.insert N i v) (fun _ => .unit)
    | .remove i => ask (Spec.remove? i) .opt
    | .set i v => giving dp [v] (Spec.set i v) .val
    | .clear => logged (Spec.clear dp)
    | .extend it => logged (Spec.extend N dp it)
    | .next => ask Spec.popFront? .opt
    | .nextBack => ask Spec.popBack? .opt
    | .sizeHint => ask Spec.sizeHint (fun r => .hint r.1 r.2)
    | .mutate f => ask (Spec.mutate f) (fun _ => .unit)
    | .moveTo _ => ask (pure () : M (List A) Unit) (fun _ => .unit)
  fork
    | .splitOff _ i => forking (Spec.splitOff i)
    | .clone _ => do return some (← Spec.cloneLeaky cl)
  bin e := e.elim
  dtor := Spec.drop dp
  born
    | .clone _, l => Spec.bornOf cl l
    | _, _ => []

variable {E L dp cl} [DecidableEq A]

theorem peek_eq (hv : L.Valid E) {s : Inline A} {l : List A} (h : Rep E L s l) : peek E L s = l := by
  simp [peek, items_eq hv h]

theorem machineRel (hv : L.Valid E) : MachineRel (Rep E L) (machine E L dp cl) (specMachine dp cl (Accepted E L) (cap E L)) where
  ctor k log := by
    cases k with
    | new k =>
      have := new_ref hv k
      simp only [machine, specMachine, make]
      by_cases ha : Accepted E L
      · obtain ⟨s, h1, h2⟩ := new_ok hv ha k
        rw [h1, if_pos ha]
        exact ⟨_, _, rfl, h2, rfl⟩
      · rw [new_panic ha k, if_neg ha]
        exact ⟨_, rfl, rfl⟩
    | fromIter k it => exact fromIter_ref hv dp k it log
  un k c d log h := by
    cases k with
    | len => exact ask_ref (Ref.of_eq (len_eq hv h) rfl h)
    | isEmpty => exact ask_ref (Ref.of_eq (isEmpty_eq hv h) rfl h)
    | isFull => exact ask_ref (Ref.of_eq (isFull_eq hv h) rfl h)
    | items => exact ask_ref (Ref.of_eq (items_eq hv h) rfl h)
    | index i => exact ask_ref (index_ref hv h i)
    | get i => exact ask_ref (Ref.of_eq (get_eq hv h i) rfl h)
    | push v => exact giving_ref (push_ref hv h v)
    | pop => exact ask_ref (pop_ref hv h)
    | insert i v => exact giving_ref (insert_ref hv h i v)
    | remove i => exact ask_ref (remove_ref hv h i)
    | set i v => exact giving_ref (set_ref hv h i v)
    | clear => exact logged_ref (clear_ref hv h dp log)
    | extend it => exact logged_ref (extend_ref hv h dp it log)
    | next => exact ask_ref (iterNext_ref hv h)
    | nextBack => exact ask_ref (iterNextBack_ref hv h)
    | sizeHint => exact ask_ref (Ref.of_eq (sizeHint_eq hv h) rfl h)
    | mutate f => exact ask_ref (mutate_ref hv h f)
    | moveTo k => exact ask_ref (moveTo_ref h k)
  fork k c d log h := by
    cases k with
    | splitOff k i => exact forking_ref (splitOff_ref hv h k i)
    | clone k =>
      have h2 := clone_ref hv dp cl k h log
      simp only [machine, specMachine, M.bind_run, M.pure_run]
      cases hx : clone E L dp cl k (c, log) <;> rw [hx] at h2 <;> simp only [RefV, Sat] at h2
      · obtain ⟨b, t, e, h3, h4⟩ := h2; rw [e]; exact ⟨_, _, rfl, h3, h4⟩
      · obtain ⟨t, e, h3⟩ := h2; rw [e]; exact ⟨_, rfl, h3⟩
      · rw [h2]; simp [RefV, Sat]
  bin k := k.elim
  dtor c d log h := drop_ref hv h dp log
  born k c d h := by
    cases k <;> simp [machine, specMachine, peek_eq hv h]

omit [DecidableEq A] in
theorem specTotal (hd : ∀ a, dp a = false) (ok : Prop) [Decidable ok] (N : Nat) : (specMachine dp cl ok N).Total where
  ctor k log := by
    cases k with
    | new k =>
      simp only [specMachine]; split <;> trivial
    | fromIter k it =>
      simp only [specMachine, specFromIter, any_total hd]
      split
      · exact Spec.fromIter_total hd N it log
      · trivial
  un k s := by
    cases k with
    | len => trivial
    | isEmpty => trivial
    | isFull => trivial
    | items => trivial
    | index i => exact ask_total (by unfold Spec.index; split <;> trivial)
    | get i => trivial
    | push v => exact giving_total hd (by unfold Spec.pushBack; split <;> trivial)
    | pop => trivial
    | insert i v => exact giving_total hd (by unfold Spec.insert; split <;> trivial)
    | remove i => trivial
    | set i v => exact giving_total hd (by unfold Spec.set; split <;> trivial)
    | clear =>
      refine logged_total ?_
      unfold Spec.clear; rw [Spec.dropping_total hd]; trivial
    | extend it => exact logged_total (Spec.extend_total hd N it s)
    | next => trivial
    | nextBack => trivial
    | sizeHint => trivial
    | mutate f => trivial
    | moveTo k => trivial
  fork k s := by
    cases k with
    | splitOff k i => exact forking_total (by unfold Spec.splitOff; split <;> trivial)
    | clone k =>
      simp only [specMachine, M.bind_run, M.pure_run, Spec.cloneLeaky]
      split <;> trivial
  bin k := k.elim
  dtor s := by
    simp only [specMachine, Spec.drop]; rw [Spec.dropping_total hd]; trivial

end Inline
end Verif
