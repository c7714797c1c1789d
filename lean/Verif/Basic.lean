import Verif.SimpAttr
/-
Shared modelling vocabulary: the outcome monad, machine arithmetic, uninitialised memory,
destructors and user-supplied iterators.

Nothing in this file is specific to sized-chunks; it fixes the meaning of the Rust features the
crate uses.  It is part of the trusted reading of the source (see DESIGN.md).
-/
namespace Verif

/-- Build environment. `W` is the number of `usize` values (2^64, 2^32, ...); `debug` is true when
the crate is built with debug assertions and overflow checks, false for a release build. -/
structure Env where
  W : Nat
  debug : Bool

/-- Outcome of running a piece of Rust code on a state of type `σ`.
* `ok a s`: returned `a`, state is now `s`
* `panic s`: panicked; `s` is the state that unwinding (and `catch_unwind`) sees
* `abort`: a destructor panicked while already unwinding: the process aborts
* `ub`: undefined behaviour was reached
* `diverge`: an infinite loop -/
inductive Out (σ α : Type) where
  | ok (a : α) (s : σ)
  | panic (s : σ)
  | abort
  | ub
  | diverge

/-- Sequencing of outcomes. -/
def Out.andThen {σ α β : Type} : Out σ α → (α → σ → Out σ β) → Out σ β
  | .ok a s, f => f a s
  | .panic s, _ => .panic s
  | .abort, _ => .abort
  | .ub, _ => .ub
  | .diverge, _ => .diverge

/-- Map the state component of an outcome. -/
def Out.mapState {σ τ α : Type} (f : σ → τ) : Out σ α → Out τ α
  | .ok a s => .ok a (f s)
  | .panic s => .panic (f s)
  | .abort => .abort
  | .ub => .ub
  | .diverge => .diverge

/-- State-passing computations with Rust outcomes. -/
def M (σ α : Type) := σ → Out σ α

namespace M
variable {σ τ α β : Type}

instance : Monad (M σ) where
  pure a := fun s => .ok a s
  bind x f := fun s => (x s).andThen (fun a s' => f a s')

/-- `panic!()`, a failed `assert!`, an `.expect` on `None`, an out-of-range slice index, ... -/
def panic : M σ α := fun s => .panic s
/-- Reaching undefined behaviour. -/
def ub : M σ α := fun _ => .ub
/-- An infinite loop. -/
def diverge : M σ α := fun _ => .diverge
/-- Read the state. -/
def get : M σ σ := fun s => .ok s s
/-- Overwrite the state. -/
def set (s : σ) : M σ Unit := fun _ => .ok () s
/-- `if cond { panic!() }` -/
def panicIf (c : Prop) [Decidable c] : M σ Unit := if c then M.panic else pure ()
/-- `assert!(cond)` -/
def assert (c : Prop) [Decidable c] : M σ Unit := if c then pure () else M.panic
/-- `debug_assert!(cond)`: checked only when `E.debug`. -/
def debugAssert (E : Env) (c : Prop) [Decidable c] : M σ Unit :=
  if E.debug = true then M.assert c else pure ()
/-- Run a computation on the first component. -/
def onFst (x : M σ α) : M (σ × τ) α := fun s => (x s.1).mapState (fun a => (a, s.2))
/-- Run a computation on the second component. -/
def onSnd (x : M τ α) : M (σ × τ) α := fun s => (x s.2).mapState (fun b => (s.1, b))
/-- Run `body` with a local variable, initially `t`, owned by the running function; the second component of
the state is the drop log.  If the body panics, unwinding runs the local's destructor `dtor` (a
second panic there aborts) and the panic goes on; otherwise the local's final value is moved out. -/
def withLocal {L : Type} (t : τ) (body : M ((τ × σ) × L) α) (dtor : M ((τ × σ) × L) Unit) :
    M (σ × L) (α × τ) := fun s =>
  match body ((t, s.1), s.2) with
  | .ok a s' => .ok (a, s'.1.1) (s'.1.2, s'.2)
  | .panic s' =>
    match dtor s' with
    | .ok _ s'' => .panic (s''.1.2, s''.2)
    | .panic _ => .abort
    | .abort => .abort
    | .ub => .ub
    | .diverge => .diverge
  | .abort => .abort
  | .ub => .ub
  | .diverge => .diverge
/-- Run `x`; if it panics, run the clean-up `cleanup` (destructors of locals / arguments executed by
unwinding) and keep panicking.  A panic inside the clean-up aborts the process. -/
def onUnwind (x : M σ α) (cleanup : M σ Unit) : M σ α := fun s =>
  match x s with
  | .panic s' =>
    match cleanup s' with
    | .ok _ s'' => .panic s''
    | .panic _ => .abort
    | .abort => .abort
    | .ub => .ub
    | .diverge => .diverge
  | o => o
/-- Run a computation on a container and the drop log while other state is carried along. -/
def atFst {C L : Type} (x : M (C × L) α) : M ((C × σ) × L) α := fun s =>
  (x (s.1.1, s.2)).mapState (fun p => ((p.1, s.1.2), p.2))

end M

/-! ### `usize` arithmetic -/

/-- `a + b` on `usize`: overflow panics in debug builds and wraps in release builds. -/
def uadd {σ : Type} (E : Env) (a b : Nat) : M σ Nat :=
  if a + b < E.W then pure (a + b)
  else if E.debug = true then M.panic else pure ((a + b) % E.W)

/-- `a - b` on `usize`: underflow panics in debug builds and wraps in release builds. -/
def usub {σ : Type} (E : Env) (a b : Nat) : M σ Nat :=
  if b ≤ a then pure (a - b)
  else if E.debug = true then M.panic else pure (a + E.W - b)

/-- `a * b` on `usize`. -/
def umul {σ : Type} (E : Env) (a b : Nat) : M σ Nat :=
  if a * b < E.W then pure (a * b)
  else if E.debug = true then M.panic else pure ((a * b) % E.W)

/-! ### `MaybeUninit<[A; N]>` -/

/-- Contents of a `MaybeUninit<[A; N]>`: slot `i` holds `some a` if a value was written there and
`none` if it is uninitialised.  The size `N` is passed separately to every access. Reading a slot
does not clear it: the bits stay in memory. -/
abbrev Mem (A : Type) := Nat → Option A

/-- Uninitialised memory, `MaybeUninit::uninit()`. -/
def Mem.uninit {A : Type} : Mem A := fun _ => none

/-- Overwrite one slot. -/
def Mem.put {A : Type} (m : Mem A) (i : Nat) (v : A) : Mem A := fun j => if j = i then some v else m j

/-- Overwrite consecutive slots. -/
def Mem.putList {A : Type} (m : Mem A) (start : Nat) (l : List A) : Mem A :=
  fun j => if start ≤ j ∧ j < start + l.length then l[j - start]? else m j

/-- Block move with `memmove` semantics from `src` (possibly the same memory) into `dst`. -/
def Mem.blit {A : Type} (src : Mem A) (frm : Nat) (dst : Mem A) (to count : Nat) : Mem A :=
  fun j => if to ≤ j ∧ j < to + count then src (frm + (j - to)) else dst j

/-- The values in slots `start .. start+n`, if all of them are initialised. -/
def Mem.collect {A : Type} (m : Mem A) (start : Nat) : Nat → Option (List A)
  | 0 => some []
  | n + 1 =>
    match m start, Mem.collect m (start + 1) n with
    | some a, some l => some (a :: l)
    | _, _ => none

/-- Typed read (`ptr::read`, or dereferencing a reference) of slot `i`: undefined behaviour if out of
bounds or uninitialised. -/
def memRead {σ A : Type} (N : Nat) (m : Mem A) (i : Nat) : M σ A :=
  if i < N then match m i with
    | some a => pure a
    | none => M.ub
  else M.ub

/-- `ptr::write` to slot `i` (no drop of the old content): undefined behaviour if out of bounds. -/
def memWrite {σ A : Type} (N : Nat) (m : Mem A) (i : Nat) (v : A) : M σ (Mem A) :=
  if i < N then pure (m.put i v) else M.ub

/-- `ptr::copy` / `ptr::copy_nonoverlapping` of `count` slots: an untyped copy, so uninitialised slots
may be copied, but both ranges must be in bounds (of arrays of `Ns` and `Nd` slots). -/
def memCopy {σ A : Type} (Ns : Nat) (src : Mem A) (frm : Nat) (Nd : Nat) (dst : Mem A) (to count : Nat) :
    M σ (Mem A) :=
  if frm + count ≤ Ns ∧ to + count ≤ Nd then pure (src.blit frm dst to count) else M.ub

/-- `from_raw_parts(ptr.add(start), n)` and looking at the resulting `&[A]`: the whole range must be in
bounds and initialised. -/
def memSlice {σ A : Type} (N : Nat) (m : Mem A) (start n : Nat) : M σ (List A) :=
  if start + n ≤ N then
    match m.collect start n with
    | some l => pure l
    | none => M.ub
  else M.ub

/-! ### Destructors -/

/-- Drop one value: its destructor runs (recorded in the log, the second component of the state) and
may then panic. -/
def dropOne {σ A : Type} (dp : A → Bool) (a : A) : M (σ × List A) Unit := fun s =>
  if dp a = true then .panic (s.1, s.2 ++ [a]) else .ok () (s.1, s.2 ++ [a])

/-- `ptr::drop_in_place::<[A]>`: drops every item in order.  If one destructor panics the remaining
ones still run and the panic continues afterwards; if a second one panics the process aborts. -/
def dropSlice {σ A : Type} (dp : A → Bool) (l : List A) : M (σ × List A) Unit := fun s =>
  match l.countP dp with
  | 0 => .ok () (s.1, s.2 ++ l)
  | 1 => .panic (s.1, s.2 ++ l)
  | _ => .abort

/-! ### User-supplied iterators -/

/-- What one call of a user-supplied iterator's `next()` does: yield an item or panic.  (Returning `None`
is the end of the event list.) -/
inductive Ev (A : Type) where
  | item (a : A)
  | panic

/-- A user-supplied iterator: the finite list of what successive `next()` calls do, then `None` forever.
Simplification: infinite iterators are not represented; every loop of the crate over a
user-supplied iterator stops after at most capacity + 1 yields, so an infinite iterator behaves like
a sufficiently long prefix of it. -/
abbrev It (A : Type) := List (Ev A)

/-- The items an iterator would still yield up to its first panic. -/
def It.items {A : Type} : It A → List A
  | .item a :: r => a :: It.items r
  | _ => []

/-- One call of `next()` on the iterator held in the state. -/
def itNext {A : Type} : M (It A) (Option A) := fun it =>
  match it with
  | [] => .ok none []
  | .item a :: r => .ok (some a) r
  | .panic :: r => .panic r

/-- All items still owned by an iterator (dropped when the iterator is dropped). -/
def It.owned {A : Type} : It A → List A
  | [] => []
  | .item a :: r => a :: It.owned r
  | .panic :: r => It.owned r

/-- The honest iterator over a list (`vec.into_iter()`). -/
def It.ofList {A : Type} (l : List A) : It A := l.map Ev.item

/-- A call of `iter.len()`: it returns a number, or panics (`none`). -/
def M.lenCall {σ : Type} : Option Nat → M σ Nat
  | none => M.panic
  | some n => pure n

/-- An `ExactSizeIterator`: what the first and the second call of `len()` return (safe code may
return anything; `none`: the call panics), and the events of `next()`. -/
structure ExactIt (A : Type) where
  len1 : Option Nat
  len2 : Option Nat
  evs : It A

/-- The honest exact-size iterator over a list. -/
def ExactIt.ofList {A : Type} (l : List A) : ExactIt A := ⟨some l.length, some l.length, It.ofList l⟩

/-! ### Ranges -/

/-- One end of a `RangeBounds<usize>` (core::ops::Bound). -/
inductive Bound where
  | unbounded
  | included (i : Nat)
  | excluded (i : Nat)
deriving DecidableEq

/-- A step by which a client narrows a slice: a sub-range, or one of the two halves of `split_at`. -/
inductive Cut where
  | sub (lo hi : Bound)
  | left (i : Nat)
  | right (i : Nat)
deriving DecidableEq

/-- The bound is an actual `usize`. -/
def Bound.usize (E : Env) : Bound → Bool
  | .unbounded => true
  | .included i => decide (i < E.W)
  | .excluded i => decide (i < E.W)

/-- A range of `usize` values which, in a release build, does not end in `..=usize::MAX`. -/
def Bound.regular (E : Env) (lo hi : Bound) : Bool :=
  lo.usize E && hi.usize E && (E.debug || decide (hi ≠ .included (E.W - 1)))

/-- All ranges in the steps are regular. -/
def Cut.regular (E : Env) : List Cut → Bool
  | [] => true
  | .sub lo hi :: r => Bound.regular E lo hi && Cut.regular E r
  | _ :: r => Cut.regular E r

/-! ### Simplification lemmas for running computations -/
section simp
variable {σ τ α β : Type}

@[simp, rs] theorem Out.andThen_ok (a : α) (s : σ) (f : α → σ → Out σ β) : (Out.ok a s).andThen f = f a s := rfl
@[simp, rs] theorem Out.andThen_panic (s : σ) (f : α → σ → Out σ β) : (Out.panic s).andThen f = .panic s := rfl
@[simp, rs] theorem Out.andThen_ub (f : α → σ → Out σ β) : (Out.ub).andThen f = .ub := rfl
@[simp, rs] theorem Out.andThen_abort (f : α → σ → Out σ β) : (Out.abort).andThen f = .abort := rfl
@[simp, rs] theorem Out.andThen_diverge (f : α → σ → Out σ β) : (Out.diverge).andThen f = .diverge := rfl
@[simp, rs] theorem Out.mapState_ok (a : α) (s : σ) (f : σ → τ) : (Out.ok a s).mapState f = .ok a (f s) := rfl
@[simp, rs] theorem Out.mapState_panic (s : σ) (f : σ → τ) :
    (Out.panic s : Out σ α).mapState f = .panic (f s) := rfl
@[simp, rs] theorem Out.mapState_ub (f : σ → τ) : (Out.ub : Out σ α).mapState f = .ub := rfl
@[simp, rs] theorem Out.mapState_abort (f : σ → τ) : (Out.abort : Out σ α).mapState f = .abort := rfl
@[simp, rs] theorem Out.mapState_diverge (f : σ → τ) : (Out.diverge : Out σ α).mapState f = .diverge := rfl

@[simp, rs ↓] theorem M.pure_run (a : α) (s : σ) : (pure a : M σ α) s = .ok a s := rfl
@[simp, rs ↓] theorem M.bind_run (x : M σ α) (f : α → M σ β) (s : σ) :
    (x >>= f) s = (x s).andThen (fun a s' => f a s') := rfl
@[simp, rs] theorem M.panic_run (s : σ) : (M.panic : M σ α) s = .panic s := rfl
@[simp, rs] theorem M.ub_run (s : σ) : (M.ub : M σ α) s = .ub := rfl
@[simp, rs] theorem M.diverge_run (s : σ) : (M.diverge : M σ α) s = .diverge := rfl
@[simp, rs] theorem M.get_run (s : σ) : (M.get : M σ σ) s = .ok s s := rfl
@[simp, rs] theorem M.set_run (s t : σ) : (M.set t : M σ Unit) s = .ok () t := rfl
@[simp, rs ↓] theorem M.onFst_run (x : M σ α) (s : σ × τ) :
    (M.onFst x) s = (x s.1).mapState (fun a => (a, s.2)) := rfl
@[simp, rs ↓] theorem M.onSnd_run (x : M τ α) (s : σ × τ) :
    (M.onSnd x) s = (x s.2).mapState (fun b => (s.1, b)) := rfl
@[simp, rs ↓] theorem M.ite_run (c : Prop) [Decidable c] (x y : M σ α) (s : σ) :
    (if c then x else y) s = if c then x s else y s := by split <;> rfl
@[simp, rs] theorem M.panicIf_run (c : Prop) [Decidable c] (s : σ) :
    (M.panicIf c : M σ Unit) s = if c then .panic s else .ok () s := by
  unfold M.panicIf; split <;> rfl
@[simp, rs] theorem M.assert_run (c : Prop) [Decidable c] (s : σ) :
    (M.assert c : M σ Unit) s = if c then .ok () s else .panic s := by
  unfold M.assert; split <;> rfl

/-- Run the head of a sequence first, without looking into the continuation. -/
theorem Out.andThen_congr {x y : Out σ α} {f : α → σ → Out σ β} (h : x = y) :
    x.andThen f = y.andThen f := by rw [h]
/-- Decide conditions before looking into branches. -/
theorem ite_cond_congr {c d : Prop} [Decidable c] [Decidable d] {a b : α} (h : c = d) :
    (if c then a else b) = (if d then a else b) := by subst h; congr
theorem ite_true_of {c : Prop} [Decidable c] {a b : α} (h : c) : (if c then a else b) = a := if_pos h
theorem ite_false_of {c : Prop} [Decidable c] {a b : α} (h : ¬ c) : (if c then a else b) = b := if_neg h

theorem uadd_ok {E : Env} {a b : Nat} (h : a + b < E.W) (s : σ) : uadd E a b s = .ok (a + b) s := by
  simp [uadd, h]
theorem usub_ok {E : Env} {a b : Nat} (h : b ≤ a) (s : σ) : usub E a b s = .ok (a - b) s := by
  simp [usub, h]
theorem debugAssert_ok {E : Env} {c : Prop} [Decidable c] (h : c) (s : σ) :
    (M.debugAssert E c : M σ Unit) s = .ok () s := by
  unfold M.debugAssert; split <;> simp [h]
theorem memRead_ok {A : Type} {N : Nat} {m : Mem A} {i : Nat} {a : A} (h : i < N) (h2 : m i = some a) (s : σ) :
    memRead N m i s = .ok a s := by simp [memRead, h, h2]
theorem memWrite_ok {A : Type} {N : Nat} {m : Mem A} {i : Nat} {a : A} (h : i < N) (s : σ) :
    memWrite N m i a s = .ok (m.put i a) s := by simp [memWrite, h]
theorem memCopy_ok {A : Type} {Ns Nd : Nat} {m d : Mem A} {f t n : Nat} (h : f + n ≤ Ns) (h2 : t + n ≤ Nd) (s : σ) :
    memCopy Ns m f Nd d t n s = .ok (m.blit f d t n) s := by simp [memCopy, h, h2]

end simp

theorem Mem.collect_eq_some {A : Type} (m : Mem A) (start n : Nat) (l : List A) :
    m.collect start n = some l ↔ l.length = n ∧ ∀ i, i < n → m (start + i) = l[i]? := by
  induction n generalizing start l with
  | zero => simp [Mem.collect, eq_comm]
  | succ n ih =>
    unfold Mem.collect
    constructor
    · intro h
      split at h <;> simp at h
      rename_i a l' h1 h2
      subst h
      obtain ⟨hl, hi⟩ := (ih _ _).1 h2
      refine ⟨by simp [hl], ?_⟩
      intro i hlt
      cases i with
      | zero => simpa using h1
      | succ i => have := hi i (by omega); simp; rw [← this]; congr 1; omega
    · rintro ⟨hl, hi⟩
      cases l with
      | nil => simp at hl
      | cons a l' =>
        have h0 := hi 0 (by omega)
        have h1 := (ih (start+1) l').2 ⟨by simpa using hl, fun i hlt => by
          have := hi (i+1) (by omega); simp at this; rw [← this]; congr 1; omega⟩
        simp at h0
        simp [h0, h1]

end Verif
