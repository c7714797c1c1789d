import Verif.Endless
import Verif.Chunk.Model
import Verif.Ring.Model
import Verif.Sparse.Model
import Verif.Inline.Model
/-
Iterators that are programs.  `It` (Basic.lean) is a list of events and `Stream` (Endless.lean) a sequence of them; here an iterator is
any program with a state of its own, for instance one that drains another container, and the containers' methods are modelled again, calling it.
-/
namespace Verif
variable {A σ τ α : Type}

/-- A computation on the second component and the drop log. -/
def M.atSnd {L : Type} (x : M (τ × L) α) : M ((σ × τ) × L) α := fun s =>
  (x (s.1.2, s.2)).mapState (fun p => ((s.1.1, p.1), p.2))

/-- An iterator: what `len()` and `next()` do to its state (whatever that is), and what dropping it does (`&mut I` and `Drain`:
nothing; an iterator that owns its items destroys those it still has). -/
structure Source (τ A : Type) where
  len : M τ Nat
  next : M τ (Option A)
  drop : M (τ × List A) Unit

namespace Source

/-- `it.next()` inside a method; the state is (container, iterator) and the drop log. -/
def pull (src : Source τ A) : M ((σ × τ) × List A) (Option A) := M.onFst (M.onSnd src.next)
/-- `it.len()` inside a method. -/
def size (src : Source τ A) : M ((σ × τ) × List A) Nat := M.onFst (M.onSnd src.len)
/-- Dropping the iterator inside a method. -/
def close (src : Source τ A) : M ((σ × τ) × List A) Unit := M.atSnd src.drop

/-- `for item in it { push(item) }`, without the drop of the iterator; `fuel` bounds the turns. -/
def pourLoop (src : Source τ A) (push : A → M (σ × List A) Unit) : Nat → M ((σ × τ) × List A) Unit
  | 0 => M.diverge
  | fuel + 1 => do
    match (← src.pull) with
    | none => pure ()
    | some a =>
      M.atFst (push a)
      pourLoop src push fuel

/-- `for item in it { push(item) }`: the iterator is dropped when the loop ends or unwinds. -/
def pour (src : Source τ A) (push : A → M (σ × List A) Unit) (fuel : Nat) : M ((σ × τ) × List A) Unit := do
  M.onUnwind (src.pourLoop push fuel) src.close
  src.close

/-- `let mut c = init; for item in it { push(item) }; c`: the partly filled local is dropped by unwinding. -/
def gather (src : Source τ A) (init : σ) (push : A → M (σ × List A) Unit) (dtor : M (σ × List A) Unit) (fuel : Nat) : M (τ × List A) σ := do
  let r ← M.withLocal init (src.pour push fuel) (M.atFst dtor)
  return r.2

end Source

/-- `ExactSizeIterator::len()` (std's default): the two ends of `size_hint()` must agree. -/
def exactLen (hint : M τ (Nat × Option Nat)) : M τ Nat := do
  let h ← hint
  M.assert (h.2 = some h.1)
  return h.1

namespace Chunk
variable (E : Env) (N : Nat) (src : Source τ A)

/-- src/sized_chunk/mod.rs:907-914 `extend`. -/
def extendBy (dp : A → Bool) (fuel : Nat) : M ((Chunk A × τ) × List A) Unit := src.pour (pushBackOwned E N dp) fuel

/-- src/sized_chunk/mod.rs:873-882 `from_iter`; the state is the iterator and the drop log. -/
def fromIterBy (dp : A → Bool) (fuel : Nat) : M (τ × List A) (Chunk A) := src.gather new (pushBackOwned E N dp) (drop E N dp) fuel

/-- src/sized_chunk/mod.rs:186-192, the loop of `collect_from`. -/
def collectLoopBy (dp : A → Bool) : Nat → M ((Chunk A × τ) × List A) Unit
  | 0 => pure ()
  | count + 1 => do
    match (← src.pull) with
    | none => M.panic
    | some a =>
      M.atFst (pushBackOwned E N dp a)
      collectLoopBy dp count

/-- src/sized_chunk/mod.rs:181-194 `collect_from`; the iterator is borrowed, so it is not dropped. -/
def collectFromBy (dp : A → Bool) (count : Nat) : M (τ × List A) (Chunk A) := do
  let r ← M.withLocal new (collectLoopBy E N src dp count) (M.atFst (drop E N dp))
  return r.2

/-- src/sized_chunk/mod.rs:304-307, the loop of `write_from_iter` (`n` items still to take, write index `w`). -/
def writeLoopBy : Nat → Nat → M ((Chunk A × τ) × List A) Nat
  | 0, w => pure w
  | n + 1, w => do
    match (← src.pull) with
    | none => pure w
    | some value =>
      M.onFst (M.onFst (forceWrite N w value))
      writeLoopBy n (← uadd E w 1)

/-- src/sized_chunk/mod.rs:289-315 `write_from_iter`: the iterator is dropped after the loop, or by unwinding. -/
def writeFromIterBy (writeIndex : Nat) : M ((Chunk A × τ) × List A) Unit := do
  let left ← M.onFst (M.onFst getLeft)
  M.onFst (M.onFst (setLeft 0))
  let right ← M.onFst (M.onFst getRight)
  M.onFst (M.onFst (setRight 0))
  let len ← M.onUnwind src.size src.close
  let expectedEnd ← M.onUnwind (uadd E writeIndex len) src.close
  let w ← M.onUnwind (writeLoopBy E N src len writeIndex) src.close
  src.close
  M.assert (expectedEnd = w)
  M.onFst (M.onFst (setLeft left))
  M.onFst (M.onFst (setRight right))

/-- src/sized_chunk/mod.rs:595-639 `insert_from`.  Simplification, as in `insertFrom`: the arithmetic between the checks and the loop cannot
panic, so no clean-up is attached to it. -/
def insertFromBy (i : Nat) : M ((Chunk A × τ) × List A) Unit := do
  let insertSize ← M.onUnwind src.size src.close
  M.onUnwind (M.onFst (M.onFst (insertFromChecks E N i insertSize))) src.close
  let realIndex ← uadd E i (← M.onFst (M.onFst getLeft))
  let leftSize := i
  let rightSize ← usub E (← M.onFst (M.onFst getRight)) realIndex
  if (← M.onFst (M.onFst getRight)) = N ∨ ((← M.onFst (M.onFst getLeft)) ≥ insertSize ∧ leftSize < rightSize) then
    M.onFst (M.onFst (do forceCopy N (← getLeft) (← usub E (← getLeft) insertSize) leftSize))
    let writeIndex ← usub E realIndex insertSize
    writeFromIterBy E N src writeIndex
    M.onFst (M.onFst (do setLeft (← usub E (← getLeft) insertSize)))
  else if (← M.onFst (M.onFst getLeft)) = 0 ∨ (← uadd E (← M.onFst (M.onFst getRight)) insertSize) ≤ N then
    M.onFst (M.onFst (do forceCopy N realIndex (← uadd E realIndex insertSize) rightSize))
    let writeIndex := realIndex
    writeFromIterBy E N src writeIndex
    M.onFst (M.onFst (do setRight (← uadd E (← getRight) insertSize)))
  else
    M.onFst (M.onFst (do
      forceCopy N (← getLeft) 0 leftSize
      forceCopy N realIndex (← uadd E leftSize insertSize) rightSize))
    let writeIndex := leftSize
    writeFromIterBy E N src writeIndex
    M.onFst (M.onFst (do setRight (← usub E (← getRight) (← getLeft))))
    M.onFst (M.onFst (do setRight (← uadd E (← getRight) insertSize)))
    M.onFst (M.onFst (setLeft 0))

/-- `drain()` (src/sized_chunk/mod.rs:668-670; iter.rs:46-67, 82): a `Drain` borrows its chunk; dropping it does nothing. -/
def draining : Source (Chunk A) A := ⟨exactLen (sizeHint E), iterNext E N, pure ()⟩
/-- `drain().rev()`: `next()` is `next_back()` (src/sized_chunk/iter.rs:73-79). -/
def drainingBack : Source (Chunk A) A := ⟨exactLen (sizeHint E), iterNextBack E N, pure ()⟩
/-- `into_iter()` (src/sized_chunk/iter.rs:7-35): it owns its chunk, and drops it. -/
def consuming (dp : A → Bool) : Source (Chunk A) A := ⟨exactLen (sizeHint E), iterNext E N, Chunk.drop E N dp⟩

end Chunk

namespace Ring
variable (E : Env) (N : Nat) (src : Source τ A)

/-- src/ring_buffer/mod.rs:874-878 `extend`. -/
def extendBy (dp : A → Bool) (fuel : Nat) : M ((Ring A × τ) × List A) Unit := src.pour (pushBackOwned E N dp) fuel

/-- src/ring_buffer/mod.rs:941-945 `from_iter`; the state is the iterator and the drop log. -/
def fromIterBy (dp : A → Bool) (fuel : Nat) : M (τ × List A) (Ring A) := do
  let buffer ← M.onUnwind (new E N) src.drop
  src.gather buffer (pushBackOwned E N dp) (drop E N dp) fuel

/-- src/ring_buffer/mod.rs:287, the loop of `from_iter(iter.take(count))` with a borrowed iterator. -/
def takeLoopBy (dp : A → Bool) : Nat → M ((Ring A × τ) × List A) Unit
  | 0 => pure ()
  | count + 1 => do
    match (← src.pull) with
    | none => pure ()
    | some a =>
      M.atFst (pushBackOwned E N dp a)
      takeLoopBy dp count

/-- src/ring_buffer/mod.rs:283-292 `collect_from`. -/
def collectFromBy (dp : A → Bool) (count : Nat) : M (τ × List A) (Ring A) := do
  let buffer ← new E N
  let r ← M.withLocal buffer (do
    takeLoopBy E N src dp count
    M.panicIf ((← M.onFst (M.onFst getLen)) < count)) (M.atFst (drop E N dp))
  return r.2

/-- src/ring_buffer/mod.rs:694-698, the loop of `insert_from`: `n` items still to take, raw index `p`, `k` items inserted so far. -/
def writeLoopBy : Nat → Nat → Nat → M ((Ring A × τ) × List A) Nat
  | 0, _, k => pure k
  | n + 1, p, k => do
    match (← src.pull) with
    | none => pure k
    | some value =>
      M.onFst (M.onFst (forceWrite E N p value))
      writeLoopBy n (← rawAddAssign E N p 1) (← uadd E k 1)

/-- src/ring_buffer/mod.rs:688-704, the second half of `insert_from`. -/
def fillGapBy (index insertSize : Nat) : M ((Ring A × τ) × List A) Unit := do
  let p ← M.onFst (M.onFst (raw E N index))
  let length ← M.onFst (M.onFst getLen)
  M.onFst (M.onFst (setLen 0))
  let inserted ← M.onUnwind (writeLoopBy E N src insertSize p 0) src.close
  src.close
  M.assert (inserted = insertSize)
  M.onFst (M.onFst (setLen length))

/-- src/ring_buffer/mod.rs:648-705 `insert_from`; `fuel` bounds the `extend` loop. Simplification, as in `insertFrom`: the shifting cannot
panic, so no clean-up is attached to it. -/
def insertFromBy (dp : A → Bool) (index fuel : Nat) : M ((Ring A × τ) × List A) Unit := do
  let insertSize ← M.onUnwind src.size src.close
  M.onUnwind (M.onFst (M.onFst (insertFromChecks E N index insertSize))) src.close
  if index = (← M.onFst (M.onFst getLen)) then extendBy E N src dp fuel
  else
    let rightCount ← usub E (← M.onFst (M.onFst getLen)) index
    if rightCount < index then M.onFst (M.onFst (shiftRight E N index insertSize))
    else M.onFst (M.onFst (shiftLeft E N index insertSize))
    fillGapBy E N src index insertSize

/-- `drain()` (src/ring_buffer/mod.rs:745-747; iter.rs:136-158): a `Drain` borrows its buffer; dropping it does nothing. -/
def draining : Source (Ring A) A := ⟨exactLen sizeHint, popFront E N, pure ()⟩
/-- `drain().rev()` (src/ring_buffer/iter.rs:151-156). -/
def drainingBack : Source (Ring A) A := ⟨exactLen sizeHint, popBack E N, pure ()⟩
/-- `into_iter()` (src/ring_buffer/iter.rs:163-189): it owns its buffer, and drops it. -/
def consuming (dp : A → Bool) : Source (Ring A) A := ⟨exactLen sizeHint, popFront E N, Ring.drop E N dp⟩

end Ring

namespace Inline
variable [DecidableEq A] (E : Env) (L : Layout A) (src : Source τ A)

/-- src/inline_array/mod.rs:575-582 `extend`. -/
def extendBy (dp : A → Bool) (fuel : Nat) : M ((Inline A × τ) × List A) Unit := src.pour (pushOwned E L dp) fuel

/-- src/inline_array/mod.rs:541-550 `from_iter`; the array is made at `k` times the alignment. -/
def fromIterBy (dp : A → Bool) (k fuel : Nat) : M (τ × List A) (Inline A) := do
  let chunk ← M.onUnwind (make (new E L k)) src.drop
  src.gather chunk (pushOwned E L dp) (drop E L dp) fuel

/-- `drain()` (src/inline_array/mod.rs:404-406; iter.rs:43-61): a `Drain` borrows its array; dropping it does nothing. -/
def draining : Source (Inline A) A := ⟨exactLen (sizeHint E L), iterNext E L, pure ()⟩
/-- `drain().rev()` (src/inline_array/iter.rs:55-59). -/
def drainingBack : Source (Inline A) A := ⟨exactLen (sizeHint E L), iterNextBack E L, pure ()⟩
/-- `into_iter()` (src/inline_array/iter.rs:10-28): it owns its array, and drops it. -/
def consuming (dp : A → Bool) : Source (Inline A) A := ⟨exactLen (sizeHint E L), iterNext E L, Inline.drop E L dp⟩

end Inline

namespace Sparse
variable (N : Nat)

/-- `drain(self)` and `into_iter()` (src/sparse_chunk/mod.rs:264-266, 347-349; iter.rs:65-86): the iterator owns its chunk, and drops it.  It is
not an `ExactSizeIterator`; the `len` here is never asked by `extend`, `from_iter` and `collect_from`. -/
def consuming (dp : A → Bool) : Source (Sparse A) A := ⟨exactLen (drainSizeHint N), pop N, Sparse.drop N dp⟩

end Sparse

/-! ### What pouring should do -/

/-- The iterator `src`, in state `t` with `S t k`, yields exactly `k`; dropped while it would still have yielded `k`, it destroys `left k` and
leaves `t'` with `T t' k`. -/
structure Source.Models (src : Source τ A) (dp : A → Bool) (S T : τ → List A → Prop) (left : List A → List A) : Prop where
  len : ∀ t k, S t k → src.len t = .ok k.length t
  done : ∀ t, S t [] → ∃ t', src.next t = .ok none t' ∧ S t' []
  item : ∀ t a k, S t (a :: k) → ∃ t', src.next t = .ok (some a) t' ∧ S t' k
  drop : ∀ t k log, S t k → (∀ a ∈ left k, dp a = false) → ∃ t', src.drop (t, log) = .ok () (t', log ++ left k) ∧ T t' k
  nothing : left [] = []

/-- What `extend` should do to a container with room for `cap` items holding `l`, with an iterator that yields `k`: `o` is the outcome. -/
structure Extends (R : σ → List A → Prop) (T : τ → List A → Prop) (left : List A → List A) (cap : Nat) (dp : A → Bool) (l k log : List A)
    (o : Out ((σ × τ) × List A) Unit) : Prop where
  /-- If everything fits it is appended, and the iterator is exhausted. -/
  fits : l.length + k.length ≤ cap → ∃ s t, o = .ok () ((s, t), log) ∧ R s (l ++ k) ∧ T t []
  /-- If not, the call panics: the items that fit stay, the next one is destroyed, and the rest stays with the iterator. -/
  overflows : ∀ k1 a k2, k = k1 ++ a :: k2 → l.length + k1.length = cap → dp a = false → (∀ x ∈ left k2, dp x = false) →
    ∃ s t, o = .panic ((s, t), log ++ a :: left k2) ∧ R s (l ++ k1) ∧ T t k2

/-- What `insert_from` should do. -/
structure Inserts (R : σ → List A → Prop) (T : τ → List A → Prop) (left : List A → List A) (cap : Nat) (dp : A → Bool) (i : Nat) (l k log : List A)
    (o : Out ((σ × τ) × List A) Unit) : Prop where
  /-- If everything fits it is inserted at `i`, and the iterator is exhausted. -/
  fits : l.length + k.length ≤ cap → i ≤ l.length → ∃ s t, o = .ok () ((s, t), log) ∧ R s (l.take i ++ k ++ l.drop i) ∧ T t []
  /-- If not, the call panics and changes nothing: all the items stay with the iterator. -/
  refuses : cap < l.length + k.length ∨ l.length < i → (∀ x ∈ left k, dp x = false) →
    ∃ s t, o = .panic ((s, t), log ++ left k) ∧ R s l ∧ T t k

/-- What `collect_from` should do, asked for `n` items. -/
structure Collects (R : σ → List A → Prop) (S : τ → List A → Prop) (cap : Nat) (dp : A → Bool) (n : Nat) (k log : List A)
    (o : Out (τ × List A) σ) : Prop where
  /-- If there are enough and they fit, exactly the first `n` are taken. -/
  enough : n ≤ k.length → n ≤ cap → ∃ s t, o = .ok s (t, log) ∧ R s (k.take n) ∧ S t (k.drop n)
  /-- If there are too few, the call panics, and those taken are destroyed. -/
  short : k.length < n → k.length ≤ cap → (∀ x ∈ k, dp x = false) → ∃ t, o = .panic (t, log ++ k) ∧ S t []
  /-- If they do not fit, the call panics after one item too many, and those taken are destroyed. -/
  overflows : ∀ k1 a k2, k = k1 ++ a :: k2 → k1.length = cap → cap < n → dp a = false → (∀ x ∈ k1, dp x = false) →
    ∃ t, o = .panic (t, log ++ a :: k1) ∧ S t k2

/-- What `from_iter` should do. -/
structure Gathers (R : σ → List A → Prop) (T : τ → List A → Prop) (left : List A → List A) (cap : Nat) (dp : A → Bool) (k log : List A)
    (o : Out (τ × List A) σ) : Prop where
  /-- If everything fits it is collected, and the iterator is exhausted. -/
  fits : k.length ≤ cap → ∃ s t, o = .ok s (t, log) ∧ R s k ∧ T t []
  /-- If not, the call panics: the items taken are destroyed, and the rest stays with the iterator. -/
  overflows : ∀ k1 a k2, k = k1 ++ a :: k2 → k1.length = cap → dp a = false → (∀ x ∈ left k2, dp x = false) → (∀ x ∈ k1, dp x = false) →
    ∃ t, o = .panic (t, log ++ a :: left k2 ++ k1) ∧ T t k2

end Verif
