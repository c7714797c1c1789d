import Verif.Cmp
/-
Model of `SparseChunk<A, N>`: src/sparse_chunk/mod.rs, iter.rs, refpool.rs, and its `Arbitrary` instance.

Conventions as for `Chunk`: `N` is the capacity; a method taking `&mut self` is an `M (Sparse A)` computation; where
destructors run the second component of the state is the drop log.  The bitmap comes from the crate `bitmaps`, whose
source is not part of the project: it is modelled by its documented contract (`bm...` below), as a set of indices below `N`;
using an index `>= N` with it is a contract violation (`ub`).

`values()` forms a `&[A]` over all `N` slots, inhabited or not; the model only counts the slots actually accessed.
-/
namespace Verif

/-- `bitmaps::Bitmap<N>`: which indices below `N` are set. -/
abbrev Bitmap := Nat → Bool

/-- src/sparse_chunk/mod.rs:51-57 `struct SparseChunk`. -/
structure Sparse (A : Type) where
  map : Bitmap
  mem : Mem A

namespace Sparse
variable {A σ : Type} (N : Nat)

/-! ### The bitmap (contract of the crate `bitmaps`) -/

/-- `Bitmap::default()` / `Bitmap::new()`: no index is set (used in src/sparse_chunk/mod.rs:118, refpool.rs:16). -/
def bmEmpty : Bitmap := fun _ => false
/-- `Bitmap::get` (used in src/sparse_chunk/mod.rs:197, 209, iter.rs:144). -/
def bmGet (b : Bitmap) (i : Nat) : M σ Bool := if i < N then pure (b i) else M.ub
/-- `Bitmap::set`: the previous value of the bit, and the new bitmap (used in src/sparse_chunk/mod.rs:163, 178, iter.rs:46). -/
def bmSet (b : Bitmap) (i : Nat) (v : Bool) : M σ (Bool × Bitmap) :=
  if i < N then pure (b i, fun j => if j = i then v else b j) else M.ub
/-- `Bitmap::len`: how many bits are set (used in src/sparse_chunk/mod.rs:141, 147). -/
def bmLen (b : Bitmap) : Nat := ((List.range N).filter b).length
/-- `Bitmap::first_index`: the smallest index that is set (used in src/sparse_chunk/mod.rs:243, iter.rs:45). -/
def bmFirst (b : Bitmap) : Option Nat := (List.range N).find? b
/-- `bitmaps::Iter::next` of an iterator that has already passed the indices below `pos`: the next index that is set; the
position afterwards is one more (used in src/sparse_chunk/mod.rs:66, 79, 238). -/
def bmNext (b : Bitmap) (pos : Nat) : Option Nat := (List.range N).find? (fun i => decide (pos ≤ i) && b i)
/-- `Bitmap == Bitmap` (used in src/sparse_chunk/mod.rs:376). -/
def bmEq (b b' : Bitmap) : Bool := (List.range N).all (fun i => b i == b' i)

/-- `for index in &bitmap { body }`; at most `N` turns, so `N + 1` fuel is enough. -/
def forBits (b : Bitmap) (body : Nat → M σ Unit) : Nat → Nat → M σ Unit
  | 0, _ => M.diverge
  | fuel + 1, pos =>
    match bmNext N b pos with
    | none => pure ()
    | some i => do
      body i
      forBits b body fuel (i + 1)

/-- `for index in &bitmap { if !test { return false } } true`. -/
def allBits (b : Bitmap) (test : Nat → M σ Bool) : Nat → Nat → M σ Bool
  | 0, _ => M.diverge
  | fuel + 1, pos =>
    match bmNext N b pos with
    | none => pure true
    | some i => do
      if (← test i) = true then allBits b test fuel (i + 1) else return false

/-! ### Fields -/

/-- Reading the field `map` (mod.rs:54). -/
def getMap : M (Sparse A) Bitmap := fun c => .ok c.map c
/-- Reading the field `data` (mod.rs:55). -/
def getMem : M (Sparse A) (Mem A) := fun c => .ok c.mem c
/-- Updating the field `data` (mod.rs:55). -/
def setMem (m : Mem A) : M (Sparse A) Unit := fun c => .ok () { c with mem := m }
/-- `self.map.set(index, v)` (mod.rs:163, 178). -/
def mapSet (i : Nat) (v : Bool) : M (Sparse A) Bool := do
  let r ← bmSet N (← getMap) i v
  fun c => .ok r.1 { c with map := r.2 }

/-! ### Storage -/

/-- `values()[index]` (src/sparse_chunk/mod.rs:94-96): a bounds-checked access to one slot, looked at or read out with
`ptr::read` (mod.rs:105-107 `force_read`). -/
def forceRead (i : Nat) : M (Sparse A) A := do
  M.panicIf (i ≥ N)
  memRead N (← getMem) i

/-- src/sparse_chunk/mod.rs:111-113 `force_write`: bounds-checked, the old content is not dropped. -/
def forceWrite (i : Nat) (v : A) : M (Sparse A) Unit := do
  M.panicIf (i ≥ N)
  setMem (← memWrite N (← getMem) i v)

/-- `mem::replace(&mut self.values_mut()[index], value)` (mod.rs:164). -/
def replaceAt (i : Nat) (v : A) : M (Sparse A) A := do
  let a ← forceRead N i
  forceWrite N i v
  return a

/-- src/sparse_chunk/mod.rs:222-224 `get_unchecked`. -/
def getUnchecked (i : Nat) : M (Sparse A) A := do memRead N (← getMem) i

/-- src/sparse_chunk/mod.rs:232-234 `get_unchecked_mut`, with the caller swapping `v` into the slot and receiving the old value. -/
def replaceUnchecked (i : Nat) (v : A) : M (Sparse A) A := do
  let a ← getUnchecked N i
  setMem (← memWrite N (← getMem) i v)
  return a

/-! ### Construction and inspection -/

/-- src/sparse_chunk/mod.rs:116-121 `new` (and 308-315 `Default`). -/
def new : Sparse A := { map := bmEmpty, mem := Mem.uninit }

/-- src/sparse_chunk/mod.rs:140-142 `len`. -/
def len : M (Sparse A) Nat := do return bmLen N (← getMap)
/-- src/sparse_chunk/mod.rs:146-148 `is_empty`. -/
def isEmpty : M (Sparse A) Bool := do return decide (bmLen N (← getMap) = 0)
/-- src/sparse_chunk/mod.rs:152-154 `is_full`. -/
def isFull : M (Sparse A) Bool := do return decide ((← len N) = N)

/-- src/sparse_chunk/mod.rs:159-169 `insert`. -/
def insert (i : Nat) (v : A) : M (Sparse A) (Option A) := do
  M.panicIf (i ≥ N)
  if (← mapSet N i true) = true then return some (← replaceAt N i v)
  else
    forceWrite N i v
    return none

/-- src/sparse_chunk/mod.rs:174-183 `remove`. -/
def remove (i : Nat) : M (Sparse A) (Option A) := do
  M.panicIf (i ≥ N)
  if (← mapSet N i false) = true then return some (← forceRead N i)
  else return none

/-- src/sparse_chunk/mod.rs:242-244 `first_index`. -/
def firstIndex : M (Sparse A) (Option Nat) := do return bmFirst N (← getMap)

/-- The closure of `and_then` in src/sparse_chunk/mod.rs:189. -/
def removeIf : Option Nat → M (Sparse A) (Option A)
  | none => pure none
  | some i => remove N i

/-- src/sparse_chunk/mod.rs:188-190 `pop` (also `Drain::next`, iter.rs:78-80). -/
def pop : M (Sparse A) (Option A) := do removeIf N (← firstIndex N)

/-- src/sparse_chunk/mod.rs:193-202 `get`. -/
def get (i : Nat) : M (Sparse A) (Option A) := do
  if i ≥ N then return none
  else if (← bmGet N (← getMap) i) = true then return some (← getUnchecked N i)
  else return none

/-- src/sparse_chunk/mod.rs:205-214 `get_mut`, with the caller swapping `v` into the slot and receiving the old value;
if the answer is `None`, `v` is handed back. -/
def replaceGet (i : Nat) (v : A) : M (Sparse A) A := do
  if i ≥ N then return v
  else if (← bmGet N (← getMap) i) = true then
    replaceUnchecked N i v
  else return v

/-- `Option::unwrap`. -/
def unwrap {α : Type} : Option α → M σ α
  | some a => pure a
  | none => M.panic

/-- src/sparse_chunk/mod.rs:324-326 `index`. -/
def index (i : Nat) : M (Sparse A) A := do unwrap (← get N i)

/-- src/sparse_chunk/mod.rs:334-336 `index_mut`, with the caller assigning `v` and keeping the old value. -/
def setIndex (i : Nat) (v : A) : M (Sparse A) A := do
  let _ ← unwrap (← get N i)
  replaceGet N i v

/-! ### Destructor, clone, construction from values -/

/-- `ptr::drop_in_place(&mut self.values_mut()[index])` (mod.rs:67). -/
def dropAt (dp : A → Bool) (i : Nat) : M (Sparse A × List A) Unit := do
  dropOne dp (← M.onFst (forceRead N i))

/-- src/sparse_chunk/mod.rs:63-70 `drop`: the destructors run one at a time, and a panic of one of them ends the loop.
(When `A` has no destructor the loop is skipped; the log then records vacuous destructor runs.) -/
def drop (dp : A → Bool) : M (Sparse A × List A) Unit := do
  let bits ← M.onFst getMap
  forBits N bits (dropAt N dp) (N + 1) 0

/-- Destructor of a local chunk next to other state (mod.rs:63-70). -/
def dropLocal (dp : A → Bool) : M ((Sparse A × σ) × List A) Unit := M.atFst (drop N dp)

/-- Dropping the value returned by `insert`, if any. -/
def dropOpt (dp : A → Bool) : Option A → M (σ × List A) Unit
  | none => pure ()
  | some a => dropOne dp a

/-- `chunk.insert(index, value);` as a statement: the returned old value is dropped; if it panics, the argument is
(mod.rs:80, 126, 133, 134, 362). -/
def insertOwned (dp : A → Bool) (i : Nat) (v : A) : M (Sparse A × List A) Unit := do
  let old ← M.onUnwind (M.onFst (insert N i v)) (dropOne dp v)
  dropOpt dp old

/-- src/sparse_chunk/mod.rs:124-128 `unit`. -/
def unit (dp : A → Bool) (i : Nat) (v : A) : M (List A) (Sparse A) := fun log => (do
  let r ← M.withLocal (σ := Unit) new (M.atFst (insertOwned N dp i v)) (dropLocal N dp)
  return r.2 : M (Unit × List A) (Sparse A)) ((), log) |>.mapState (·.2)

/-- src/sparse_chunk/mod.rs:131-136 `pair`.  If the first `insert` panics, `value2` is dropped too (in the code after the
still empty `chunk`, in the model before it; dropping an empty chunk does nothing). -/
def pair (dp : A → Bool) (i : Nat) (v : A) (j : Nat) (w : A) : M (List A) (Sparse A) := fun log => (do
  let r ← M.withLocal (σ := Unit) new (M.atFst (do
    M.onUnwind (insertOwned N dp i v) (dropOne dp w)
    insertOwned N dp j w)) (dropLocal N dp)
  return r.2 : M (Unit × List A) (Sparse A)) ((), log) |>.mapState (·.2)

/-- The end of the body of the loop in src/sparse_chunk/mod.rs:79-81, given the result of `clone`. -/
def insertClone (dp : A → Bool) (i : Nat) : Option A → M ((Sparse A × Sparse A) × List A) Unit
  | none => M.panic
  | some b => M.atFst (insertOwned N dp i b)

/-- src/sparse_chunk/mod.rs:79-81, the body of the loop of `clone`; the state is `((out, self), drop log)`. -/
def cloneBody (dp : A → Bool) (cl : A → Option A) (i : Nat) : M ((Sparse A × Sparse A) × List A) Unit := do
  let a ← M.onFst (M.onSnd (index N i))
  insertClone N dp i (cl a)

/-- src/sparse_chunk/mod.rs:77-83 `clone`; `out` is a local, dropped if a `clone` of an item panics. -/
def clone (dp : A → Bool) (cl : A → Option A) : M (Sparse A × List A) (Sparse A) := do
  let bits ← M.onFst getMap
  let r ← M.withLocal new (forBits N bits (cloneBody N dp cl) (N + 1) 0) (dropLocal N dp)
  return r.2

/-- The elements still owned by an iterator of `Option`s. -/
def ownedOpt (it : It (Option A)) : List A := it.owned.filterMap id

/-- src/sparse_chunk/mod.rs:361-365, the loop of `from_iter`, with the counter of `enumerate`.  If it unwinds, the items
still in the iterator are dropped.  Simplifications: the counter does not overflow (that takes `usize::MAX` items); an
iterator that yields `None` for ever is not represented (the loop would not end). -/
def fillLoop (dp : A → Bool) : Nat → It (Option A) → M (Sparse A × List A) Unit
  | _, [] => pure ()
  | _, .panic :: r => M.onUnwind M.panic (dropSlice dp (ownedOpt r))
  | i, .item none :: r => fillLoop dp (i + 1) r
  | i, .item (some v) :: r => do
    M.onUnwind (insertOwned N dp i v) (dropSlice dp (ownedOpt r))
    fillLoop dp (i + 1) r

/-- src/sparse_chunk/mod.rs:356-367 `from_iter`; the partially filled local is dropped on panic. -/
def fromIter (dp : A → Bool) (it : It (Option A)) : M (List A) (Sparse A) := fun log => (do
  let r ← M.withLocal (σ := Unit) new (M.atFst (fillLoop N dp 0 it)) (dropLocal N dp)
  return r.2 : M (Unit × List A) (Sparse A)) ((), log) |>.mapState (·.2)

/-! ### Iterators -/

/-- Drive an iterator to its end: `next` gives the answer and the iterator afterwards.  `fuel` bounds the turns. -/
def collectAll {S α : Type} (next : S → M σ (Option (α × S))) : Nat → S → M σ (List α)
  | 0, _ => M.diverge
  | fuel + 1, s => do
    match (← next s) with
    | none => pure []
    | some p => do
      let r ← collectAll next fuel p.2
      return p.1 :: r

/-- `BitmapIter::next` on the chunk's own bitmap (src/sparse_chunk/mod.rs:237-239 `indices`). -/
def indicesNext (pos : Nat) : M (Sparse A) (Option (Nat × Nat)) := do
  return (bmNext N (← getMap) pos).map (fun i => (i, i + 1))

/-- The closure of `map` in src/sparse_chunk/iter.rs:21: `&values()[index]`. -/
def readIf : Option (Nat × Nat) → M (Sparse A) (Option (A × Nat))
  | none => pure none
  | some p => do return some (← forceRead N p.1, p.2)

/-- src/sparse_chunk/iter.rs:20-22 `Iter::next`. -/
def iterNext (pos : Nat) : M (Sparse A) (Option (A × Nat)) := do readIf N (← indicesNext N pos)

/-- src/sparse_chunk/iter.rs:24-26 `Iter::size_hint`, and 56-58 `IterMut::size_hint`. -/
def iterSizeHint : Nat × Option Nat := (0, some N)

/-- src/sparse_chunk/mod.rs:270-272, `Zip::next` on `indices().zip(iter())`; the state is the position of both. -/
def entriesNext (s : Nat × Nat) : M (Sparse A) (Option ((Nat × A) × (Nat × Nat))) := do
  match (← indicesNext N s.1) with
  | none => pure none
  | some p => do
    match (← iterNext N s.2) with
    | none => pure none
    | some q => return some ((p.1, q.1), (p.2, q.2))

/-- src/sparse_chunk/iter.rs:44-54 `IterMut::next`: the slot the returned `&mut A` points to, and the iterator's own bitmap
afterwards. -/
def iterMutNext (bits : Bitmap) : M (Sparse A) (Option (Nat × Bitmap)) := do
  match bmFirst N bits with
  | none => pure none
  | some i => do
    let r ← bmSet N bits i false
    M.panicIf (i ≥ N)
    return some (i, r.2)

/-- src/sparse_chunk/iter.rs:82-85 `Drain::size_hint`. -/
def drainSizeHint : M (Sparse A) (Nat × Option Nat) := do
  let n ← len N
  return (n, some n)

/-- src/sparse_chunk/iter.rs:106-114 `OptionIter::next`. -/
def optionIterNext (E : Env) (i : Nat) : M (Sparse A) (Option (Option A × Nat)) := do
  if i < N then
    let a ← get N i
    return some (a, ← uadd E i 1)
  else return none

/-- The bounds-checked `&mut self.chunk.values_mut()[self.index]` of iter.rs:146, if the slot is inhabited. -/
def slotIf (i : Nat) (inhabited : Bool) : M (Sparse A) (Option Nat) := do
  if inhabited = true then
    M.panicIf (i ≥ N)
    return some i
  else return none

/-- src/sparse_chunk/iter.rs:142-157 `OptionIterMut::next`: the slot the returned `&mut A` points to, if any. -/
def optionIterMutNext (E : Env) (i : Nat) : M (Sparse A) (Option (Option Nat × Nat)) := do
  if i < N then
    let p ← slotIf N i (← bmGet N (← getMap) i)
    return some (p, ← uadd E i 1)
  else return none

/-- src/sparse_chunk/iter.rs:185-193 `OptionDrain::next`. -/
def optionDrainNext (E : Env) (i : Nat) : M (Sparse A) (Option (Option A × Nat)) := do
  if i < N then
    let a ← remove N i
    return some (a, ← uadd E i 1)
  else return none

/-- src/sparse_chunk/iter.rs:116-121, 159-164 and 195-200, `size_hint` of the three `Option` iterators. -/
def optionSizeHint (E : Env) (i : Nat) : M σ (Nat × Option Nat) := do
  let a ← usub E N i
  let b ← usub E N i
  return (a, some b)

/-- All of `indices()` (mod.rs:237-239). -/
def indices : M (Sparse A) (List Nat) := collectAll (indicesNext N) (N + 1) 0
/-- All of `iter()` (mod.rs:247-252). -/
def items : M (Sparse A) (List A) := collectAll (iterNext N) (N + 1) 0
/-- All of `entries()` (mod.rs:270-272; also what `Debug` prints, 438-441). -/
def entries : M (Sparse A) (List (Nat × A)) := collectAll (entriesNext N) (N + 1) (0, 0)
/-- All of `iter_mut()` (mod.rs:256-261), as slots. -/
def iterMutSlots : M (Sparse A) (List Nat) := do collectAll (iterMutNext N) (N + 1) (← getMap)
/-- All of `option_iter()` (mod.rs:278-283). -/
def optionItems (E : Env) : M (Sparse A) (List (Option A)) := collectAll (optionIterNext N E) (N + 1) 0
/-- All of `option_iter_mut()` (mod.rs:289-294), as slots. -/
def optionSlots (E : Env) : M (Sparse A) (List (Option Nat)) := collectAll (optionIterMutNext N E) (N + 1) 0

/-- Assign the values, in order, through the yielded references. -/
def assignSlots : List Nat → List A → M (Sparse A) Unit
  | i :: is, v :: vs => do
    setMem (← memWrite N (← getMem) i v)
    assignSlots is vs
  | _, _ => pure ()

/-- Writing through `iter_mut`: the client replaces the values by `f` of them.  It cannot change their number; if `f` would,
this is not a possible action and the model does nothing. -/
def mutate (f : List A → List A) : M (Sparse A) Unit := do
  let l ← items N
  if (f l).length = l.length then assignSlots N (← iterMutSlots N) (f l) else pure ()

/-- The same through `option_iter_mut`. -/
def mutateOpt (E : Env) (f : List A → List A) : M (Sparse A) Unit := do
  let l ← items N
  if (f l).length = l.length then assignSlots N ((← optionSlots N E).filterMap id) (f l) else pure ()

/-! ### Comparison -/

/-- `Option<&A> == Option<&A>` with the `PartialEq` of `A` given by `eq`. -/
def optEq (eq : A → A → Bool) : Option A → Option A → Bool
  | none, none => true
  | some a, some b => eq a b
  | _, _ => false

/-- src/sparse_chunk/mod.rs:375-385 `eq`; the state is `(self, other)`. -/
def eqSparse (eq : A → A → Bool) : M (Sparse A × Sparse A) Bool := do
  if bmEq N (← M.onFst getMap) (← M.onSnd getMap) = true then
    allBits N (← M.onFst getMap) (fun i => do
      return optEq eq (← M.onFst (get N i)) (← M.onSnd (get N i))) (N + 1) 0
  else return false

/-- src/sparse_chunk/mod.rs:394-404 and 413-423, comparison with a `BTreeMap` or a `HashMap` (identical bodies).  The
standard map is given by its entries; `len()` is their number and `get` finds the entry of a key. -/
def eqMap (eq : A → A → Bool) (other : List (Nat × A)) : M (Sparse A) Bool := do
  if (← len N) = other.length then
    allBits N (← getMap) (fun i => do return optEq eq (← get N i) (other.lookup i)) (N + 1) 0
  else return false

/-- src/sparse_chunk/mod.rs:433-442 `Debug::fmt`. -/
def fmt : M (Sparse A) (List (Fmt A)) := do
  return [.text "SparseChunk", .map (← entries N)]

/-! ### refpool -/

/-- src/sparse_chunk/refpool.rs:13-17 `default_uninit`: only the bitmap is written; `target` is whatever was in the memory. -/
def defaultUninit (target : Sparse A) : Sparse A := { target with map := bmEmpty }

/-- src/sparse_chunk/refpool.rs:31-33, the end of the loop body, given the result of `clone`; the state is the target. -/
def writeClone (i : Nat) : Option A → M (Sparse A × Sparse A) Unit
  | none => M.panic
  | some b => M.onFst (do setMem (← memWrite N (← getMem) i b))

/-- src/sparse_chunk/refpool.rs:25-34 `clone_uninit`; the state is `(target, self)`. -/
def cloneUninit (cl : A → Option A) : M (Sparse A × Sparse A) Unit := do
  let bits ← M.onSnd getMap
  M.onFst (fun c => .ok () { c with map := bits })
  forBits N bits (fun i => do writeClone N i (cl (← M.onSnd (index N i)))) (N + 1) 0

/-! ### arbitrary -/

/-- The end of `collect::<Result<..>>`: the container, or, after an `Err`, the error, the container being dropped. -/
def arbitraryEnd (dp : A → Bool) (whole : Bool) (c : Sparse A) : M (List A) (Option (Sparse A)) := fun log =>
  if whole then .ok (some c) log
  else ((do drop N dp; return none : M (Sparse A × List A) (Option (Sparse A))) (c, log)).mapState (·.2)

/-- src/arbitrary.rs:63-65 `u.arbitrary_iter()?.take(CAPACITY).collect()` (and `arbitrary_take_rest`, 67-69): `gen` is what the
generator yields (`none` = an `Err`, which `collect::<Result<..>>` returns at once, dropping the chunk built so far). -/
def arbitrary (dp : A → Bool) (gen : List (Option (Option A))) : M (List A) (Option (Sparse A)) := do
  let taken := gen.take N
  let good := taken.takeWhile Option.isSome
  let c ← fromIter N dp (It.ofList (good.filterMap id))
  arbitraryEnd N dp (good.length = taken.length) c

end Sparse
end Verif
