import Verif.Ledger
/-
The specification of the sequence containers: a plain list with a capacity bound `N`.  This file mentions
nothing of the implementations.  `log` is the list of destructor runs so far; `dp a` says that the
destructor of `a` panics, `cl a = none` that cloning `a` panics.
-/
namespace Verif
namespace Spec
variable {A : Type} (N : Nat)

/-! ### One list -/

/-- Put `v` in front, refuse when full. -/
def pushFront (v : A) : M (List A) Unit := fun l => if l.length < N then .ok () (v :: l) else .panic l
/-- Put `v` at the end, refuse when full. -/
def pushBack (v : A) : M (List A) Unit := fun l => if l.length < N then .ok () (l ++ [v]) else .panic l
/-- Take the first item, panic when empty. -/
def popFront : M (List A) A := fun l =>
  match l with
  | [] => .panic l
  | a :: r => .ok a r
/-- Take the last item, panic when empty. -/
def popBack : M (List A) A := fun l =>
  match l.getLast? with
  | none => .panic l
  | some a => .ok a l.dropLast
/-- Take the first item, if any. -/
def popFront? : M (List A) (Option A) := fun l => .ok l.head? l.tail
/-- Take the last item, if any. -/
def popBack? : M (List A) (Option A) := fun l => .ok l.getLast? l.dropLast
/-- Look at item `i`. -/
def index (i : Nat) : M (List A) A := fun l =>
  match l[i]? with
  | some a => .ok a l
  | none => .panic l
/-- Replace item `i`, returning the old one. -/
def set (i : Nat) (v : A) : M (List A) A := fun l =>
  match l[i]? with
  | some a => .ok a (l.set i v)
  | none => .panic l
/-- Look at item `i`, if there is one. -/
def get (i : Nat) : M (List A) (Option A) := fun l => .ok l[i]? l
/-- Swap `v` with item `i` if there is one, otherwise hand `v` back. -/
def replaceGet (i : Nat) (v : A) : M (List A) A := fun l =>
  match l[i]? with
  | some a => .ok a (l.set i v)
  | none => .ok v l
/-- Insert before position `i`. -/
def insert (i : Nat) (v : A) : M (List A) Unit := fun l =>
  if l.length < N ∧ i ≤ l.length then .ok () (l.take i ++ v :: l.drop i) else .panic l
/-- Insert at the position a search function proposes (`none`: the search panicked). -/
def insertOrdered (search : List A → A → Option (Except Nat Nat)) (v : A) : M (List A) Unit := fun l =>
  if l.length < N then
    match search l v with
    | none => .panic l
    | some (.ok i) => insert N i v l
    | some (.error i) => insert N i v l
  else .panic l
/-- Remove item `i`. -/
def remove (i : Nat) : M (List A) A := fun l =>
  match l[i]? with
  | some a => .ok a (l.take i ++ l.drop (i + 1))
  | none => .panic l
/-- Remove item `i`, if there is one. -/
def remove? (i : Nat) : M (List A) (Option A) := fun l => .ok l[i]? (l.take i ++ l.drop (i + 1))
/-- Cut the list at `i`; the rest is the result. -/
def splitOff (i : Nat) : M (List A) (List A) := fun l =>
  if i ≤ l.length then .ok (l.drop i) (l.take i) else .panic l
/-- Take the first `n` items away (the caller must not ask for too many). -/
def fromFront (n : Nat) : M (List A) (List A) := fun l =>
  if n ≤ l.length then .ok (l.take n) (l.drop n) else .panic l
/-- Take the last `n` items away (the caller must not ask for too many). -/
def fromBack (n : Nat) : M (List A) (List A) := fun l =>
  if n ≤ l.length then .ok (l.drop (l.length - n)) (l.take (l.length - n)) else .panic l
/-- Overwrite through a mutable slice; a slice cannot change its length, so an `f` that would is not a
possible action and does nothing. -/
def mutate (f : List A → List A) : M (List A) Unit := fun l =>
  .ok () (if (f l).length = l.length then f l else l)
/-- Append as many leading bytes as fit. -/
def write (buf : List A) : M (List A) Nat := fun l =>
  .ok (min buf.length (N - l.length)) (l ++ buf.take (N - l.length))
/-- Take up to `n` of the oldest bytes. -/
def read (n : Nat) : M (List A) (Nat × List A) := fun l =>
  .ok (min n l.length, l.take n) (l.drop n)

/-! ### Two lists: `(self, other)` -/

/-- Move everything from `other` to the end of `self`. -/
def append : M (List A × List A) Unit := fun s =>
  if s.1.length + s.2.length ≤ N then .ok () (s.1 ++ s.2, []) else .panic s
/-- Move `n` items from the front of `other` to the back of `self`. -/
def drainFromFront (n : Nat) : M (List A × List A) Unit := fun s =>
  if s.1.length + n ≤ N ∧ n ≤ s.2.length then .ok () (s.1 ++ s.2.take n, s.2.drop n) else .panic s
/-- Move `n` items from the back of `other` to the front of `self`. -/
def drainFromBack (n : Nat) : M (List A × List A) Unit := fun s =>
  if s.1.length + n ≤ N ∧ n ≤ s.2.length then
    .ok () (s.2.drop (s.2.length - n) ++ s.1, s.2.take (s.2.length - n)) else .panic s

/-! ### Destructors: `(list, log)` -/

/-- Run the destructors of `d` in order.  If none panics the list becomes `l'`; if one panics the others
still run and the list stays `l`; a second panic aborts the process. -/
def dropping (dp : A → Bool) (d l l' log : List A) : Out (List A × List A) Unit :=
  match d.countP dp with
  | 0 => .ok () (l', log ++ d)
  | 1 => .panic (l, log ++ d)
  | _ => .abort
/-- Drop the first `i` items.  If a destructor panics the items are not removed. -/
def dropLeft (dp : A → Bool) (i : Nat) : M (List A × List A) Unit := fun s =>
  if i ≤ s.1.length then dropping dp (s.1.take i) s.1 (s.1.drop i) s.2 else .panic s
/-- Keep the first `i` items and drop the rest.  If a destructor panics the items are not removed. -/
def dropRight (dp : A → Bool) (i : Nat) : M (List A × List A) Unit := fun s =>
  if i ≤ s.1.length then dropping dp (s.1.drop i) s.1 (s.1.take i) s.2 else .panic s
/-- Drop everything.  If a destructor panics the items are not removed. -/
def clear (dp : A → Bool) : M (List A × List A) Unit := fun s => dropping dp s.1 s.1 [] s.2
/-- The container itself goes away. -/
def drop (dp : A → Bool) : M (List A × List A) Unit := fun s => dropping dp s.1 s.1 s.1 s.2

/-- Run the destructors of `d` one call at a time, in order.  If none panics the list becomes `l'`; if one panics the
later ones are not run at all and the list stays `l`. -/
def droppingSeq (dp : A → Bool) (d l l' log : List A) : Out (List A × List A) Unit :=
  if d.any dp = true then .panic (l, log ++ d.take (d.findIdx dp + 1)) else .ok () (l', log ++ d)
/-- `dropLeft` with destructors called one at a time. -/
def dropLeftSeq (dp : A → Bool) (i : Nat) : M (List A × List A) Unit := fun s =>
  if i ≤ s.1.length then droppingSeq dp (s.1.take i) s.1 (s.1.drop i) s.2 else .panic s
/-- `dropRight` with destructors called one at a time. -/
def dropRightSeq (dp : A → Bool) (i : Nat) : M (List A × List A) Unit := fun s =>
  if i ≤ s.1.length then droppingSeq dp (s.1.drop i) s.1 (s.1.take i) s.2 else .panic s
/-- `clear` with destructors called one at a time. -/
def clearSeq (dp : A → Bool) : M (List A × List A) Unit := fun s => droppingSeq dp s.1 s.1 [] s.2
/-- `drop` with destructors called one at a time. -/
def dropSeq (dp : A → Bool) : M (List A × List A) Unit := fun s => droppingSeq dp s.1 s.1 s.1 s.2

/-! ### User-supplied iterators: `(list, log)`.  Items left in the iterator are dropped with it. -/

/-- Keep panicking with list `l` after dropping the items `d`: a second panic aborts. -/
def panicDropping {β : Type} (dp : A → Bool) (d : List A) (l log : List A) : Out (List A × List A) β :=
  if d.any dp = true then .abort else .panic (l, log ++ d)

/-- Push every item of the iterator at the back.  When an item does not fit, it and the rest of the
iterator are dropped and the call panics. -/
def extend (dp : A → Bool) : It A → List A × List A → Out (List A × List A) Unit
  | [], (l, log) => .ok () (l, log)
  | .panic :: r, (l, log) => panicDropping dp (It.owned r) l log
  | .item a :: r, (l, log) =>
    if l.length < N then extend dp r (l ++ [a], log)
    else panicDropping dp (a :: (It.owned r)) l log

/-- Insert `n` items of the iterator before position `i`.  If the iterator yields fewer items than it
announced (or panics), or dropping what is left in it panics, the list ends up empty and its old
contents leak. -/
def insertFrom (dp : A → Bool) (i n : Nat) (it : It A) : List A × List A → Out (List A × List A) Unit
  | (l, log) =>
    if l.length + n ≤ N ∧ i ≤ l.length then
      if n ≤ it.items.length then
        match (It.owned (it.drop n)).countP dp with
        | 0 => .ok () (l.take i ++ it.items.take n ++ l.drop i, log ++ It.owned (it.drop n))
        | 1 => .panic ([], log ++ It.owned (it.drop n))
        | _ => .abort
      else panicDropping dp (It.owned (it.drop (it.items.length + 1))) [] log
    else panicDropping dp it.owned l log

/-- `insertFrom` where insertion at the very end is done by `extend`, which takes everything the iterator yields. -/
def insertFromOrExtend (dp : A → Bool) (i n : Nat) (it : It A) (s : List A × List A) : Out (List A × List A) Unit :=
  if s.1.length + n ≤ N ∧ i = s.1.length then extend N dp it s else insertFrom N dp i n it s

/-- Collect an iterator into a new list; on panic everything collected is dropped. -/
def fromIter (dp : A → Bool) (it : It A) : M (List A) (List A) := fun log =>
  match extend N dp it ([], log) with
  | .ok _ s => .ok s.1 s.2
  | .panic s => if s.1.any dp = true then .abort else .panic (s.2 ++ s.1)
  | .abort => .abort
  | .ub => .ub
  | .diverge => .diverge

/-- Collect exactly `n` items of a borrowed iterator into a new list, panicking if there are fewer or they
do not fit; state `(iterator, log)`. -/
def collectFrom (dp : A → Bool) (n : Nat) : M (It A × List A) (List A) := fun s =>
  if n ≤ s.1.items.length then
    if n ≤ N then .ok (s.1.items.take n) (s.1.drop n, s.2)
    else if (s.1.items.take (N + 1)).any dp = true then .abort
    else .panic (s.1.drop (N + 1), s.2 ++ (s.1.items.drop N).take 1 ++ s.1.items.take N)
  else if s.1.items.length ≤ N then
    if s.1.items.any dp = true then .abort
    else .panic (s.1.drop (s.1.items.length + 1), s.2 ++ s.1.items)
  else if (s.1.items.take (N + 1)).any dp = true then .abort
  else .panic (s.1.drop (N + 1), s.2 ++ (s.1.items.drop N).take 1 ++ s.1.items.take N)

/-- Clones made until the first one that panics. -/
def bornOf (cl : A → Option A) : List A → List A
  | [] => []
  | a :: r => match cl a with
    | none => []
    | some b => b :: bornOf cl r

/-- Look at the number of items. -/
def len : M (List A) Nat := fun l => .ok l.length l
/-- Is the list empty? -/
def isEmpty : M (List A) Bool := fun l => .ok l.isEmpty l
/-- Is the list as long as the capacity allows? -/
def isFull : M (List A) Bool := fun l => .ok (decide (l.length = N)) l
/-- Look at all items. -/
def items : M (List A) (List A) := fun l => .ok l l
/-- Exact size hint. -/
def sizeHint : M (List A) (Nat × Option Nat) := fun l => .ok (l.length, some l.length) l
/-- Take everything. -/
def drainFrom : M (List A) (List A) := fun l => .ok l []
/-- A list with one item. -/
def unit (v : A) : M Unit (List A) := fun s => if 1 ≤ N then .ok [v] s else .panic s
/-- A list with two items. -/
def pair (v w : A) : M Unit (List A) := fun s => if 2 ≤ N then .ok [v, w] s else .panic s

/-- Clone all items. -/
def clone (dp : A → Bool) (cl : A → Option A) : M (List A × List A) (List A) := fun s =>
  if (bornOf cl s.1).length = s.1.length then .ok (bornOf cl s.1) s
  else panicDropping dp (bornOf cl s.1) s.1 s.2

/-- Clone all items; when a clone panics, the clones made before it leak. -/
def cloneLeaky (cl : A → Option A) : M (List A × List A) (List A) := fun s =>
  if (bornOf cl s.1).length = s.1.length then .ok (bornOf cl s.1) s else .panic s

/-! ### Slices -/

/-- Positions `(first, after last)` of the range `lo..hi` in a list of length `n`; `none` when the range is not inside the
list (or starts after an excluded position, which no Rust range syntax can express and which is refused). -/
def span (lo hi : Bound) (n : Nat) : Option (Nat × Nat) :=
  match lo with
  | .excluded _ => none
  | .unbounded => upTo 0
  | .included i => upTo i
where
  /-- the range from `a` to `hi` -/
  upTo (a : Nat) : Option (Nat × Nat) :=
    let b := match hi with
      | .unbounded => n
      | .included j => j + 1
      | .excluded j => j
    if a ≤ b ∧ b ≤ n then some (a, b) else none

/-- Narrow the window `(a, b)` step by step, all positions counted from the start of the current window. -/
def narrow : List Cut → Nat × Nat → Option (Nat × Nat)
  | [], w => some w
  | .sub lo hi :: r, (a, b) =>
    match span lo hi (b - a) with
    | some (x, y) => narrow r (a + x, a + y)
    | none => none
  | .left i :: r, (a, b) => if i ≤ b - a then narrow r (a, a + i) else none
  | .right i :: r, (a, b) => if i ≤ b - a then narrow r (a + i, b) else none

/-- The window of a list of length `n` obtained by slicing with `lo..hi` and then narrowing. -/
def window (lo hi : Bound) (cuts : List Cut) (n : Nat) : Option (Nat × Nat) :=
  match span lo hi n with
  | some w => narrow cuts w
  | none => none

/-- The items in the window `(a, b)`. -/
def part (w : Nat × Nat) (l : List A) : List A := (l.take w.2).drop w.1

/-- Do something to the part of the list inside a window and leave the rest alone; panic if there is no such window. -/
def within {α : Type} (lo hi : Bound) (cuts : List Cut) (x : M (List A) α) : M (List A) α := fun l =>
  match window lo hi cuts l.length with
  | none => .panic l
  | some w => (x (part w l)).mapState (fun m => l.take w.1 ++ m ++ l.drop w.2)

/-- Clones made of the items of a window, until the first one that panics. -/
def bornWithin (cl : A → Option A) (lo hi : Bound) (cuts : List Cut) (l : List A) : List A :=
  match window lo hi cuts l.length with
  | none => []
  | some w => bornOf cl (part w l)

/-- Clone the items of a window into a new list. -/
def cloneWithin (dp : A → Bool) (cl : A → Option A) (lo hi : Bound) (cuts : List Cut) : M (List A × List A) (List A) := fun s =>
  match window lo hi cuts s.1.length with
  | none => .panic s
  | some w =>
    if (bornOf cl (part w s.1)).length = (part w s.1).length then .ok (bornOf cl (part w s.1)) s
    else panicDropping dp (bornOf cl (part w s.1)) s.1 s.2

end Spec
end Verif
