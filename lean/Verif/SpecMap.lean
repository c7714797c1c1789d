import Verif.Driver
/-
The specification of the sparse container: a partial map from indices below `N` to elements.  This file mentions nothing
of the implementation.
-/
namespace Verif

/-- A partial map from indices to elements. -/
abbrev SMap (A : Type) := Nat → Option A

namespace SMap
variable {A : Type} (N : Nat)

/-- The map without entries. -/
def empty : SMap A := fun _ => none
/-- Replace what is stored at one index. -/
def upd (m : SMap A) (i : Nat) (o : Option A) : SMap A := fun j => if j = i then o else m j
/-- The indices below `N` that hold an element, ascending. -/
def keys (m : SMap A) : List Nat := (List.range N).filter (fun i => (m i).isSome)
/-- The elements, by ascending index. -/
def vals (m : SMap A) : List A := (List.range N).filterMap m
/-- The entries, by ascending index. -/
def pairs (m : SMap A) : List (Nat × A) := (List.range N).filterMap (fun i => (m i).map (fun a => (i, a)))
/-- The whole array of options. -/
def slots (m : SMap A) : List (Option A) := (List.range N).map m
/-- The smallest index holding an element. -/
def first (m : SMap A) : Option Nat := (m.keys N).head?
/-- Overwrite the elements, by ascending index, with the items of a list. -/
def overwrite : List Nat → List A → SMap A → SMap A
  | i :: is, v :: vs, m => overwrite is vs (m.upd i (some v))
  | _, _, m => m
end SMap

namespace MSpec
open SMap
variable {A : Type} (N : Nat)

/-- Number of entries. -/
def len : M (SMap A) Nat := fun m => .ok (m.keys N).length m
/-- Are there no entries? -/
def isEmpty : M (SMap A) Bool := fun m => .ok (decide ((m.keys N).length = 0)) m
/-- Do all indices below `N` have an entry? -/
def isFull : M (SMap A) Bool := fun m => .ok (decide ((m.keys N).length = N)) m
/-- Store `v` at `i`, returning what was there. -/
def insert (i : Nat) (v : A) : M (SMap A) (Option A) := fun m =>
  if i < N then .ok (m i) (m.upd i (some v)) else .panic m
/-- Take what is stored at `i`. -/
def remove (i : Nat) : M (SMap A) (Option A) := fun m => if i < N then .ok (m i) (m.upd i none) else .panic m
/-- Take the entry with the smallest index. -/
def pop : M (SMap A) (Option A) := fun m =>
  match m.first N with
  | none => .ok none m
  | some i => .ok (m i) (m.upd i none)
/-- Look at index `i`. -/
def get (i : Nat) : M (SMap A) (Option A) := fun m => .ok (m i) m
/-- Swap `v` with what is stored at `i`, if there is something; otherwise hand `v` back. -/
def replaceGet (i : Nat) (v : A) : M (SMap A) A := fun m =>
  if i < N then
    match m i with
    | some a => .ok a (m.upd i (some v))
    | none => .ok v m
  else .ok v m
/-- Look at index `i`, panic if there is nothing. -/
def index (i : Nat) : M (SMap A) A := fun m =>
  match m i with
  | some a => .ok a m
  | none => .panic m
/-- Replace what is stored at `i`, panic if there is nothing. -/
def setIndex (i : Nat) (v : A) : M (SMap A) A := fun m =>
  if i < N then
    match m i with
    | some a => .ok a (m.upd i (some v))
    | none => .panic m
  else .panic m
/-- The smallest index in use. -/
def firstIndex : M (SMap A) (Option Nat) := fun m => .ok (m.first N) m
/-- All indices in use. -/
def indices : M (SMap A) (List Nat) := fun m => .ok (m.keys N) m
/-- All elements. -/
def items : M (SMap A) (List A) := fun m => .ok (m.vals N) m
/-- All entries. -/
def entries : M (SMap A) (List (Nat × A)) := fun m => .ok (m.pairs N) m
/-- All slots. -/
def optionItems : M (SMap A) (List (Option A)) := fun m => .ok (m.slots N) m
/-- Overwrite the elements through mutable references: their number and indices cannot change, so an `f` that would change
the number is not a possible action and does nothing. -/
def mutate (f : List A → List A) : M (SMap A) Unit := fun m =>
  .ok () (if (f (m.vals N)).length = (m.vals N).length then overwrite (m.keys N) (f (m.vals N)) m else m)

/-- Keep panicking with map `m` after dropping the items `d`: a second panic aborts. -/
def panicDropping {β : Type} (dp : A → Bool) (d : List A) (m : SMap A) (log : List A) : Out (SMap A × List A) β :=
  if d.any dp = true then .abort else .panic (m, log ++ d)
/-- The container goes away: destructors run one at a time by ascending index; a panic ends the dropping (and leaks the
rest). -/
def drop (dp : A → Bool) : M (SMap A × List A) Unit := fun s =>
  let d := s.1.vals N
  if d.any dp = true then .panic (s.1, s.2 ++ d.take (d.findIdx dp + 1)) else .ok () (s.1, s.2 ++ d)
/-- Make the same map with clones of the elements; if a clone panics, the clones made so far are dropped. -/
def clone (dp : A → Bool) (cl : A → Option A) : M (SMap A × List A) (SMap A) := fun s =>
  let b := Spec.bornOf cl (s.1.vals N)
  if b.length = (s.1.vals N).length then .ok (fun i => (s.1 i).bind cl) s
  else panicDropping dp b s.1 s.2

/-- A map with one entry. -/
def unit (dp : A → Bool) (i : Nat) (v : A) : M (List A) (SMap A) := fun log =>
  if i < N then .ok (empty.upd i (some v)) log
  else if dp v = true then .abort else .panic (log ++ [v])
/-- A map made by two insertions. The second one replaces and drops the first value if the indices are equal; whatever was not
inserted, or already inserted, is dropped when a call panics. -/
def pair (dp : A → Bool) (i : Nat) (v : A) (j : Nat) (w : A) : M (List A) (SMap A) := fun log =>
  if N ≤ i then if dp v || dp w then .abort else .panic (log ++ [v, w])
  else if N ≤ j then if dp w || dp v then .abort else .panic (log ++ [w, v])
  else if i = j then
    if dp v = true then if dp w = true then .abort else .panic (log ++ [v, w])
    else .ok (empty.upd j (some w)) (log ++ [v])
  else .ok ((empty.upd i (some v)).upd j (some w)) log

/-- The elements an iterator of options still owns. -/
def owned (it : It (Option A)) : List A := it.owned.filterMap id
/-- Store the items of the iterator that are not `None` at successive indices from `i`.  When one does not fit, it and the rest
of the iterator are dropped and the call panics. -/
def fill (dp : A → Bool) : Nat → It (Option A) → SMap A × List A → Out (SMap A × List A) Unit
  | _, [], s => .ok () s
  | _, .panic :: r, s => panicDropping dp (owned r) s.1 s.2
  | i, .item none :: r, s => fill dp (i + 1) r s
  | i, .item (some v) :: r, s =>
    if i < N then fill dp (i + 1) r (s.1.upd i (some v), s.2)
    else panicDropping dp (v :: owned r) s.1 s.2
/-- Collect an iterator of options into a new map; on panic everything collected is dropped. -/
def fromIter (dp : A → Bool) (it : It (Option A)) : M (List A) (SMap A) := fun log =>
  match fill N dp 0 it (empty, log) with
  | .ok _ s => .ok s.1 s.2
  | .panic s => if (s.1.vals N).any dp = true then .abort else .panic (s.2 ++ s.1.vals N)
  | .abort => .abort
  | .ub => .ub
  | .diverge => .diverge

end MSpec
end Verif

namespace Verif
namespace MSpec
variable {A : Type} (N : Nat)

/-- Two optional elements are both absent, or both present and equal. -/
def sameOpt (eq : A → A → Bool) : Option A → Option A → Bool
  | none, none => true
  | some a, some b => eq a b
  | none, some _ => false
  | some _, none => false

/-- Do the two maps agree everywhere? -/
def eq (eq : A → A → Bool) : M (SMap A × SMap A) Bool := fun s =>
  .ok ((List.range N).all (fun i => sameOpt eq (s.1 i) (s.2 i))) s

end MSpec
end Verif
