import Verif.AliasMethods
import Verif.Ring.View
import Verif.Sparse.View
/-
What the methods of `RingBuffer` and `SparseChunk` do with pointers, in terms of the calls of Alias.lean.
-/
namespace Verif.Alias
open Verif
variable {A : Type}

/-! ### RingBuffer -/

/-- The methods of `RingBuffer` that touch its storage. Container 0 is `self`; container 1 is the other buffer of `append`,
`drain_from_front` and `drain_from_back`, or the new one of `split_off`, `from_front`, `from_back` and `clone`. -/
inductive RingMethod where
  | pushFront | pushBack | popFront | popBack
  | insert (i : Nat) | remove (i : Nat)
  /-- `insert_from` of `k` items. -/
  | insertFrom (i k : Nat)
  | splitOff (i : Nat) | fromFront (k : Nat) | fromBack (k : Nat)
  | append | drainFromFront (k : Nat) | drainFromBack (k : Nat)
  | dropLeft (i : Nat) | dropRight (i : Nat) | clear
  /-- `get`/`buffer[i]`, and `get_mut`/`buffer[i] = …`, also `set`. -/
  | index (i : Nat) | indexMut (i : Nat)
  | clone
  /-- `io::Write::write` of a slice of `k` bytes. -/
  | write (k : Nat)
deriving DecidableEq, Repr

/-- The slot of logical position `j` in a buffer whose first item is in slot `o`. -/
def place (N o j : Nat) : Nat := (o + j) % N
/-- The slot `k` places before slot `o`. -/
def before (N o k : Nat) : Nat := (o + (N - k)) % N

/-- src/ring_buffer/mod.rs:178-185, the part of `copy_from` without a seam in the source: from `x` to `y`. -/
def straightCopy (N x y frm to n : Nat) : List Call :=
  if to + n > N then [.ringCopy x y frm to (N - to), .ringCopy x y (place N frm (N - to)) 0 (n - (N - to))]
  else [.ringCopy x y frm to n]

/-- src/ring_buffer/mod.rs:151-186 `copy_from`: from `x` to `y`. -/
def ringCopies (N x y frm to n : Nat) : List Call :=
  if frm + n > N then straightCopy N x y frm to (N - frm) ++ straightCopy N x y 0 (place N to (N - frm)) (n - (N - frm))
  else straightCopy N x y frm to n

/-- src/ring_buffer/mod.rs:407-414 `push_back` on container 0. -/
def ringPushBack (N o n : Nat) : List Call :=
  .len 0 :: if n = N then [] else [.len 0, .writeAt 0 (place N o n), .field 0 true]

/-- src/ring_buffer/mod.rs:421-429 `push_front`. -/
def ringPushFront (N o n : Nat) : List Call :=
  .len 0 :: if n = N then [] else [.field 0 true, .field 0 true, .writeAt 0 (before N o 1)]

/-- src/ring_buffer/mod.rs:598-606, 671-679: the items from position `i` on move `k` places up, the last one first. -/
def shiftUp (N o n i k : Nat) : List Call :=
  (List.range (n - i)).flatMap fun j => [.readAt 0 (place N o (n - 1 - j)), .writeAt 0 (place N o (n - 1 - j + k))]

/-- src/ring_buffer/mod.rs:608-613, 681-686: with the first slot already moved to `o`, the `i` items at positions `k, k + 1, …` move to
positions `0, 1, …`. -/
def shiftDown (N o i k : Nat) : List Call :=
  (List.range i).flatMap fun j => [.readAt 0 (place N o (j + k)), .writeAt 0 (place N o j)]

/-- src/ring_buffer/mod.rs:538-551 `drain_from_front`: `x` takes `k` items from `y`. -/
def drainFront (N x y o n o' n' k : Nat) : List Call :=
  .len x :: .len y :: if n + k > N then [] else if n' < k then [] else
    [.field y false, .len x] ++ ringCopies N y x o' (place N o n) k ++ [.field y true, .field y true, .field x true]

/-- src/ring_buffer/mod.rs:560-574 `drain_from_back`: `x` takes the last `k` items of `y`. -/
def drainBack (N x y o n o' n' k : Nat) : List Call :=
  .len x :: .len y :: if n + k > N then [] else if n' < k then [] else
    [.field x true, .field y false, .len y] ++ ringCopies N y x (place N o' (n' - k)) (before N o k) k ++ [.field y true, .field x true]

/-- The calls a method makes on a buffer of capacity `N` with first slot `o` and `n` items; `o'` and `n'`: the other buffer. -/
def RingMethod.calls (N o n o' n' : Nat) : RingMethod → List Call
  | .pushFront => ringPushFront N o n
  | .pushBack => ringPushBack N o n
  -- src/ring_buffer/mod.rs:450-458
  | .popFront => .len 0 :: if n = 0 then [] else [.field 0 true, .field 0 true, .readAt 0 o]
  -- src/ring_buffer/mod.rs:436-443
  | .popBack => .len 0 :: if n = 0 then [] else [.field 0 true, .len 0, .readAt 0 (place N o (n - 1))]
  -- src/ring_buffer/mod.rs:582-616
  | .insert i => .len 0 :: if n = N then [] else .len 0 :: if i > n then [] else
      if i = 0 then ringPushFront N o n else if i = n then .len 0 :: ringPushBack N o n else .len 0 ::
      if n - i < i then [.len 0, .len 0, .len 0] ++ shiftUp N o n i 1 ++ [.field 0 true, .len 0, .writeAt 0 (place N o i)]
      else [.field 0 true, .field 0 true, .len 0] ++ shiftDown N (before N o 1) i 1 ++ [.len 0, .writeAt 0 (place N (before N o 1) i)]
  -- src/ring_buffer/mod.rs:715-742
  | .remove i => .len 0 :: if i ≥ n then [] else [.len 0, .readAt 0 (place N o i), .len 0] ++
      if n - i < i then [.field 0 true, .len 0, .len 0] ++
        (List.range (n - 1 - i)).flatMap fun j => [.readAt 0 (place N o (i + j + 1)), .writeAt 0 (place N o (i + j))]
      else .len 0 :: ((List.range i).flatMap fun j => [.field 0 false, .readAt 0 (place N o (i - j - 1)), .writeAt 0 (place N o (i - j))]) ++
        [.field 0 false, .field 0 true, .field 0 true]
  -- src/ring_buffer/mod.rs:648-705, 874-878
  | .insertFrom i k => .len 0 :: if n + k > N then [] else .len 0 :: if i > n then [] else .len 0 ::
      if i = n then (List.range k).flatMap fun j => ringPushBack N o (n + j) else .len 0 ::
      (if n - i < i then [.len 0, .len 0, .len 0] ++ shiftUp N o n i k ++ [.field 0 true]
      else [.field 0 true, .field 0 true, .len 0] ++ shiftDown N (before N o k) i k) ++
      [.len 0, .field 0 false, .field 0 true] ++
      (List.range k).map (fun j => .writeAt 0 (place N (if n - i < i then o else before N o k) (i + j))) ++ [.field 0 true]
  -- src/ring_buffer/mod.rs:504-517
  | .splitOff i => .len 0 :: if i > n then [] else .len 0 :: if i = n then [] else
      [.len 0, .len 0] ++ ringCopies N 0 1 (place N o i) 0 (n - i) ++ [.field 0 true, .field 1 true]
  -- src/ring_buffer/mod.rs:299-303: the new buffer calls `drain_from_front`
  | .fromFront k => drainFront N 1 0 o' n' o n k
  -- src/ring_buffer/mod.rs:310-314
  | .fromBack k => drainBack N 1 0 o' n' o n k
  -- src/ring_buffer/mod.rs:527-529
  | .append => .len 1 :: drainFront N 0 1 o n o' n' n'
  | .drainFromFront k => drainFront N 0 1 o n o' n' k
  | .drainFromBack k => drainBack N 0 1 o n o' n' k
  -- src/ring_buffer/mod.rs:465-476
  | .dropLeft i => if i = 0 then [] else .len 0 :: if i > n then [] else
      .len 0 :: (List.range i).map (fun j => .dropAt 0 (place N o j)) ++ [.field 0 true, .field 0 true]
  -- src/ring_buffer/mod.rs:483-494
  | .dropRight i => .len 0 :: if i > n then [] else .len 0 :: if i = n then [] else
      .len 0 :: (List.range (n - i)).map (fun j => .dropAt 0 (place N o (i + j))) ++ [.field 0 true]
  -- src/ring_buffer/mod.rs:752-758; `drop` is the same without the assignments (66-75)
  | .clear => .len 0 :: (List.range n).map (fun j => .dropAt 0 (place N o j)) ++ [.field 0 true, .field 0 true]
  -- src/ring_buffer/mod.rs:375-380, 789-812
  | .index i => .len 0 :: if i < n then [.len 0, .getRef 0 (place N o i)] else []
  | .indexMut i => .len 0 :: if i < n then [.len 0, .getMut 0 (place N o i)] else []
  -- src/ring_buffer/mod.rs:770-782
  | .clone => [.field 0 false, .field 1 true, .field 1 true, .len 0] ++
      (List.range n).flatMap fun j => [.getRef 0 (place N o j), .writeAt 1 (place N o j), .field 1 true]
  -- src/ring_buffer/mod.rs:908-916, 190-210. The code makes one pointer for each of the at most two pieces, here there is one per byte.
  | .write k => [.len 0, .field 0 false, .field 0 false] ++
      (List.range (min k (N - n))).map (fun j => .writeAt 0 (place N o (n + j))) ++ [.field 0 true]

/-- The value model of the method (Ring/Model.lean) takes the buffers `c` and `d` to `c'` and `d'` without a panic. -/
def RingMethod.Runs (E : Env) (N : Nat) (m : RingMethod) (c d c' d' : Ring A) : Prop :=
  match m with
  | .pushFront => ∃ v, Ring.pushFront E N v c = .ok () c' ∧ d' = d
  | .pushBack => ∃ v, Ring.pushBack E N v c = .ok () c' ∧ d' = d
  | .popFront => ∃ v, Ring.popFront E N c = .ok v c' ∧ d' = d
  | .popBack => ∃ v, Ring.popBack E N c = .ok v c' ∧ d' = d
  | .insert i => ∃ v, Ring.insert E N i v c = .ok () c' ∧ d' = d
  | .remove i => ∃ v, Ring.remove E N i c = .ok v c' ∧ d' = d
  | .insertFrom i k => ∃ (dp : A → Bool) (xs log log' : List A), xs.length = k ∧ N + k < E.W ∧
      Ring.insertFrom E N dp i (some k) (xs.map .item) (c, log) = .ok () (c', log') ∧ d' = d
  | .splitOff i => ∃ (dp : A → Bool) (log log' : List A), d = ⟨0, 0, Mem.uninit⟩ ∧ Ring.splitOff E N dp i (c, log) = .ok d' (c', log')
  | .fromFront k => ∃ (dp : A → Bool) (log log' : List A), d = ⟨0, 0, Mem.uninit⟩ ∧ k < E.W ∧ Ring.fromFront E N dp k (c, log) = .ok d' (c', log')
  | .fromBack k => ∃ (dp : A → Bool) (log log' : List A), d = ⟨0, 0, Mem.uninit⟩ ∧ k < E.W ∧ Ring.fromBack E N dp k (c, log) = .ok d' (c', log')
  | .append => Ring.append E N (c, d) = .ok () (c', d')
  | .drainFromFront k => N + k < E.W ∧ Ring.drainFromFront E N k (c, d) = .ok () (c', d')
  | .drainFromBack k => N + k < E.W ∧ Ring.drainFromBack E N k (c, d) = .ok () (c', d')
  | .dropLeft i => ∃ (dp : A → Bool) (log log' : List A), Ring.dropLeft E N dp i (c, log) = .ok () (c', log') ∧ d' = d
  | .dropRight i => ∃ (dp : A → Bool) (log log' : List A), Ring.dropRight E N dp i (c, log) = .ok () (c', log') ∧ d' = d
  | .clear => ∃ (dp : A → Bool) (log log' : List A), Ring.clear E N dp (c, log) = .ok () (c', log') ∧ d' = d
  | .index i => ∃ v, Ring.index E N i c = .ok v c' ∧ d' = d
  | .indexMut i => ∃ v w, Ring.setIndex E N i v c = .ok w c' ∧ d' = d
  | .clone => ∃ (dp : A → Bool) (cl : A → Option A) (log log' : List A), d = ⟨0, 0, Mem.uninit⟩ ∧ Ring.clone E N dp cl (c, log) = .ok d' (c', log')
  | .write k => ∃ xs n, xs.length = k ∧ Ring.write E N xs c = .ok n c' ∧ d' = d

/-! ### SparseChunk -/

/-- The methods of `SparseChunk` that touch its storage; container 1 is the new chunk of `clone`. -/
inductive SparseMethod where
  | insert (i : Nat) | remove (i : Nat) | pop
  | get (i : Nat) | getMut (i : Nat)
  /-- The destructor. -/
  | drop
  | clone
deriving DecidableEq, Repr

/-- The keys, as far as the storage goes. -/
def keys (N : Nat) (map : Bitmap) : List Nat := (List.range N).filter map

/-- The calls a method makes on a chunk with the given bitmap. -/
def SparseMethod.calls (N : Nat) (map : Bitmap) : SparseMethod → List Call
  -- src/sparse_chunk/mod.rs:159-169
  | .insert i => if i ≥ N then [] else [.field 0 true, .valuesMut 0 i]
  -- src/sparse_chunk/mod.rs:174-183
  | .remove i => if i ≥ N then [] else .field 0 true :: if map i = true then [.values 0 i] else []
  -- src/sparse_chunk/mod.rs:188-190
  | .pop => .len 0 :: match keys N map with
    | [] => []
    | i :: _ => [.field 0 true, .values 0 i]
  -- src/sparse_chunk/mod.rs:193-202, 205-214
  | .get i => if i ≥ N then [] else .field 0 false :: if map i = true then [.values 0 i] else []
  | .getMut i => if i ≥ N then [] else .field 0 false :: if map i = true then [.valuesMut 0 i] else []
  -- src/sparse_chunk/mod.rs:61-71
  | .drop => .field 0 false :: (keys N map).map (Call.valuesMut 0)
  -- src/sparse_chunk/mod.rs:77-83
  | .clone => .field 1 true :: .field 0 false :: (keys N map).flatMap fun i => [.values 0 i, .field 1 true, .valuesMut 1 i]

/-! ### What the calls do to memory -/

/-- The effect of a call on the storage of the containers, whatever the values written: as `Call.Acts`, with the calls of `RingBuffer` and
`SparseChunk`. Reads and drops find an initialised slot. -/
inductive Call.Acts2 : Call → (Nat → Mem A) → (Nat → Mem A) → Prop
  | field {x w m} : Acts2 (.field x w) m m
  | len {x m} : Acts2 (.len x) m m
  | readAt {x i m} (h : (m x i).isSome) : Acts2 (.readAt x i) m m
  | getRef {x i m} (h : (m x i).isSome) : Acts2 (.getRef x i) m m
  | getMut {x i m} (h : (m x i).isSome) (v : A) : Acts2 (.getMut x i) m (fun y => if y = x then (m y).put i v else m y)
  | dropAt {x i m} (h : (m x i).isSome) : Acts2 (.dropAt x i) m m
  | writeAt {x i m} (v : A) : Acts2 (.writeAt x i) m (fun y => if y = x then (m y).put i v else m y)
  | ringCopy {x y frm to n m} : Acts2 (.ringCopy x y frm to n) m (fun z => if z = y then (m x).blit frm (m y) to n else m z)
  | values {x i m} (h : (m x i).isSome) : Acts2 (.values x i) m m
  | valuesMut {x i m} (v : A) : Acts2 (.valuesMut x i) m (fun y => if y = x then (m y).put i v else m y)
  /-- `values_mut` for a destructor, which leaves the slot as it is. -/
  | valuesDrop {x i m} (h : (m x i).isSome) : Acts2 (.valuesMut x i) m m

/-- The effect of several calls. -/
inductive ActsAll2 : List Call → (Nat → Mem A) → (Nat → Mem A) → Prop
  | nil {m} : ActsAll2 [] m m
  | cons {c cs m m' m''} : Call.Acts2 c m m' → ActsAll2 cs m' m'' → ActsAll2 (c :: cs) m m''

/-- The storage of two containers. -/
def mems2 (a b : Mem A) : Nat → Mem A := fun y => if y = 0 then a else if y = 1 then b else Mem.uninit

/-- The value model of the method (Sparse/Model.lean) takes the chunks `c` and `d` to `c'` and `d'` without a panic. -/
def SparseMethod.Runs (N : Nat) (m : SparseMethod) (c d c' d' : Sparse A) : Prop :=
  match m with
  | .insert i => ∃ v r, Sparse.insert N i v c = .ok r c' ∧ d' = d
  | .remove i => ∃ r, Sparse.remove N i c = .ok r c' ∧ d' = d
  | .pop => ∃ r, Sparse.pop N c = .ok r c' ∧ d' = d
  | .get i => ∃ r, Sparse.get N i c = .ok r c' ∧ d' = d
  | .getMut i => ∃ v r, Sparse.setIndex N i v c = .ok r c' ∧ d' = d
  | .drop => ∃ (dp : A → Bool) (log log' : List A), Sparse.drop N dp (c, log) = .ok () (c', log') ∧ d' = d
  | .clone => ∃ (dp : A → Bool) (cl : A → Option A) (log log' : List A), d = Sparse.new ∧ Sparse.clone N dp cl (c, log) = .ok d' (c', log')

end Verif.Alias
