import Verif.Props.AliasPointers
import Verif.Chunk.View
import Verif.Inline.View
/-
What the methods of `Chunk` and `InlineArray` do with pointers, in terms of the calls of Alias.lean.
-/
namespace Verif.Alias
open Verif
variable {A : Type}

/-! ### Chunk -/

/-- The methods of `Chunk` that touch its storage. Container 0 is `self`; container 1 is the other chunk of `append`,
`drain_from_front` and `drain_from_back`, or the new one of `split_off`, `from_front`, `from_back` and `clone`. -/
inductive ChunkMethod where
  | pushFront | pushBack | popFront | popBack
  | insert (i : Nat) | remove (i : Nat)
  /-- `insert_from` of `n` items. -/
  | insertFrom (i n : Nat)
  | splitOff (i : Nat) | fromFront (n : Nat) | fromBack (n : Nat)
  | append | drainFromFront (n : Nat) | drainFromBack (n : Nat)
  | dropLeft (i : Nat) | dropRight (i : Nat) | clear
  /-- `chunk[i]` and `chunk[i] = …`, also `set`. -/
  | index (i : Nat) | indexMut (i : Nat)
  | clone
deriving DecidableEq, Repr

/-- Write `n` slots from slot `i` on, one after the other (src/sized_chunk/mod.rs:304-307 in `write_from_iter`). -/
def writes (x i n : Nat) : List Call := (List.range' i n).map (Call.writeAt x)

/-- Use items `i .. i + n` of the slice `lo .. lo + k`: `drop_in_place` of it or of a part of it. The slice is taken once in the code,
and once per item here. -/
def useItems (x lo k i n : Nat) : List Call := (List.range' i n).map (Call.sliceMut x lo k)

/-- The calls a method makes on a chunk with bounds `l` and `r`; the other chunk has bounds `l'` and `r'`. A method which panics stops
where it does; `from_front` and `from_back` are taken to check the count, as they do in debug builds (C22). -/
def ChunkMethod.calls (N l r l' r' : Nat) : ChunkMethod → List Call
  -- src/sized_chunk/mod.rs:336-350
  | .pushFront => .len 0 :: if l = 0 ∧ r = N then [] else .len 0 ::
      if l = r then [.field 0 true, .field 0 true, .field 0 false, .writeAt 0 (N - 1)]
      else if l = 0 then [.field 0 false, .field 0 true, .field 0 false, .copyWithin 0 0 (N - r) r, .field 0 true, .field 0 true, .field 0 false,
        .writeAt 0 (N - r - 1)]
      else [.field 0 false, .field 0 true, .field 0 false, .writeAt 0 (l - 1)]
  -- src/sized_chunk/mod.rs:357-371
  | .pushBack => .len 0 :: if l = 0 ∧ r = N then [] else .len 0 ::
      if l = r then [.field 0 true, .field 0 false, .writeAt 0 0, .field 0 true]
      else if r = N then [.field 0 false, .len 0, .copyWithin 0 l 0 (r - l), .field 0 true, .field 0 false, .writeAt 0 (N - l), .field 0 true]
      else [.field 0 false, .writeAt 0 r, .field 0 true]
  -- src/sized_chunk/mod.rs:378-386
  | .popFront => .len 0 :: if l = r then [] else [.field 0 false, .readAt 0 l, .field 0 true]
  -- src/sized_chunk/mod.rs:393-400
  | .popBack => .len 0 :: if l = r then [] else [.field 0 true, .field 0 false, .readAt 0 (r - 1)]
  -- src/sized_chunk/mod.rs:530-553
  | .insert i => .len 0 :: if l = 0 ∧ r = N then [] else .len 0 ::
      if i > r - l then [] else .field 0 false ::
      if r = N ∨ (l > 0 ∧ i < r - (i + l)) then [.copyWithin 0 l (l - 1) i, .writeAt 0 (i + l - 1), .field 0 true]
      else [.copyWithin 0 (i + l) (i + l + 1) (r - (i + l)), .writeAt 0 (i + l), .field 0 true]
  -- src/sized_chunk/mod.rs:649-665
  | .remove i => .len 0 :: if i ≥ r - l then [] else [.field 0 false, .readAt 0 (i + l), .field 0 false] ++
      if i < r - (i + l) - 1 then [.copyWithin 0 l (l + 1) i, .field 0 true]
      else [.copyWithin 0 (i + l + 1) (i + l) (r - (i + l) - 1), .field 0 true]
  -- src/sized_chunk/mod.rs:595-639, 289-315
  | .insertFrom i n => .len 0 :: if r - l + n > N then [] else .len 0 :: if i > r - l then [] else .field 0 false ::
      if r = N ∨ (l ≥ n ∧ i < r - (i + l)) then
        [.field 0 false, .copyWithin 0 l (l - n) i, .field 0 true] ++ writes 0 (i + l - n) n ++ [.field 0 true, .field 0 true]
      else if l = 0 ∨ r + n ≤ N then
        [.field 0 false, .copyWithin 0 (i + l) (i + l + n) (r - (i + l)), .field 0 true] ++ writes 0 (i + l) n ++ [.field 0 true, .field 0 true]
      else [.field 0 false, .copyWithin 0 l 0 i, .copyWithin 0 (i + l) (i + n) (r - (i + l)), .field 0 true] ++ writes 0 i n ++
        [.field 0 true, .field 0 true]
  -- src/sized_chunk/mod.rs:433-447
  | .splitOff i => .len 0 :: if i > r - l then [] else .len 0 :: if i = r - l then [] else
      [.field 0 false, .copyTo 0 1 (l + i) 0 (r - (l + i)), .field 1 true, .field 0 true]
  -- src/sized_chunk/mod.rs:200-208
  | .fromFront n => .len 0 :: if n > r - l then [] else [.field 0 false, .copyTo 0 1 l 0 n, .field 1 true, .field 0 true]
  -- src/sized_chunk/mod.rs:214-222
  | .fromBack n => .len 0 :: if n > r - l then [] else [.field 0 false, .copyTo 0 1 (r - n) 0 n, .field 1 true, .field 0 true]
  -- src/sized_chunk/mod.rs:454-469
  | .append => .len 0 :: .len 1 :: if r - l + (r' - l') > N then [] else
      (if r + (r' - l') > N then [.field 0 false, .copyWithin 0 l 0 (r - l), .field 0 true] else [.field 0 false]) ++
      [.field 1 false, .field 0 false, .copyTo 1 0 l' (if r + (r' - l') > N then r - l else r) (r' - l'), .field 0 true, .field 1 true]
  -- src/sized_chunk/mod.rs:478-491
  | .drainFromFront n => .len 0 :: .len 1 :: if r - l + n > N then [] else if r' - l' < n then [] else
      (if r + n > N then [.field 0 false, .copyWithin 0 l 0 (r - l), .field 0 true] else [.field 0 false]) ++
      [.field 1 false, .field 0 false, .copyTo 1 0 l' (if r + n > N then r - l else r) n, .field 0 true, .field 1 true]
  -- src/sized_chunk/mod.rs:500-513
  | .drainFromBack n => .len 0 :: .len 1 :: if r - l + n > N then [] else if r' - l' < n then [] else
      (if l < n then [.field 0 false, .copyWithin 0 l (N - (r - l)) (r - l), .field 0 true] else [.field 0 false]) ++
      [.field 1 false, .field 0 false, .copyTo 1 0 (r' - n) ((if l < n then N - (r - l) else l) - n) n, .field 0 true, .field 1 true]
  -- src/sized_chunk/mod.rs:407-412
  | .dropLeft i => if i = 0 ∨ i > r - l then [] else useItems 0 l (r - l) l i ++ [.field 0 true]
  -- src/sized_chunk/mod.rs:419-424
  | .dropRight i => .len 0 :: if i ≥ r - l then [] else useItems 0 l (r - l) (l + i) (r - l - i) ++ [.field 0 true]
  -- src/sized_chunk/mod.rs:675-679; `drop` is the same without the assignments (101)
  | .clear => useItems 0 l (r - l) l (r - l) ++ [.field 0 true]
  -- through `Deref` and `DerefMut`, src/sized_chunk/mod.rs:708-725, `set` 520-522
  | .index i => if i < r - l then [.slice 0 l (r - l) (l + i)] else []
  | .indexMut i => if i < r - l then [.sliceMut 0 l (r - l) (l + i)] else []
  -- src/sized_chunk/mod.rs:109-121
  | .clone => [.field 0 false, .field 1 true] ++ (List.range' l (r - l)).flatMap fun i => [.getRef 0 i, .writeAt 1 i, .field 1 true]

/-- The method moves items of the chunk to other slots of the same chunk. -/
def ChunkMethod.Shifts (N l r l' r' : Nat) : ChunkMethod → Prop
  | .pushFront => l = 0 ∧ 0 < r ∧ r < N
  | .pushBack => 0 < l ∧ l < r ∧ r = N
  | .insert i => ¬(l = 0 ∧ r = N) ∧ i ≤ r - l ∧ if r = N ∨ (l > 0 ∧ i < r - l - i) then 0 < i else i < r - l
  | .remove i => i < r - l ∧ if i < r - l - i - 1 then 0 < i else i + 1 < r - l
  | .insertFrom i n => r - l + n ≤ N ∧ i ≤ r - l ∧
      if r = N ∨ (l ≥ n ∧ i < r - l - i) then 0 < i else if l = 0 ∨ r + n ≤ N then i < r - l else l < r
  | .append => r - l + (r' - l') ≤ N ∧ r + (r' - l') > N ∧ l < r
  | .drainFromFront n => r - l + n ≤ N ∧ n ≤ r' - l' ∧ r + n > N ∧ l < r
  | .drainFromBack n => r - l + n ≤ N ∧ n ≤ r' - l' ∧ l < n ∧ l < r
  | _ => False

/-! ### InlineArray -/

/-- The methods of `InlineArray`; container 1 is the array that `split_off` and `clone` make. -/
inductive InlineMethod where
  | push | pop | insert (i : Nat) | remove (i : Nat) | splitOff (i : Nat) | clear
  /-- `array[i]` and `array[i] = …` through `Deref` and `DerefMut`. -/
  | index (i : Nat) | indexMut (i : Nat)
  | clone
deriving DecidableEq, Repr

/-- The calls a method makes on an array of capacity `N` with `k` items. -/
def InlineMethod.calls (N k : Nat) : InlineMethod → List Call
  -- src/inline_array/mod.rs:298-306
  | .push => .inlineLen 0 :: if k ≥ N then [] else [.inlineLen 0, .inlineWrite 0 k, .inlineSetLen 0]
  -- src/inline_array/mod.rs:313-322
  | .pop => .inlineLen 0 :: if k = 0 then [] else [.inlineSetLen 0, .inlineLen 0, .inlineRead 0 (k - 1)]
  -- src/inline_array/mod.rs:330-343
  | .insert i => .inlineLen 0 :: if k ≥ N then [] else .inlineLen 0 :: if i > k then [] else [.inlineInsert 0 i k]
  -- src/inline_array/mod.rs:352-364
  | .remove i => .inlineLen 0 :: if i ≥ k then [] else [.inlineRemove 0 i k]
  -- src/inline_array/mod.rs:373-386
  | .splitOff i => .inlineLen 0 :: if i > k then [] else .inlineSetLen 1 :: .inlineLen 0 :: if i < k then
      [.inlineCopy 0 1 i (k - i), .inlineLen 0, .inlineSetLen 1, .inlineSetLen 0] else []
  -- src/inline_array/mod.rs:389-401; `drop` is the same without the assignment (409-413)
  | .clear => (List.range k).map (Call.inlineDerefMut 0 k) ++ [.inlineSetLen 0]
  -- src/inline_array/mod.rs:444-452
  | .index i => if i < k then [.inlineDeref 0 k i] else []
  | .indexMut i => if i < k then [.inlineDerefMut 0 k i] else []
  -- src/inline_array/mod.rs:428-439
  | .clone => .inlineSetLen 1 :: .inlineLen 0 :: (List.range k).flatMap (fun i => [.inlineDeref 0 k i, .inlineWrite 1 i]) ++ [.inlineLen 0, .inlineSetLen 1]

/-- The method moves items to the left. -/
def InlineMethod.Shifts (k : Nat) : InlineMethod → Prop
  | .remove i => i + 1 < k
  | _ => False

/-! ### What the calls do to memory -/

/-- The effect of a call on the storage of the containers, whatever the values written. Reads, drops and uses of references find an
initialised slot. -/
inductive Call.Acts : Call → (Nat → Mem A) → (Nat → Mem A) → Prop
  | field {x w m} : Acts (.field x w) m m
  | len {x m} : Acts (.len x) m m
  | readAt {x i m} (h : (m x i).isSome) : Acts (.readAt x i) m m
  | getRef {x i m} (h : (m x i).isSome) : Acts (.getRef x i) m m
  | slice {x lo n i m} (h : ∀ j, lo ≤ j → j < lo + n → (m x j).isSome) : Acts (.slice x lo n i) m m
  | sliceMut {x lo n i m} (h : ∀ j, lo ≤ j → j < lo + n → (m x j).isSome) (v : A) :
      Acts (.sliceMut x lo n i) m (fun y => if y = x then (m y).put i v else m y)
  /-- A slice for `drop_in_place`, which leaves the slots as they are. -/
  | sliceDrop {x lo n i m} (h : ∀ j, lo ≤ j → j < lo + n → (m x j).isSome) : Acts (.sliceMut x lo n i) m m
  | writeAt {x i m} (v : A) : Acts (.writeAt x i) m (fun y => if y = x then (m y).put i v else m y)
  | copyWithin {x frm to n m} : Acts (.copyWithin x frm to n) m (fun y => if y = x then (m x).blit frm (m x) to n else m y)
  | copyTo {x y frm to n m} : Acts (.copyTo x y frm to n) m (fun z => if z = y then (m x).blit frm (m y) to n else m z)

/-- The effect of several calls. -/
inductive ActsAll : List Call → (Nat → Mem A) → (Nat → Mem A) → Prop
  | nil {m} : ActsAll [] m m
  | cons {c cs m m' m''} : Call.Acts c m m' → ActsAll cs m' m'' → ActsAll (c :: cs) m m''

/-- The storage of the two chunks. -/
def mems (c d : Chunk A) : Nat → Mem A := fun y => if y = 0 then c.mem else if y = 1 then d.mem else Mem.uninit

/-- The value model of the method (Chunk/Model.lean) takes the chunks `c` and `d` to `c'` and `d'` without a panic. -/
def ChunkMethod.Runs (E : Env) (N : Nat) (m : ChunkMethod) (c d c' d' : Chunk A) : Prop :=
  match m with
  | .pushFront => ∃ v, Chunk.pushFront E N v c = .ok () c' ∧ d' = d
  | .pushBack => ∃ v, Chunk.pushBack E N v c = .ok () c' ∧ d' = d
  | .popFront => ∃ v, Chunk.popFront E N c = .ok v c' ∧ d' = d
  | .popBack => ∃ v, Chunk.popBack E N c = .ok v c' ∧ d' = d
  | .insert i => ∃ v, Chunk.insert E N i v c = .ok () c' ∧ d' = d
  | .remove i => ∃ v, Chunk.remove E N i c = .ok v c' ∧ d' = d
  | .insertFrom i n => ∃ dp it log log', N + n < E.W ∧ Chunk.insertFrom E N dp i ⟨n, n, it⟩ (c, log) = .ok () (c', log') ∧ d' = d
  | .splitOff i => d = Chunk.new ∧ Chunk.splitOff E N i c = .ok d' c'
  | .fromFront n => d = Chunk.new ∧ n ≤ c.right - c.left ∧ Chunk.fromFront E N n c = .ok d' c'
  | .fromBack n => d = Chunk.new ∧ n ≤ c.right - c.left ∧ Chunk.fromBack E N n c = .ok d' c'
  | .append => Chunk.append E N (c, d) = .ok () (c', d')
  | .drainFromFront n => n ≤ N ∧ Chunk.drainFromFront E N n (c, d) = .ok () (c', d')
  | .drainFromBack n => n ≤ N ∧ Chunk.drainFromBack E N n (c, d) = .ok () (c', d')
  | .dropLeft i => ∃ (dp : A → Bool) (log log' : List A), Chunk.dropLeft E N dp i (c, log) = .ok () (c', log') ∧ d' = d
  | .dropRight i => ∃ (dp : A → Bool) (log log' : List A), Chunk.dropRight E N dp i (c, log) = .ok () (c', log') ∧ d' = d
  | .clear => ∃ (dp : A → Bool) (log log' : List A), Chunk.clear E N dp (c, log) = .ok () (c', log') ∧ d' = d
  | .index i => ∃ v, Chunk.index E N i c = .ok v c' ∧ d' = d
  | .indexMut i => ∃ v w, Chunk.set E N i v c = .ok w c' ∧ d' = d
  | .clone => ∃ (dp : A → Bool) (cl : A → Option A) (log log' : List A), d = ⟨c.left, c.left, Mem.uninit⟩ ∧ Chunk.clone E N dp cl (c, log) = .ok d' (c', log')

end Verif.Alias
