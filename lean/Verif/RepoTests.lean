import Verif.Chunk.Model
import Verif.Ring.Model
import Verif.Sparse.Model
import Verif.Inline.Model
import Verif.Fuzz
/-! # The project's unit tests, run on the model

These are not proofs of anything about the crate and no property rests on them. They are evidence that the model is a model of *this*
code: every `#[test]` of /repo/src that exercises one of the four data structures is transcribed here, line by line, and the kernel
evaluates it on the model; so are the examples in the documentation. (`validity_invariant`, which compares the size of two types, and `recursive_types_compile` have nothing to
run.) The build is the one `cargo test` makes: debug assertions and overflow checks are on, `usize` has 64 bits. -/
namespace Verif.RepoTests
open Verif.Fuzz (nodrop same)

/-- `cargo test` on a 64-bit machine. -/
def E : Env := ⟨2 ^ 64, true⟩
/-- The test passes: it returns, and all of its assertions hold. -/
def passes {σ : Type} : Out σ Unit → Bool
  | .ok _ _ => true
  | _ => false
/-- `#[should_panic]`. -/
def panics {σ α : Type} : Out σ α → Bool
  | .panic _ => true
  | _ => false
variable {σ α : Type}
/-- `for x in xs { body }`. -/
def each (body : α → M σ Unit) : List α → M σ Unit
  | [] => pure ()
  | x :: xs => do body x; each body xs
/-- `assert_eq!`. -/
def assertEq [DecidableEq α] (a b : α) : M σ Unit := M.assert (a = b)
/-- The integers of `a..b`. -/
def upto (a b : Nat) : List Nat := (List.range (b - a)).map (· + a)
/-- Run a constructor that keeps a log of destructor calls; nothing is dropped in a successful run. -/
def build (x : M (List Nat) α) : M σ α := fun s => match x [] with
  | .ok a [] => .ok a s
  | .ok _ _ => .panic s
  | .panic _ => .panic s
  | .abort => .abort
  | .ub => .ub
  | .diverge => .diverge
/-- Run `body` on another object that is moved into the test. -/
def on {τ : Type} (x : τ) (body : M τ α) : M σ α := fun s => (body x).mapState (fun _ => s)

namespace Chunk
open Verif.Chunk Verif
/-- sized_chunk/mod.rs:950-955 -/
example : panics ((do let c ← pair 2 123 456; on c (pushBack E 2 789) : M Unit Unit) ()) = true := by decide +kernel
/-- `chunk.into_iter().collect()`: sized_chunk/iter.rs:17-19 until `None`. -/
def drain (N : Nat) : Nat → M (Chunk Nat) (List Nat)
  | 0 => pure []
  | fuel + 1 => do
    match ← iterNext E N with
    | none => pure []
    | some x => return x :: (← drain N fuel)
def collect (N : Nat) : M (Chunk Nat) (List Nat) := drain N (N + 1)
def collectBoth (N : Nat) : M (Chunk Nat × Chunk Nat) (List Nat × List Nat) := do
  return ((← M.onFst (collect N)), (← M.onSnd (collect N)))
/-- The start of most tests: an empty chunk, then pushes. -/
def test (x : M (Chunk Nat) Unit) : Bool := passes (x new)

/-- sized_chunk/mod.rs:975-1013 `issue_11_testcase3a`: elements 42 panic when cloned; only 42 and 43 may ever be dropped. What the
destructors see, in order. -/
def detector : Nat → Option Nat := fun n => if n = 42 then none else some n
def dropDetector : Nat → Bool := fun n => decide (¬ (n = 42 ∨ n = 43))
def testcase3a : M (Chunk Nat × List Nat) Unit := do
  M.onFst (pushBack E 3 42); M.onFst (pushBack E 3 42); M.onFst (pushBack E 3 43)
  let x ← M.onFst (popFront E 3)
  dropOne dropDetector x
  fun s => match clone E 3 dropDetector detector s with
    | .panic s' => .ok () s'
    | .ok _ s' => .panic s'
    | .abort => .abort
    | .ub => .ub
    | .diverge => .diverge
  drop E 3 dropDetector
example : (match testcase3a (new, []) with | .ok _ s => some s.2 | _ => none) = some [42, 42, 43] := by decide +kernel

/-- sized_chunk/mod.rs:1015-1057 `issue_11_testcase3b`: `insert_from` an iterator that panics at once, on a chunk whose elements panic
when dropped. The panic must not turn into an abort. -/
def testcase3b : M (Chunk Nat × List Nat) Unit := do
  M.onFst (pushBack E 5 1); M.onFst (pushBack E 5 2); M.onFst (pushBack E 5 3)
  M.onUnwind (insertFrom E 5 dropDetector 1 ⟨some 1, some 1, [.panic]⟩) (drop E 5 dropDetector)
example : panics (testcase3b (new, [])) = true := by decide +kernel

/-- sized_chunk/mod.rs:1058-1080 `FakeSizeIterator`. -/
def fake (reported actual : Nat) : ExactIt Nat := ⟨some reported, some reported, It.ofList (List.replicate actual 1)⟩
def logged (x : M (Chunk Nat) Unit) (y : M (Chunk Nat × List Nat) Unit) : M (Chunk Nat × List Nat) Unit := do M.onFst x; y
/-- `iterator_too_long` -/
example : passes (logged (each (pushBack E 5) [0, 1, 2]) (insertFrom E 5 nodrop 1 (fake 1 10)) (new, [])) = true := by decide +kernel
example : passes (logged (pushBack E 5 1) (insertFrom E 5 nodrop 0 (fake 1 10)) (new, [])) = true := by decide +kernel
example : passes (insertFrom E 5 nodrop 0 (fake 1 10) (new, [])) = true := by decide +kernel
/-- `iterator_too_short1` -/
example : panics (logged (each (pushBack E 5) [0, 1, 2]) (insertFrom E 5 nodrop 1 (fake 2 0)) (new, [])) = true := by decide +kernel
/-- `iterator_too_short2` -/
example : panics (logged (pushBack E 5 1) (insertFrom E 5 nodrop 1 (fake 4 2)) (new, [])) = true := by decide +kernel

/-- `is_full` -/
example : test (do
  each (fun i => do assertEq false (← isFull 64); pushBack E 64 i) (upto 0 64)
  assertEq true (← isFull 64)) = true := by decide +kernel
/-- `push_back_front` -/
example : test (do
  each (pushBack E 64) (upto 12 20)
  assertEq 8 (← len E)
  each (pushFront E 64) (upto 0 12).reverse
  assertEq 20 (← len E)
  each (pushBack E 64) (upto 20 32)
  assertEq 32 (← len E)
  assertEq (upto 0 32) (← collect 64)) = true := by decide +kernel
/-- `push_and_pop` -/
example : test (do
  each (pushBack E 64) (upto 0 64)
  each (fun i => do assertEq i (← popFront E 64)) (upto 0 64)
  each (pushFront E 64) (upto 0 64)
  each (fun i => do assertEq i (← popBack E 64)) (upto 0 64)) = true := by decide +kernel
/-- `drop_left`, `drop_right` -/
def six : M (Chunk Nat) Unit := each (pushBack E 64) (upto 0 6)
example : passes ((do M.onFst six; dropLeft E 64 nodrop 3; assertEq [3, 4, 5] (← M.onFst (collect 64)) : M (Chunk Nat × List Nat) Unit) (new, [])) = true := by
  decide +kernel
example : passes ((do M.onFst six; dropRight E 64 nodrop 3; assertEq [0, 1, 2] (← M.onFst (collect 64)) : M (Chunk Nat × List Nat) Unit) (new, [])) = true := by
  decide +kernel
/-- `split_off` -/
example : test (do
  six
  let right ← splitOff E 64 3
  assertEq [0, 1, 2] (← collect 64)
  assertEq [3, 4, 5] (← on right (collect 64))) = true := by decide +kernel
/-- `append` -/
example : passes ((do
  M.onFst (each (pushBack E 64) (upto 0 32))
  M.onSnd (each (pushFront E 64) (upto 32 64).reverse)
  append E 64
  assertEq (upto 0 64) (← M.onFst (collect 64)) : M (Chunk Nat × Chunk Nat) Unit) (new, new)) = true := by decide +kernel
/-- `ref_iter`, and `mut_ref_iter`, which differs only in the type of the references -/
example : test (do
  each (pushBack E 64) (upto 0 64)
  assertEq (upto 0 64) (← asSlice E 64)) = true := by decide +kernel
/-- `consuming_iter` -/
example : test (do
  each (pushBack E 64) (upto 0 64)
  assertEq (upto 0 64) (← collect 64)) = true := by decide +kernel
/-- `insert_middle` -/
example : test (do
  each (pushBack E 64) (upto 0 32)
  each (pushBack E 64) (upto 33 64)
  insert E 64 32 32
  assertEq (upto 0 64) (← collect 64)) = true := by decide +kernel
/-- `insert_back` -/
example : test (do
  each (pushBack E 64) (upto 0 63)
  insert E 64 63 63
  assertEq (upto 0 64) (← collect 64)) = true := by decide +kernel
/-- `insert_front` -/
example : test (do
  each (fun i => pushFront E 64 (64 - i)) (upto 1 64)
  insert E 64 0 0
  assertEq (upto 0 64) (← collect 64)) = true := by decide +kernel
/-- `remove_value` -/
example : test (do
  each (pushBack E 64) (upto 0 64)
  let _ ← remove E 64 32
  assertEq (upto 0 32 ++ upto 33 64) (← collect 64)) = true := by decide +kernel
/-- `dropping`: how many of the forty values have been dropped, before and after the chunk itself is. -/
example : passes ((do
  M.onFst (each (pushBack E 64) (upto 0 20))
  M.onFst (each (pushFront E 64) (upto 20 40))
  each (fun _ => do dropOne nodrop (← M.onFst (popBack E 64))) (upto 0 10)
  fun s => (assertEq 30 (40 - s.2.length) : M (Chunk Nat × List Nat) Unit) s
  drop E 64 nodrop
  fun s => (assertEq 0 (40 - s.2.length) : M (Chunk Nat × List Nat) Unit) s : M (Chunk Nat × List Nat) Unit) (new, [])) = true := by decide +kernel
/-- `unit_on_empty`, `pair_on_empty` -/
example : panics (unit 0 1 ()) = true ∧ panics (pair 0 1 2 ()) = true := by decide +kernel
/-- sized_chunk/refpool.rs:42-58 `default_and_clone`, on the memory that the pool hands out (which holds anything). -/
example : passes ((do
  let ref1 := defaultUninit (⟨7, 3, fun _ => some 99⟩ : Chunk Nat)
  on ref1 (do
    each (pushBack E 64) [1, 2, 3]
    let ref1 : Chunk Nat ← fun s => .ok s s
    let ref2 ← on (⟨9, 1, fun _ => some 98⟩ : Chunk Nat) (do cloneUninit 64 some ref1; fun s => .ok s s)
    let lit ← build (fromIter E 64 nodrop (It.ofList (upto 1 4)))
    let ref3 ← on (⟨0, 64, fun _ => some 97⟩ : Chunk Nat) (do cloneUninit 64 some lit; fun s => .ok s s)
    assertEq true (← on (lit, ref1) (eqChunk E 64 64 same))
    assertEq true (← on (lit, ref2) (eqChunk E 64 64 same))
    assertEq true (← on (lit, ref3) (eqChunk E 64 64 same))
    assertEq true (← on (ref1, ref2) (eqChunk E 64 64 same))
    assertEq true (← on (ref2, ref3) (eqChunk E 64 64 same))
    assertEq true (← on (ref3, ref1) (eqChunk E 64 64 same))) : M Unit Unit) ()) = true := by decide +kernel
/-- The slice's `sort`. -/
def sort (l : List Nat) : List Nat := l.foldr (fun x k => k.takeWhile (fun y => decide (y < x)) ++ x :: k.dropWhile (fun y => decide (y < x))) []
/-- The example of the type's documentation, sized_chunk/mod.rs:78-89. -/
example : passes ((do
  extend E 64 nodrop (It.ofList (upto 0 64).reverse)
  M.onFst (mutate E 64 sort)
  let expected ← build (fromIter E 64 nodrop (It.ofList (upto 0 64)))
  let chunk : Chunk Nat ← fun s => .ok s.1 s
  assertEq true (← on (expected, chunk) (eqChunk E 64 64 same)) : M (Chunk Nat × List Nat) Unit) (new, [])) = true := by decide +kernel
/-- The example of `insert_ordered`, sized_chunk/mod.rs:566-572, with a search that finds the equal element. -/
example : passes ((do
  let c ← build (fromIter E 64 nodrop (It.ofList (upto 0 5)))
  on c (do
    insertOrdered E 64 (fun l v => some (match l.findIdx? (fun x => decide (x = v)) with | some i => .ok i | none => .error 0)) 3
    assertEq [0, 1, 2, 3, 3, 4] (← asSlice E 64)) : M Unit Unit) ()) = true := by decide +kernel
end Chunk

namespace Ring
open Verif.Ring Verif
/-- A run of `RingBuffer<_, 64>` that starts with `RingBuffer::new()`. -/
def test (x : M (Ring Nat) Unit) : Bool := passes ((do let r ← new E 64; on r x : M Unit Unit) ())
/-- `(a..b).collect()` -/
def ofRange (a b : Nat) : M σ (Ring Nat) := build (fromIter E 64 nodrop (It.ofList (upto a b)))
def testOn (a b : Nat) (x : M (Ring Nat) Unit) : Bool := passes ((do let r ← ofRange a b; on r x : M Unit Unit) ())
/-- Front pops until `None`, at most `k` of them: ring_buffer/iter.rs `OwnedIter`, `Drain`. -/
def drain : Nat → M (Ring Nat) (List Nat)
  | 0 => pure []
  | k + 1 => do
    match ← popFront E 64 with
    | none => pure []
    | some x => return x :: (← drain k)
/-- The same from the back. -/
def drainBack : Nat → M (Ring Nat) (List Nat)
  | 0 => pure []
  | k + 1 => do
    match ← popBack E 64 with
    | none => pure []
    | some x => return x :: (← drainBack k)
def logged (x : M (Ring Nat × List Nat) α) : M (Ring Nat) α := fun r => (x (r, [])).mapState (·.1)

/-- ring_buffer/mod.rs:992-1000 `is_full` -/
example : test (do
  each (fun i => do assertEq false (← isFull 64); pushBack E 64 i) (upto 0 64)
  assertEq true (← isFull 64)) = true := by decide +kernel
/-- `ref_iter` -/
example : testOn 0 64 (do assertEq (upto 0 64) (← items E 64)) = true := by decide +kernel
/-- `mut_ref_iter`: a write through every reference that `iter_mut` gives out; the references are to all the elements in order. -/
example : testOn 0 64 (do mutate E 64 (fun l => l.map (· + 1)); assertEq (upto 1 65) (← items E 64)) = true := by decide +kernel
/-- `consuming_iter` -/
example : testOn 0 64 (do assertEq (upto 0 64) (← drain 65)) = true := by decide +kernel
/-- `draining_iter` -/
example : testOn 0 64 (do
  let first ← drain 16
  let half ← build (fromIter E 64 nodrop (It.ofList first))
  let last ← drainBack 16
  let half ← on half (do logged (extend E 64 nodrop (It.ofList last)); fun s => .ok s s)
  assertEq true (← eqPrim E 64 same (upto 16 48))
  assertEq true (← on half (eqPrim E 64 same (upto 0 16 ++ (upto 48 64).reverse)))) = true := by decide +kernel
/-- `io_write` -/
example : testOn 0 32 (do
  assertEq 32 (← write E 64 (upto 32 128))
  assertEq true (← eqPrim E 64 same (upto 0 64))) = true := by decide +kernel
/-- `io_read` -/
example : testOn 16 48 (do
  assertEq (16, upto 16 32) (← read E 64 16)
  assertEq true (← eqPrim E 64 same (upto 32 48))
  assertEq (16, upto 32 48) (← read E 64 16)
  assertEq true (← eqPrim E 64 same [])
  assertEq 0 (← read E 64 16).1) = true := by decide +kernel
/-- `clone` -/
example : testOn 0 50 (do
  let c ← logged (clone E 64 nodrop some)
  let b : Ring Nat ← fun s => .ok s s
  assertEq true (← on (b, c) (eqRing E 64 same))) = true := by decide +kernel
/-- `failing` -/
example : test (do
  pushFront E 64 0
  let add ← build (fromIter E 64 nodrop (It.ofList [1, 0, 0, 0, 0, 0]))
  let b : Ring Nat ← fun s => .ok s s
  let b ← on (b, add) (do append E 64; fun s => .ok s.1 s)
  on b (do
    assertEq 1 (← remove E 64 1)
    assertEq true (← eqPrim E 64 same [0, 0, 0, 0, 0, 0]))) = true := by decide +kernel
/-- `dropping` -/
example : test (do
  each (pushBack E 64) (upto 0 20)
  each (pushFront E 64) (upto 20 40)
  fun r => ((do
    each (fun _ => do
      match ← M.onFst (popBack E 64) with
      | none => pure ()
      | some x => dropOne nodrop x) (upto 0 10)
    fun s => (assertEq 30 (40 - s.2.length) : M (Ring Nat × List Nat) Unit) s
    drop E 64 nodrop
    fun s => (assertEq 0 (40 - s.2.length) : M (Ring Nat × List Nat) Unit) s : M (Ring Nat × List Nat) Unit) (r, [])).mapState (·.1)) = true := by
  decide +kernel
/-- `unit_on_empty`, `pair_on_empty` -/
example : panics (unit E 0 1 ()) = true ∧ panics (pair E 0 1 2 ()) = true := by decide +kernel
/-- ring_buffer/refpool.rs:45-63 `default_and_clone` -/
example : passes ((do
  on (⟨7, 3, fun _ => some 99⟩ : Ring Nat) (do
    defaultUninit E 64
    each (pushBack E 64) [1, 2, 3]
    let ref1 : Ring Nat ← fun s => .ok s s
    let ref2 ← on (⟨9, 1, fun _ => some 98⟩ : Ring Nat) (do cloneUninit E 64 some ref1; fun s => .ok s s)
    let lit ← ofRange 1 4
    let ref3 ← on (⟨0, 64, fun _ => some 97⟩ : Ring Nat) (do cloneUninit E 64 some lit; fun s => .ok s s)
    assertEq true (← on (lit, ref1) (eqRing E 64 same))
    assertEq true (← on (lit, ref2) (eqRing E 64 same))
    assertEq true (← on (lit, ref3) (eqRing E 64 same))
    assertEq true (← on (ref1, ref2) (eqRing E 64 same))
    assertEq true (← on (ref1, ref3) (eqRing E 64 same))
    assertEq true (← on (ref2, ref3) (eqRing E 64 same))) : M Unit Unit) ()) = true := by decide +kernel
end Ring

namespace Sparse
open Verif.Sparse Verif
def test (x : M (Sparse Nat) Unit) : Bool := passes (x new)
def logged (x : M (Sparse Nat × List Nat) α) : M (Sparse Nat) α := fun r => (x (r, [])).mapState (·.1)
/-- `into_iter()`: sparse_chunk/iter.rs `Drain`, `pop` until `None`. -/
def drain (N : Nat) : Nat → M (Sparse Nat) (List Nat)
  | 0 => pure []
  | k + 1 => do
    match ← pop N with
    | none => pure []
    | some x => return x :: (← drain N k)
/-- sparse_chunk/mod.rs:449-464 `insert_remove_iterate` -/
example : test (do
  assertEq none (← insert 32 5 5)
  assertEq none (← insert 32 1 1)
  assertEq none (← insert 32 24 42)
  assertEq none (← insert 32 22 22)
  assertEq (some 42) (← insert 32 24 24)
  assertEq none (← insert 32 31 31)
  assertEq (some 24) (← remove 32 24)
  assertEq 4 (← len 32)
  assertEq [1, 5, 22, 31] (← indices 32)
  assertEq [1, 5, 22, 31] (← drain 32 33)) = true := by decide +kernel
/-- `clone_chunk` -/
example : test (do
  assertEq none (← insert 32 5 5)
  assertEq none (← insert 32 1 1)
  assertEq none (← insert 32 24 42)
  assertEq none (← insert 32 22 22)
  let cloned ← logged (clone 32 nodrop some)
  let rightIndices ← indices 32
  let leftIndices ← on cloned (indices 32)
  let right ← drain 32 33
  let left ← on cloned (drain 32 33)
  assertEq left right
  assertEq leftIndices rightIndices
  assertEq [1, 5, 22, 24] leftIndices
  assertEq [1, 5, 22, 24] rightIndices) = true := by decide +kernel
/-- `dropping` -/
example : passes ((do
  each (fun i => do dropOpt nodrop (← M.onFst (insert 64 i i))) (upto 0 40)
  fun s => (assertEq 40 (40 - s.2.length) : M (Sparse Nat × List Nat) Unit) s
  each (fun i => do dropOpt nodrop (← M.onFst (remove 64 i))) (upto 0 20)
  fun s => (assertEq 20 (40 - s.2.length) : M (Sparse Nat × List Nat) Unit) s
  drop 64 nodrop
  fun s => (assertEq 0 (40 - s.2.length) : M (Sparse Nat × List Nat) Unit) s : M (Sparse Nat × List Nat) Unit) (new, [])) = true := by decide +kernel
/-- `equality` -/
example : test (do
  each (fun i => do let _ ← insert 64 i i; pure ()) (upto 0 32)
  let c1 : Sparse Nat ← fun s => .ok s s
  let c2 ← logged (clone 64 nodrop some)
  assertEq true (← on (c1, c2) (eqSparse 64 same))
  let c2 ← on c2 (do each (fun i => do let _ ← insert 64 i 0; pure ()) (upto 4 8); fun s => .ok s s)
  assertEq false (← on (c1, c2) (eqSparse 64 same))
  let c2 ← logged (clone 64 nodrop some)
  let c2 ← on c2 (do each (fun i => do let _ ← remove 64 i; pure ()) (upto 0 16); fun s => .ok s s)
  assertEq false (← on (c1, c2) (eqSparse 64 same))) = true := by decide +kernel

/-- sparse_chunk/iter.rs:209-285: the even numbers below 64, at their own indices. -/
def evens : List (Option Nat) := (upto 0 64).map (fun i => if i % 2 = 0 then some i else none)
def testEvens (x : M (Sparse Nat) Unit) : Bool :=
  passes ((do let c ← build (fromIter 64 nodrop (It.ofList evens)); on c x : M Unit Unit) ())
/-- `option_drain()` -/
def optionDrain (N : Nat) : Nat → Nat → M (Sparse Nat) (List (Option Nat))
  | 0, _ => pure []
  | k + 1, i => do
    match ← optionDrainNext N E i with
    | none => pure []
    | some (x, i') => return x :: (← optionDrain N k i')
/-- `iter` -/
example : testEvens (do assertEq (evens.filterMap id) (← items 64)) = true := by decide +kernel
/-- `iter_mut`: a write through every reference. -/
example : testEvens (do mutate 64 (fun l => l.map (· + 1)); assertEq ((evens.filterMap id).map (· + 1)) (← items 64)) = true := by decide +kernel
/-- `drain` -/
example : testEvens (do assertEq (evens.filterMap id) (← drain 64 65)) = true := by decide +kernel
/-- `option_iter` -/
example : testEvens (do assertEq evens (← optionItems 64 E)) = true := by decide +kernel
/-- `option_iter_mut`: the places it gives out, and a write through every one. -/
example : testEvens (do assertEq evens (← optionSlots 64 E)) = true := by decide +kernel
example : testEvens (do mutateOpt 64 E (fun l => l.map (· + 1)); assertEq (evens.map (Option.map (· + 1))) (← optionItems 64 E)) = true := by decide +kernel
/-- `option_drain` -/
example : testEvens (do assertEq evens (← optionDrain 64 65 0)) = true := by decide +kernel
/-- sparse_chunk/refpool.rs:43-55 `default_and_clone` -/
example : passes ((do
  on (defaultUninit (⟨fun _ => true, fun _ => some 99⟩ : Sparse Nat)) (do
    let _ ← insert 64 5 13
    let _ ← insert 64 10 37
    let _ ← insert 64 31 337
    let ref1 : Sparse Nat ← fun s => .ok s s
    let ref2 ← on ((⟨fun i => decide (i = 3), fun _ => some 98⟩ : Sparse Nat), ref1) (do cloneUninit 64 some; fun s => .ok s.1 s)
    assertEq true (← on (ref1, ref2) (eqSparse 64 same))) : M Unit Unit) ()) = true := by decide +kernel
/-- The example of the type's documentation, sparse_chunk/mod.rs:37-50. -/
example : test (do
  let _ ← insert 20 18 5
  let _ ← insert 20 5 23
  assertEq (← len 20) 2
  assertEq (← get 20 5) (some 23)
  assertEq (← get 20 6) none
  assertEq (← get 20 18) (some 5)) = true := by decide +kernel
end Sparse

namespace Inline
open Verif.Inline Verif
/-- `InlineArray<A, T>` on x86-64: `usize`, `u64` and `(u64, usize)` have alignment 8. -/
def lay {A : Type} (hostSize hostAlign elemSize elemAlign : Nat) (zst : Option A := none) : Layout A :=
  { hostSize, hostAlign, elemSize, elemAlign, headerSize := 8, headerAlign := 8, pairAlign := 8, zst }
/-- A run that starts with `InlineArray::new()`, wherever the compiler put the array. -/
def testAt {A : Type} (k : Nat) (L : Layout A) (x : M (Inline A) Unit) : Bool := passes ((do let a ← new E L k; on a x : M Unit Unit) ())
/-- `InlineArray<u8, [u8; 256]>` -/
def bytes : Layout Nat := lay 256 1 1 1
/-- sized_chunk/mod.rs:957-973 `issue_11_testcase2a`, `issue_11_testcase2b` -/
example : (match new E bytes 5 () with
  | .ok a _ => panics ((do M.onFst (push E bytes 1); let _ ← intoChunk E bytes nodrop 0 : M (Inline Nat × List Nat) Unit) (a, []))
  | _ => false) = true := by decide +kernel
example : (match new E bytes 5 () with
  | .ok a _ => passes ((do M.onFst (push E bytes 1); let _ ← intoChunk E bytes nodrop 1 : M (Inline Nat × List Nat) Unit) (a, []))
  | _ => false) = true := by decide +kernel
/-- inline_array/mod.rs:617-632 `dropping`; `DropTest` is a reference. -/
def refs : Layout Nat := lay 256 8 8 8
example : testAt 3 refs (do
  each (push E refs) (upto 0 16)
  fun a => ((do
    each (fun _ => do
      match ← M.onFst (pop E refs) with
      | none => pure ()
      | some x => dropOne nodrop x) (upto 0 8)
    fun s => (assertEq 8 (16 - s.2.length) : M (Inline Nat × List Nat) Unit) s
    drop E refs nodrop
    fun s => (assertEq 0 (16 - s.2.length) : M (Inline Nat × List Nat) Unit) s : M (Inline Nat × List Nat) Unit) (a, [])).mapState (·.1)) = true := by
  decide +kernel
/-- `zero_sized_values`, with 256 pushes instead of 65536 (the kernel is slow; the theorems cover every number of pushes). -/
def units : Layout Unit := lay 256 8 0 1 (some ())
example : testAt 3 units (do
  each (fun _ => each (fun _ => push E units ()) (upto 0 16)) (upto 0 16)
  assertEq 256 (← len E units)
  assertEq (some ()) (← pop E units)) = true := by decide +kernel
/-- `low_align_base`: a `String` is 24 bytes, aligned to 8. -/
def strings8 : Layout String := lay 512 1 24 8
def strings16 : Layout String := lay 1024 2 24 8
example : testAt 3 strings8 (do push E strings8 "Hello"; assertEq "Hello" (← index E strings8 0)) = true := by decide +kernel
example : testAt 3 strings16 (do push E strings16 "Hello"; assertEq "Hello" (← index E strings16 0)) = true := by decide +kernel
/-- `float_align` -/
def floats16 : Layout Nat := lay 16 1 8 8
def floats17 : Layout Nat := lay 17 1 8 8
example : testAt 3 floats16 (do push E floats16 1234; assertEq 1234 (← index E floats16 0)) = true := by decide +kernel
example : testAt 3 floats17 (do push E floats17 1234; assertEq 1234 (← index E floats17 0)) = true := by decide +kernel
/-- `insufficient_alignment1`: `BigAlign` is 256 bytes aligned to 256, `MediumAlign` 32 aligned to 32. -/
example : cap E (lay 2048 8 256 256 : Layout Nat) = 0 ∧ cap E (lay 8192 32 256 256 : Layout Nat) = 0 := by decide +kernel
/-- `insufficient_alignment2` -/
def bad : Layout Nat := lay 2048 8 256 256
example : testAt 3 bad (do
  assertEq 0 (cap E bad)
  assertEq 0 (← len E bad)
  assertEq 0 (← items E bad).length
  assertEq true (← isFull E bad)
  assertEq none (← iterNext E bad)
  assertEq none (← pop E bad)
  assertEq none (← remove E bad 0)
  let right ← splitOff E bad 7 0
  assertEq true (← on right (isFull E bad))
  fun a => (clear E bad nodrop (a, [])).mapState (·.1)) = true := by decide +kernel
/-- `sufficient_alignment1` -/
def big (n : Nat) : Layout Nat := lay (256 * n) 256 256 256
example : cap E (big 14) = 13 ∧ cap E (big 2) = 1 ∧ cap E (big 1) = 0 := by decide +kernel
/-- `chunk.get(0).unwrap() as *const _ as usize % align_of::<A>()` -/
def misalignment {A : Type} (L : Layout A) : M (Inline A) Bool := do
  let p ← ptrAt E L 0
  fun s => .ok (isAligned L s L.elemAlign p) s
example : testAt 3 (big 2) (do push E (big 2) 42; assertEq true (← misalignment (big 2))) = true := by decide +kernel
/-- `sufficient_alignment2` -/
def bigger (n : Nat) : Layout Nat := lay (256 * n) 256 128 128
example : cap E (bigger 100) = 199 ∧ cap E (bigger 2) = 3 ∧ cap E (bigger 1) = 1 ∧ cap E (bigger 0) = 0 := by decide +kernel
example : testAt 3 (bigger 1) (do push E (bigger 1) 0; assertEq true (← misalignment (bigger 1))) = true := by decide +kernel
/-- The documentation of the type, inline_array/mod.rs:59-63: 56 bytes hold 48 `u8`s, or 6 pointers. -/
example : cap E (lay 56 8 1 1 : Layout Nat) = 48 ∧ cap E (lay 56 8 8 8 : Layout Nat) = 6 := by decide +kernel
end Inline
end Verif.RepoTests
