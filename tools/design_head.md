# Formal model of sized-chunks in Lean 4 — design

Contents: 1 the model; 2 how it is driven and what a property says; 3 property by property; 4 trusted base;
5 what is not modelled; 6 what the proofs found; 7 how the theorems are tested.

## 1. The model

The Rust source is modelled function by function as total, computable Lean functions in a small outcome monad
(`Verif/Basic.lean`). Every definition cites the file and lines of /repo it stands for.

* `Out σ α` = `ok a s` (returned `a`, final state `s`) | `panic s` (unwinding; `s` is the state left behind, so a caller
  using `catch_unwind` sees it) | `abort` (a second panic while unwinding) | `ub` (undefined behaviour) | `diverge`
  (endless loop). `M σ α := σ → Out σ α`.
* `usize` arithmetic is *checked*: `E.W` is the number of `usize` values (any, not only 2^64), `E.debug` says whether
  overflow and `debug_assert!` panic (debug) or wrap and vanish (release). `uadd`/`usub`/`umul` do this; no truncated
  natural-number subtraction stands for a Rust subtraction.
* `MaybeUninit<[A; N]>` is `Mem A := Nat → Option A`, `none` = never written. A typed read of `none`, and every read, write
  or block move that leaves `0..N`, is `ub`. `ptr::copy` is an untyped move (it may move unwritten slots).
  After `ptr::read` the bits stay where they are, as in Rust, so a second read of a moved-out slot yields the value again
  and shows up as a duplicate in the conservation theorems.
* `InlineArray` is modelled at the *byte* level: the host `T` is an array of bytes, each tagged with what was last written
  there (byte `k` of element `a`, or byte `k` of the length `n`, or nothing). A read of an element or of the length is `ub` unless all
  its bytes are there, in order, at an aligned address. Offsets come from `repr(C)` layout rules and are not assumed.
* Destructors append to a drop log; any destructor may panic (`dp : A → Bool`). `Clone` is `A → Option A` (`none` panics).
  Drop glue of slices, arrays and `Vec` goes on after a panicking element and aborts at the second, as `core::ptr::drop_in_place`
  does. Values owned by a stack frame are dropped when it unwinds (`withLocal`, `onUnwind`, `giving`).
* Iterators passed in are finite lists of events (`item a` / `panic`, then `None`); an exact-size one carries what its first and second
  `len()` calls answer. They may be shorter or longer than `len()` claims. (After `None` an iterator is not asked again by any code here.)
* Loops whose termination is not structural carry fuel; running out of fuel is `diverge`, and the theorems prove it is not reached
  (or, in the counterexamples for zero capacity and wrapping bulk inserts, that it is, for every amount of fuel).

| Directory | Stands for |
|---|---|
| `Verif/Chunk/Model.lean` | src/sized_chunk/mod.rs, iter.rs, refpool.rs; src/arbitrary.rs (collect loop) |
| `Verif/Ring/Model.lean` | src/ring_buffer/{mod,index,iter,slice,refpool}.rs |
| `Verif/Sparse/Model.lean` | src/sparse_chunk/{mod,iter,refpool}.rs |
| `Verif/Inline/Model.lean` | src/inline_array/{mod,iter}.rs, src/arbitrary.rs |
| `Verif/Cmp.lean` | slice comparison, lexicographic order, what a container feeds to a `Hasher` |
| `*/World.lean`, `Driver.lean`, `World.lean` | the client: any program calling the API (section 2) |
| `Spec.lean`, `SpecMap.lean` | the specification: plain lists and finite maps, written without reference to the model |
| `*/Lemmas*.lean`, `*/Bal.lean`, `*/View.lean`, `Vc.lean`, `Ledger.lean`, `SpecBal.lean`, `Safe.lean` | proof machinery |
| `Props/*.lean` | the theorems named in MANIFEST.json and a concrete case beside each |

## 2. Histories and specification

`Machine` (World.lean) is a table of API calls; `Op` is one call on numbered containers; `run ops World.empty` runs any finite history
over any number of containers, catching panics (as a client with `catch_unwind` would) and collecting what the client sees: returned
values, panics, and the order in which destructors run. There is one table for the code and one for the specification.

* *Specification for Chunk, RingBuffer, InlineArray*: a list of at most `N` items (`Spec.lean`). *For SparseChunk*: a function
  `Nat → Option A` that is `none` from `N` on (`SpecMap.lean`).
* *What a container "shows"* (`View`): for Chunk and InlineArray `as_slice()` returns the list; for RingBuffer iterating returns it; for
  SparseChunk `get` answers as the map. `View` is stated with the model's public observers, not with representation fields (for RingBuffer it
  also says that the origin and length are within the storage, without which iteration alone would not determine the state).
* *Refinement* (`Ref`, `RefV`, `MachineRel`, `run_ref`): code and specification give equal observations, call by call, and end in related
  states. All history properties follow by induction over the call list; per-call properties (`Returns`, `PanicsExactly`) instantiate it.
* *Conservation* (`Ledger.lean`): the elements moved in plus the elements made by `Clone` are a permutation of those handed back plus those
  destroyed plus those still stored. Proved on the specification and carried over.

**Calls the client of the list refinements refrains from** (a refrained call is observed as `skipped` on both sides):

| Where | Call left out | Why, and where it is treated |
|---|---|---|
| Chunk | release-build `insert_from` with `N + len() ≥ 2^w` | undefined behaviour in the code: C12 |
| Chunk | release-build `from_front`/`from_back` with an excessive count | undefined behaviour in the code: C22 |
| Chunk | an iterator whose two `len()` answers differ | undefined behaviour in the code: C11 |
| Ring | release-build `insert_from` with `N + len() ≥ 2^w` | panic after changes, an endless loop, or undefined behaviour: C31, C32 |
| Ring | indexing a slice outside its range but inside the buffer | answers from outside the slice: C39; safety is proved for it too (C26_raw_*) |
| Ring | slice bounds whose end overflows in a release build | accepted by the code: C40; safety is proved for it too (C26_raw_*) |
| Ring | debug-build `io::Write` | may panic: C41; safety is proved for it too (C26_raw_*) |
| Ring | `N = 0` | does not work: C44 |
| InlineArray | layouts for which `new` panics | C58 |

Side condition on sizes: `2 * N < E.W`. An object is at most `isize::MAX` bytes, so this holds of every element type of non-zero size and of
zero-sized elements with `N ≤ isize::MAX`; larger capacities of zero-sized elements are left out (and do not work in debug builds of `RingBuffer`: C82).

## 3. Property by property

