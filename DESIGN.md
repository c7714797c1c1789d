# Formal model of sized-chunks in Lean 4 — design

Contents: 1 the model; 2 how it is driven and what a property says; 3 property by property; 4 trusted base;
5 what is not modelled; 6 what the proofs found; 7 how the theorems are tested.

## 1. The model

The Rust source is modelled function by function as total, computable Lean functions in a small outcome monad
(`Verif/Basic.lean`). Every definition cites the file and lines of /repo it stands for.

* `Out σ α` = `ok a s` (returned `a`, final state `s`) | `panic s` (unwinding; `s` is the state left behind, so a caller
  using `catch_unwind` sees it) | `abort` (a second panic while unwinding) | `ub` (undefined behaviour) | `diverge`
  (endless loop). `M σ α := σ → Out σ α`.
* `usize` arithmetic is *checked*: `E.W` is the number of `usize` values (any, not only 2^64), `E.debug` says whether
  overflow and `debug_assert!` panic (debug) or wrap and vanish (release). `uadd`/`usub`/`umul` do this; no truncated
  natural-number subtraction stands for a Rust subtraction.
* `MaybeUninit<[A; N]>` is `Mem A := Nat → Option A`, `none` = never written. A typed read of `none`, and every read, write
  or block move that leaves `0..N`, is `ub`. `ptr::copy` is an untyped move (it may move unwritten slots).
  After `ptr::read` the bits stay where they are, as in Rust, so a second read of a moved-out slot yields the value again
  and shows up as a duplicate in the conservation theorems.
* `InlineArray` is modelled at the *byte* level: the host `T` is an array of bytes, each tagged with what was last written
  there (byte `k` of element `a`, or byte `k` of the length `n`, or nothing). A read of an element or of the length is `ub` unless all
  its bytes are there, in order, at an aligned address. Offsets come from `repr(C)` layout rules and are not assumed.
* Destructors append to a drop log; any destructor may panic (`dp : A → Bool`). `Clone` is `A → Option A` (`none` panics).
  Drop glue of slices, arrays and `Vec` goes on after a panicking element and aborts at the second, as `core::ptr::drop_in_place`
  does. Values owned by a stack frame are dropped when it unwinds (`withLocal`, `onUnwind`, `giving`).
* Iterators passed in are finite lists of events (`item a` / `panic`, then `None`); an exact-size one carries what its first and second
  `len()` calls answer. They may be shorter or longer than `len()` claims. (After `None` an iterator is not asked again by any code here.)
* Loops whose termination is not structural carry fuel; running out of fuel is `diverge`, and the theorems prove it is not reached
  (or, in the counterexamples for zero capacity and wrapping bulk inserts, that it is, for every amount of fuel).

| Directory | Stands for |
|---|---|
| `Verif/Chunk/Model.lean` | src/sized_chunk/mod.rs, iter.rs, refpool.rs; src/arbitrary.rs (collect loop) |
| `Verif/Ring/Model.lean` | src/ring_buffer/{mod,index,iter,slice,refpool}.rs |
| `Verif/Sparse/Model.lean` | src/sparse_chunk/{mod,iter,refpool}.rs |
| `Verif/Inline/Model.lean` | src/inline_array/{mod,iter}.rs, src/arbitrary.rs |
| `Verif/Cmp.lean` | slice comparison, lexicographic order, what a container feeds to a `Hasher` |
| `*/World.lean`, `Driver.lean`, `World.lean` | the client: any program calling the API (section 2) |
| `Spec.lean`, `SpecMap.lean` | the specification: plain lists and finite maps, written without reference to the model |
| `*/Lemmas*.lean`, `*/Bal.lean`, `*/View.lean`, `Vc.lean`, `Ledger.lean`, `SpecBal.lean`, `Safe.lean` | proof machinery |
| `Props/*.lean` | the theorems named in MANIFEST.json and a concrete case beside each |

## 2. Histories and specification

`Machine` (World.lean) is a table of API calls; `Op` is one call on numbered containers; `run ops World.empty` runs any finite history
over any number of containers, catching panics (as a client with `catch_unwind` would) and collecting what the client sees: returned
values, panics, and the order in which destructors run. There is one table for the code and one for the specification.

* *Specification for Chunk, RingBuffer, InlineArray*: a list of at most `N` items (`Spec.lean`). *For SparseChunk*: a function
  `Nat → Option A` that is `none` from `N` on (`SpecMap.lean`).
* *What a container "shows"* (`View`): for Chunk and InlineArray `as_slice()` returns the list; for RingBuffer iterating returns it; for
  SparseChunk `get` answers as the map. `View` is stated with the model's public observers, not with representation fields (for RingBuffer it
  also says that the origin and length are within the storage, without which iteration alone would not determine the state).
* *Refinement* (`Ref`, `RefV`, `MachineRel`, `run_ref`): code and specification give equal observations, call by call, and end in related
  states. All history properties follow by induction over the call list; per-call properties (`Returns`, `PanicsExactly`) instantiate it.
* *Conservation* (`Ledger.lean`): the elements moved in plus the elements made by `Clone` are a permutation of those handed back plus those
  destroyed plus those still stored. Proved on the specification and carried over.

**Calls the client of the list refinements refrains from** (a refrained call is observed as `skipped` on both sides):

| Where | Call left out | Why, and where it is treated |
|---|---|---|
| Chunk | release-build `insert_from` with `N + len() ≥ 2^w` | undefined behaviour in the code: C12 |
| Chunk | release-build `from_front`/`from_back` with an excessive count | undefined behaviour in the code: C22 |
| Chunk | an iterator whose two `len()` answers differ | undefined behaviour in the code: C11 |
| Ring | release-build `insert_from` with `N + len() ≥ 2^w` | panic after changes, an endless loop, or undefined behaviour: C31, C32 |
| Ring | indexing a slice outside its range but inside the buffer | answers from outside the slice: C39; safety is proved for it too (C26_raw_*) |
| Ring | slice bounds whose end overflows in a release build | accepted by the code: C40; safety is proved for it too (C26_raw_*) |
| Ring | debug-build `io::Write` | may panic: C41; safety is proved for it too (C26_raw_*) |
| Ring | `N = 0` | does not work: C44 |
| InlineArray | layouts for which `new` panics | C58 |

Side condition on sizes: `2 * N < E.W`. An object is at most `isize::MAX` bytes, so this holds of every element type of non-zero size and of
zero-sized elements with `N ≤ isize::MAX`; larger capacities of zero-sized elements are left out (and do not work in debug builds of `RingBuffer`: C82).

## 3. Property by property

| Property | Title | What is modelled | How it is proved | Status |
|---|---|---|---|---|
| C01 | Chunk behaves like a bounded list for every history | all Chunk calls, any number of chunks | refinement to lists, induction over the call list (`run_ref`) | proved |
| C02 | Chunk length never exceeds capacity and len/is_empty/is_full tell the truth | len/is_empty/is_full on reachable chunks | invariant carried by the refinement | proved |
| C03 | Safe Chunk calls never touch uninitialised or out-of-bounds memory | same histories; `ub` and `diverge` outcomes | no outcome related to the list specification is `ub`/`diverge` | proved |
| C04 | Chunk panics exactly when documented and a refused call changes nothing | each Chunk call alone | instances of the per-call refinement, with and without the precondition | proved |
| C05 | Chunk is a double-ended queue at every layout | each Chunk call alone | instances of the per-call refinement, with and without the precondition | proved |
| C06 | Chunk insert/remove/set act at exactly the given index | each Chunk call alone | instances of the per-call refinement, with and without the precondition | proved |
| C07 | Bulk moves between chunks keep order and conserve items | append, drain_from_*, from_front/back, split_off | per-call refinement on pairs of chunks | proved |
| C08 | split_off and append are inverse | append, drain_from_*, from_front/back, split_off | per-call refinement on pairs of chunks | proved |
| C09 | Chunk::insert_from inserts exactly the iterator's items in order | insert_from and write_from_iter with event iterators | case analysis of the three block moves, induction over events | proved |
| C10 | Chunk::insert_from is memory-safe for lying or panicking iterators | insert_from and write_from_iter with event iterators | case analysis of the three block moves, induction over events | proved |
| C11 | Chunk::insert_from is memory-safe even if len() changes between calls | two separate `len()` answers; wrapping addition | counterexample by evaluation; the true part from C10 | partial |
| C12 | Chunk::insert_from refuses an over-long iterator in release builds too | two separate `len()` answers; wrapping addition | counterexample by evaluation; the true part from C10 | partial |
| C13 | Chunk::insert_ordered keeps a sorted chunk sorted | insert_ordered over any search meeting the std contract | list lemma on sorted insertion | proved |
| C14 | Chunk drops or hands out every element exactly once | drop log, elements handed over and back, `Clone` births | permutation invariant over histories (`conservation`) | proved |
| C15 | Chunk never drops an element twice even if a destructor panics | panicking destructors | counterexample by evaluation; the true part from the invariant | partial |
| C16 | Chunk::clone copies contents and survives a panicking Clone | clone loops with panicking `Clone` | induction over the items; the partial copy is accounted for | proved |
| C17 | collect/extend/collect_from take items in order and fail cleanly | from_iter, extend, collect_from | induction over iterator events | proved |
| C18 | Chunk consuming and draining iterators yield the contents under any interleaving | Iter, IterMut, Drain, OwnedIter | induction over interleavings of next and next_back | proved |
| C19 | Chunk io::Read/io::Write is a bounded FIFO byte pipe | io::Read/Write | refinement to a byte queue | proved |
| C20 | Chunk equality, ordering and hashing depend only on contents | eq/cmp/partial_cmp/hash | characterised by contents; lexicographic order stated separately (`LexBefore`) | proved |
| C21 | Chunk and InlineArray hash like the slice they Borrow as | what is fed to the hasher | differs for every chunk from the slice's by the length prefix | partial |
| C22 | Chunk::from_front/from_back reject an excessive count | from_front/from_back in both builds | release counterexample; debug part from the refinement | partial |
| C23 | Chunk::from(InlineArray) moves everything or nothing | From<InlineArray> over the byte model | per-call theorem across the two models | proved |
| C24 | RingBuffer behaves like a bounded list for every history | all RingBuffer calls, slices included | refinement to lists, induction over the call list (`run_ref`) | proved |
| C25 | RingBuffer length never exceeds capacity and len/is_full/get agree with contents | observers on reachable buffers | invariant carried by the refinement | proved |
| C26 | Safe RingBuffer calls never touch uninitialised or out-of-bounds memory and terminate | same histories, and (raw) with nothing held back but C31's call | refinement; for raw histories an invariant kept by each call (`Keeps`) | proved |
| C27 | RingBuffer panics exactly when documented and a refused call changes nothing | each RingBuffer call alone | loops by induction on logical positions, slots via `ridx` | proved |
| C28 | RingBuffer is a double-ended queue without ever moving items | each RingBuffer call alone | loops by induction on logical positions, slots via `ridx` | proved |
| C29 | RingBuffer insert/remove act at exactly the given index | each RingBuffer call alone | loops by induction on logical positions, slots via `ridx` | proved |
| C30 | RingBuffer bulk moves keep order and conserve items across the seam | each RingBuffer call alone | loops by induction on logical positions, slots via `ridx` | proved |
| C31 | RingBuffer::insert_from inserts exactly the iterator's items in order | insert_from: shifting loops, gap filling, extension at the end | induction over events; counterexamples for wrapping and over-long iterators; exactly what a wrapping sum does: `Props/RingWrap.lean`, `Props/RingWrap2.lean` | partial |
| C32 | RingBuffer::insert_from is memory-safe and takes at most len() items for lying iterators | insert_from: shifting loops, gap filling, extension at the end | induction over events; counterexamples for wrapping and over-long iterators; exactly what a wrapping sum does: `Props/RingWrap.lean`, `Props/RingWrap2.lean` | partial |
| C33 | RingBuffer::insert_ordered keeps a sorted buffer sorted | insert_ordered over any search meeting the std contract | list lemma on sorted insertion | proved |
| C34 | RingBuffer drops or hands out every element exactly once | drop log, elements handed over and back, `Clone` births | permutation invariant over histories (`conservation`) | proved |
| C35 | RingBuffer never drops an element twice even if a destructor panics | panicking destructors | counterexample by evaluation; the true part from the invariant | partial |
| C36 | RingBuffer::clone copies contents and survives a panicking Clone | clone loops with panicking `Clone` | induction over the items; the partial copy is accounted for | proved |
| C37 | RingBuffer iterators yield the contents under any interleaving of next and next_back | Iter, IterMut, Drain, OwnedIter | induction over interleavings of next and next_back | proved |
| C38 | RingBuffer slices see exactly the requested sub-sequence | slice, slice_mut, sub-slices, split_at, to_owned | positions `a..b` of the list, induction over narrowing steps | proved |
| C39 | Indexing a RingBuffer slice outside its range panics | slice index checks, bound arithmetic, copy_from_slice | counterexample by evaluation; exact true part | partial |
| C40 | Out-of-range inclusive slice bounds are rejected in every build | slice index checks, bound arithmetic, copy_from_slice | counterexample by evaluation; exact true part | partial |
| C41 | RingBuffer io::Write stores the leading bytes that fit and never panics | slice index checks, bound arithmetic, copy_from_slice | counterexample by evaluation; exact true part | partial |
| C42 | RingBuffer io::Read returns the oldest bytes | io::Read/Write | refinement to a byte queue | proved |
| C43 | RingBuffer/Slice equality, ordering and hashing depend only on contents | eq/cmp/partial_cmp/hash | characterised by contents; lexicographic order stated separately (`LexBefore`) | proved |
| C44 | A zero-capacity RingBuffer is usable | N = 0 | for every buffer: fuel of any size is used up; working calls listed | partial |
| C45 | Ring index arithmetic is arithmetic modulo N and stays in range | RawIndex arithmetic | modular arithmetic | proved |
| C46 | SparseChunk behaves like a map from indices below N for every history | all SparseChunk calls | refinement to `Nat → Option A`, induction over the call list | proved |
| C47 | SparseChunk len/is_empty/is_full count inhabited indices | single calls | per-call refinement | proved |
| C48 | SparseChunk only ever reads inhabited slots | single calls | per-call refinement | proved |
| C49 | SparseChunk iterates in strictly ascending index order over exactly the inhabited indices | six iterators over the abstract bitmap | induction over positions | proved |
| C50 | SparseChunk::pop removes the smallest inhabited index | single calls | per-call refinement | proved |
| C51 | SparseChunk and Vec<Option<A>> round-trip | six iterators over the abstract bitmap | induction over positions | proved |
| C52 | SparseChunk equality is map equality | eq with chunks and std maps | pointwise; C53 by counting keys | proved |
| C53 | SparseChunk equals a BTreeMap/HashMap iff they are the same map | eq with chunks and std maps | pointwise; C53 by counting keys | proved |
| C54 | SparseChunk drops or hands out every element exactly once | drop log, elements handed over and back, `Clone` births | permutation invariant over histories (`conservation`) | proved |
| C55 | SparseChunk::clone copies the map and survives a panicking Clone | clone loops with panicking `Clone` | induction over the items; the partial copy is accounted for | proved |
| C56 | InlineArray's length header and elements never overlap and stay in bounds, aligned | layout constants from `repr(C)` rules | divisibility and omega over all valid layouts | proved |
| C57 | InlineArray::CAPACITY is as documented and maximal | layout constants from `repr(C)` rules | divisibility and omega over all valid layouts | proved |
| C58 | InlineArray::new panics exactly when the documentation says | layout constants from `repr(C)` rules | divisibility and omega over all valid layouts | partial |
| C59 | InlineArray behaves like a bounded vector for every history | all InlineArray calls at byte level | refinement to lists, induction over the call list (`run_ref`) | proved |
| C60 | Safe InlineArray calls never touch uninitialised, misaligned or out-of-bounds memory | same histories; aligned, in-bounds, initialised bytes | invariant carried by the refinement | proved |
| C61 | InlineArray drops or hands out every element exactly once | drop log, elements handed over and back, `Clone` births | permutation invariant over histories (`conservation`) | proved |
| C62 | InlineArray::clear never drops an element twice even if a destructor panics | panicking destructors | counterexample by evaluation; the true part from the invariant | partial |
| C63 | InlineArray iterators yield the contents under any interleaving | Iter, IterMut, Drain, OwnedIter | induction over interleavings of next and next_back | proved |
| C64 | InlineArray::clone copies contents; a panicking Clone causes no double drop | clone loops with panicking `Clone` | induction over the items; the partial copy is accounted for | proved |
| C65 | Arbitrary instances never overflow a container | Arbitrary's take-and-collect loop | induction over answers of `Unstructured` | proved |
| C66 | Pool cloning equals ordinary cloning | PoolClone/PoolDefault in place | equality with ordinary clone/new | proved |
| C67 | RingBuffer collect/extend/collect_from take items in order and fail cleanly | from_iter, extend, collect_from | induction over iterator events | proved |
| C68 | Single InlineArray calls do exactly what a vector would, and refused calls change nothing | each InlineArray call alone | per-call refinement | proved |
| C69 | InlineArray comparison and hashing depend only on the contents | eq/cmp/partial_cmp/hash | characterised by contents; lexicographic order stated separately (`LexBefore`) | proved |
| C70 | Debug output is the type's name and exactly the contents in order | calls made on the Formatter | contents from the observers | partial |
| C71 | Containers keep the contracts of Eq, Ord and Hash | comparison functions of all containers | lists inherit the laws (`Lawful.lift`), carried over by C20/C43/C69/C52 | proved |
| C72 | Chunk calls move no more items than documented | storage before and after a call | explicit block moves (Chunk); memory postconditions of the shifting loops (Ring) | proved |
| C73 | RingBuffer insert and remove move only the shorter side | storage before and after a call | explicit block moves (Chunk); memory postconditions of the shifting loops (Ring) | proved |
| C74 | The halves of a split mutable ring slice never hand out references to the same item | the slot a `&mut` refers to (`GivesOut`: every access path through get_mut, index_mut and nested split_at) | induction on access paths keeps both halves inside their windows as long as no index is out of range; counterexample with an out-of-range `IndexMut` | partial |
| C75 | A Chunk<u8> is a faithful in-memory pipe | `io::Read`/`io::Write` of the containers, driven by std's default methods (`Io.lean`, transcribed from the std documentation) | induction on the remaining bytes with the single-call theorems C23/C41 | proved |
| C76 | A RingBuffer<u8> is a faithful in-memory pipe | `io::Read`/`io::Write` of the containers, driven by std's default methods (`Io.lean`, transcribed from the std documentation) | induction on the remaining bytes with the single-call theorems C23/C41 | partial |
| C77 | Arbitrary::size_hint bounds the input that arbitrary reads | `size_hint`; the `arbitrary` crate's byte-level iteration is an assumption (`Arbitrary.lean`) | induction on the number of items; counterexamples: the flag bytes are left out, the product overflows | partial |
| C78 | RingBuffer is a drop-in replacement for Chunk | the shared calls of both tables of operations | both refine lists (C01, C24); on lists the shared calls are the same functions when destructors do not panic | proved |
| C79 | How the contents are laid out never shows | the tables of operations of C01, C24, C46, C59 | two refinements of the same run over contents (`MachineRel.same_run`) | proved |
| C80 | The unsafe accessors agree with the safe ones wherever their safety contract is met | `getUnchecked`, `getUncheckedMut`, their slice twins, `Sparse.getUnchecked`, `replaceUnchecked` | direct from the representation; theorems that outside the contract the call is undefined behaviour | proved |
| C81 | The build profile, the width of usize and an InlineArray's host type never show | the tables of operations of C01, C24, C46, C59, in two environments (and for InlineArray two host types) | both runs refine the same run over contents (`MachineRel.run_alike`); the calls left out are those of C12, C22, C31, C40, C41 | proved |
| C82 | Every capacity the type system accepts is usable | `Ring.pushFront`, `pushBack` with `N = 2^64 - 1`; for zero-sized elements all slots count as written (`Holds`) | counterexample evaluated by the kernel; up to isize::MAX from C28; above, release builds by refinement of every call (`Props/HugeRing.lean`), debug builds by the exact condition of each panic | partial |
| C83 | insert_from costs what is documented | `insertFrom` of both, cost = slots whose contents change | Hoare rules for the shifts and the filling loop; a family of counterexamples for `Chunk` | partial |
| C84 | Bulk moves leave the source's storage alone and write no more than the items moved | `drainFromFront`, `drainFromBack`, `append`, `splitOff` of both | Hoare rules for the copies (`sat_copyFrom`, blits) | proved |
| C85 | InlineArray calls write no more bytes than documented | `Inline.push` … `splitOff` on bytes | symbolic execution to explicit byte states (`withLen`, `withSlot`, `withCopy`) | proved |
| C86 | Every slice built from raw parts covers initialised items only | `asSlice`, `Inline.items`; `Sparse.values`, `getStrict` with the contract enforced | reachability invariant; exact condition for `values()`; counterexample evaluated | partial |
| C87 | Repeated pushes and pops at one end of a Chunk run in constant time each, with at most one exception | `Chunk.pushBack`, `popBack`, `pushFront`, `popFront`, cost = slots whose contents change | a potential argument: after the one expensive call the items sit at the edge, and stay there (`one_dear_step`, induction on the run) | proved |
| C88 | Every element is destroyed, in order, even when a destructor panics | `drop`, `clear`, `dropLeft`, `dropRight` of the four containers, with destructors that may panic | from the refinement lemmas; two counterexamples evaluated | partial |
| C89 | An iterator that never ends cannot hang or overflow a container | iterators as streams of answers (`Stream`); the loops of `extend` and `from_iter` with fuel, running out of which is divergence | induction on the prefix that fits (`feed_prefix`), for every fuel above the capacity | proved |
| C90 | The project's own fuzz targets can never fail | the four fuzz targets transcribed line by line as programs over the model (`fuzz`, `act`, `Construct.make`), with the guide `Vec`/`BTreeMap` as a list; `none` is a failed target | one lemma per action: the refinement lemma of the call gives the guide's new contents; induction over the actions (`runAll_some`) | proved |
| C91 | Calls through a shared reference write nothing; concurrent readers agree under every schedule | every `&self` call as a `Query`; threads with programs of calls, a scheduler that picks who moves next (`Shared.interleave`); one call is one step, which loses nothing since calls write nothing | `Keeps`: each step of the modelled code leaves the state alone, composed along the code (tactic `keeps`); then induction over the schedule (`interleave_eq`), the answers from the refinement lemmas | proved |
| C92 | insert_ordered finds its place in O(log n) comparisons and inserts exactly once, whatever the order does | `insertOrderedBy` of both containers, with the binary search written out (`Search.halving`, `Search.bisect`) instead of being a parameter; it reads the ring through `Index` of its slice; a counter of comparisons | loop invariants of the two searches over arbitrary comparison functions; the search does not depend on where the items are (`run_at`), so the call is the one of C13/C33 with that search, whose contract is met by every lawful order | proved |
| C93 | Every capacity the type system accepts is usable: Chunk | the Chunk machine with `N < 2^w` instead of `2N < 2^w` | the refinement of C01 again, lemma by lemma, under the weaker bound; append needs `N + other.len() < 2^w` and has a counterexample | partial |
| C94 | Programs that mix the containers behave like programs on lists and maps | the disjoint union of the four machines, indexed by type and capacity, plus the calls that involve two types | refinement and ledger lift to the union (Verif/Mixed.lean); `extend(drain())` by induction over the source | proved |
| C95 | Comparing, hashing and printing call the elements' methods in order, as often as needed, and survive their panics | the standard library's loops over two iterators, with the elements' methods as computations on an arbitrary state of the user's | each container's iterator yields its contents and changes nothing; induction over the contents | proved |
| C96 | References handed out by RingBuffer::iter_mut may be kept and used in any order | Stacked Borrows and Tree Borrows as executable state machines (Verif/Alias.lean); the iterator's reborrows, with slots from the value model | invariant: the references handed out sit on top of their own slot's stack (SB), are reserved or active (TB); induction over the client's steps | proved |
| C97 | References handed out by SparseChunk::iter_mut and option_iter_mut may be kept and used in any order | the same two machines; `values_mut()` reborrows the whole chunk on every `next` | false; the exact set of accepted clients by simulation with an abstract machine of statuses | partial |
| C98 | The two halves of SliceMut::split_at may be used side by side | the same; two `&mut` made one after the other from one raw pointer | false; the exact set of accepted clients by invariants before and after the first write | partial |
| C99 | The containers' own pointers obey the aliasing rules | every internal pointer operation as a sequence of reborrows, casts, reads and writes (`Call.run`) | each call keeps the callers' borrows (frame lemmas for stacks and trees); false for two calls under Stacked Borrows, exactly characterised | partial |
| C100 | No method of Chunk or InlineArray breaks the aliasing rules | each method of Chunk and InlineArray as the list of internal pointer operations it makes in a given state (`ChunkMethod.calls`, `InlineMethod.calls`) | the lists have exactly the effect on storage of the value model of Chunk and on the bytes of the byte model of InlineArray (`C100_chunk_calls`, `C100_inline_calls`), read and drop only initialised slots, stay inside the storage, and so C99 applies; false under Stacked Borrows exactly when items are moved within the container | partial |
| C101 | Threads that own the parts of a split mutable ring slice do not disturb each other, under any schedule | threads as small-step machines (getting a reference and using it are separate steps) that share one buffer; any tree of split_at; lists as specification | an invariant over all schedules: each thread's part is its own list after its own accesses; pending slots differ | partial |
| C102 | No method of RingBuffer or SparseChunk breaks the aliasing rules | each method of RingBuffer and SparseChunk as the list of internal pointer operations it makes in a given state (`RingMethod.calls`, `SparseMethod.calls`) | the lists have exactly the effect on storage of the value model's functions (`C102_ring_calls`, `C102_sparse_calls`), stay inside the storage and never reuse a pointer made before a later borrow of the whole container, and so C99 applies with no exception | proved |
| C103 | A Chunk used as a queue moves few items in total, unless it is nearly full | `Chunk/Model.lean` push and pop; cost as slots rewritten (`Moves.lean`) | potential argument over the run: the right (left) edge moves one slot per push and is set back by at least N - K when items are moved (`Props/Queue.lean`) | proved |
| C104 | References handed out by iter_mut can be used by different threads | `ThreadsIter.lean`: threads as programs over the handed out references (slots computed by the modelled iterators), one read or replacement per step; the specification runs each thread alone on a list | invariant over the schedule, from the distinctness of the slots (`Props/ThreadsIter.lean`) | proved |
| C105 | Containers and iterators can cross threads only if their items can | `Types.lean`: the field declarations of the 20 public types, and the language's rules for Send and Sync | case analysis over the types, for arbitrary truth values of the item's and host's traits, against a table of what each type's methods give access to (`Props/Types.lean`) | proved |
| C106 | Lifetimes can be shortened exactly where that is safe | `Types.lean`: the field declarations, the language's rules for variance, and the meaning of safe types as sets of values over a memory with promises | the meaning of every type is monotone where the rules say covariant (induction over types); case analysis over the 20 public types; a witness for each mutable borrow (`Props/Types.lean`) | proved |
| C107 | Items can be poured from any container into any other through its iterator | `Pour.lean`: the bulk methods calling an iterator that is any program (its own state, `len`, `next`, drop), and the crate's own consuming iterators as such programs | a specification of a list-like iterator program (`Source.Models`); `extend` and `collect` by induction on its items, `insert_from` in lockstep with the run over a list; each of the crate's iterators meets the specification (`Props/Pour.lean`) | proved |
| C108 | No iterator, whatever its own state does, can break a container | `Pour.lean`, with an iterator of which only absence of undefined behaviour in its own code and termination of each call is assumed (`Source.Tame`), and a stable `len()` (`Source.Says`) | induction on the room left for `extend` and `collect`; `insert_from` in lockstep (`Follows`) with a run over the events the program produces, to which the refinement proofs of the event model apply; a panic in the iterator's destructor is caught while the container looks empty (`Props/AnyIter.lean`) | proved |
| C109 | Cloning and destroying call each item's own clone and destructor once, in order, whatever these do | `Care.lean`: the cloning and destroying methods calling an element type whose `clone` and destructor are any programs (`Elem`); `CareSpec.lean`: the same on plain lists, and elements that log their calls (`Elem.traced`) | each method ends like its list version (`Out.Same`: same outcome, related states), by induction on the items; the log of the list version by induction; with the elements of the other models the methods are those models (`C109_plain`) (`Props/Care*.lean`) | proved |
| C110 | The containers never look at their items | the machines of C01, C24, C46, C59 at two item types; `Opaque.lean`: a replacement of items applied to calls, observations and worlds | each operation of the list and map specifications is natural in the items; lifted to histories (`MachineNat.run`) and, by the refinements, to the code (`Props/Opaque.lean`) | proved |
| C111 | Containers of containers, to any depth, clone and destroy every item in them once and in order | `Nest.lean`: each container's `Clone` and `Drop` (`Care.lean`) as those of an item; `Nested`: all finite nestings, with the lists of lists they show | induction over the nesting: the methods simulate the list programs of C109 (`ElemSim`), whose calls on the plain items are then counted (`Leafy`) (`Props/Nest.lean`) | proved |
| C112 | Containers of containers, to any depth, compare, hash and print like lists of lists | each container's methods (`Effects.lean`) as those of an item (`Look.of`, `Seen.sparse`); `Compared`, `Printed`: all finite nestings, with the lists of lists they show | induction over the nesting from C95; the contracts by `Lawful.lift` at each level (`Props/NestCmp.lean`) | proved |
| C113 | Whatever code does with an iterator of the crate, it might as well do with a list's | `Walk.lean`: code that has an iterator as an infinitely branching tree of calls (`Walker`), run on the crate's iterators (`Ends`) and on a list's (`listEnds`); std's provided methods as such code | a step-by-step simulation for each iterator, then induction over the code (`Props/Walk.lean`); the provided methods by induction on the list (`Props/WalkMethods.lean`) | proved |
| C114 | Cloning into a pool, with items whose clone does whatever it likes | `CarePool.lean`: `clone_uninit` of the three containers with `Elem` (any program on the user's state as `clone`), on a target of arbitrary bits | simulation against cloning a list item by item (`Elem.cloneEach`), with the cells written so far as invariant; the calls made are read off the same run with recorded calls; C66's `clone_uninit` is the special case of a pure clone (`Props/CarePool.lean`) | proved |
| C115 | Iterators in the hands of code with effects, and of elements whose destructor does whatever it likes | `CareWalk.lean`: code as a tree of calls and of programs on the user's state (`WalkerBy`), on the crate's iterators dropped with C109's destructors (`EndsBy`), and on a list's (`listBy`) | a simulation for the owning iterators, then induction on the code; for the others the simulation is read off C113 (agreement on all code without effects of its own makes the states bisimilar); C113 is the special case of destructors that log (`Props/CareWalk.lean`) | proved |
| C116 | Whatever code does with iter_mut and the references it gets | `Mutate.lean`: code as a tree of calls, reads and writes (`Mutator`) on the crate's iterators and slots (`MutEnds`), and on the places of a list or map (`listRefs`, `mapRefs`) | a simulation that maps positions to slots, then induction on the code; an invariant on the specification for what does not change (`Props/Mutate.lean`) | proved |
| C117 | Filling a container from an iterator, when both the iterator and the elements run code of their own | `Fill.lean`: the methods over an iterator and elements that share a state of the user (`SourceBy`, `Elem`), with the drop of the iterator and of the new container on unwinding | an effect-by-effect simulation by a list or map and the same user calls (`Out.Same`), by induction on the fuel with the room left as invariant; a log added to every call gives the balance (`Props/Fill.lean`) | proved |
| C118 | A method's arguments stay valid while it runs | `AliasGuard.lean`: each discipline with the arguments guarded (`Rules.guarded`), and Tree Borrows with their cells reserved to what is derived from them (`TB.exclusive`), run on the same pointer operations | permissions only fade: if the arguments are valid at the end (C100, C102) they were at every step; derivations only grow: what the tags are derived from at the end says what they were derived from at each access (`Props/AliasGuard.lean`); helpers: for any body, by induction on it, the argument's entry stays where it was made under those of the references derived from it (`AliasBody.lean`, `Props/AliasBody.lean`); lifted to whole methods in `Props/AliasHelped.lean` | proved |

## 4. Trusted base

* **Lean 4.33.0's kernel**, and Mathlib as installed. Axioms: every theorem depends on at most `propext`, `Classical.choice` and `Quot.sound`
  (`vcheck` reports them); no axiom is added, nothing rests on compiled evaluation (`decide +kernel` is evaluated by the kernel).
* **The reading of Rust** in `Basic.lean`: what overflow, `debug_assert!`, unwinding, drop glue, `ptr::read/write/copy` and uninitialised memory do.
* **The reading of the source**: that each definition says what the cited lines say. Simplifications are stated at the definition.
* **Compiler guarantees about layout** (`Layout.Valid`): alignments are powers of two, sizes are multiples of alignments and at most
  `isize::MAX`, a tuple is at least as aligned as its fields, a zero-sized type has at most one value (which is what lets the model recreate
  a zero-sized element from no bytes).
* **Outside code, assumed to meet its documented contract**:
  `bitmaps::Bitmap` (get/set/len/first_index/iteration in ascending order, indices at or above `N` are undefined behaviour in the model — stricter than
  the crate, which panics); `slice::binary_search` and `array_ops`' binary search (a parameter with the std contract; C92 writes out the two algorithms that std has shipped, proves that they meet the contract, and counts their comparisons); `BTreeMap`/`HashMap` `len`/`get` (a
  lookup function); `Hasher` (the list of what is fed to it); `arbitrary::Unstructured` (a list of answers; for C77 the byte-level behaviour of `arbitrary_iter` as I know it from version 1.0.2, stated at `Arb.takeItems`); std's default `write_all`, `read_exact`, `read_to_end` (`Io.lean`, from their documentation); `refpool` (a parameter with the contract of its
  documentation); slice/`Iterator` adapters (`zip`, `take`, `all`, `skip`) are modelled by their definition.

## 5. Not modelled

* Reference aliasing is modelled in `Alias*.lean` (C96–C100, C102, C118) only, on its own: two executable machines for Stacked Borrows and Tree Borrows, and the sequences of
  reborrows, casts and accesses the code makes. Simplifications: a container is one cell for its fields and one per slot, not bytes; protectors (a function's
  arguments must stay valid until it returns) are checked for the methods' own arguments, for those of the helpers such as `mut_ptr`, and for the `&mut` that the destructor called by `force_drop` receives (C118); a two-phase borrow is made when it is used; a `&T` cast to `*const T` keeps the `&T`'s permission; a reference
  passed on unchanged is not reborrowed; `UnsafeCell` does not occur. The two machines are my transcription of the papers' rules. Undefined behaviour found by them is with respect to these
  (experimental) rules, not to a settled part of the language.
* Provenance otherwise, and data races (beyond C91, C101 and C104: the modelled `&self` calls write nothing, so readers cannot race with each other). Drop check.
* `SparseChunk::values()` and its mutable twin form a `&[A]` over slots that may be uninitialised. In the model only *reads* of such slots are
  undefined behaviour; forming the slice is not counted (except in C86, where it is, and fails).
* User `PartialEq`/`Ord`/`Hash`/`Debug` implementations that have side effects or panic are modelled in C95 (and C13/C33/C92 for `insert_ordered`); elsewhere they are pure functions. An element changed through interior mutability during such a call is covered as far as the user state of C95 goes (the element is then a name for a part of that state); iterators with state of their own, that never end or that interact with other containers are modelled in C89, C107 and C108, elsewhere an iterator is a list of events; `Clone` and `Drop` of the elements with state of their own are modelled in C109, elsewhere a destructor is a log entry and perhaps a panic, and `clone` a pure function that may panic;
  `mem::forget` of containers (equivalent to never calling `drop`).
* Trivial forwarding impls (`Borrow`, `AsRef`, `Deref` to `as_slice`, `IntoIterator for &C`, `IndexMut` where it is the same expression as `Index`)
  are represented by what they forward to. So are `Slice::clone`, `SliceMut::unmut` and `Into<Slice>`, which give the same range of the same buffer (a `Span` stands
  for all three), and `IntoIterator` of `Slice` and `SliceMut`, which forward to `iter` and `iter_mut`.
* Code generation, time (but see C28 and C73 for which slots change), allocation (there is none).

## 6. What the proofs found

Each is a theorem with a concrete witness; the part that is true is proved beside it as `..._partial`.
For C12, C15, C22, C32, C35, C62, C74 and C76 `Props/Failures.lean` proves, for every container, exactly what happens where the property fails.

| Property | The code |
|---|---|
| C11 | `Chunk::insert_from` calls `len()` twice; different answers write out of bounds or leave a hole |
| C12, C31 | `len + it.len()` wraps in release builds: Chunk moves memory out of bounds; RingBuffer changes its contents, loops forever when `N` is a power of two, or reads a slot never written, which is undefined behaviour, when `2^w` is one more than a multiple of `N`, such as 3 (C32_uninitialised_read_counterexample); exactly what it does, by position: C31_at_end_partial, C31_second_half_partial, C31_first_half_partial, C31_power_of_two_partial |
| C15, C35, C62 | a destructor panicking in `drop_left`, `drop_right` or `clear` leaves the bounds as they were: elements are dropped again |
| C21 | `Hash` omits the length prefix of slices although `Borrow<[A]>` is implemented |
| C22 | `Chunk::from_front`/`from_back` check the count only in debug builds |
| C32 | `RingBuffer::insert_from` at the end takes more items than `len()` claimed (safely) |
| C39 | indexing a RingBuffer slice checks against the buffer, not the slice; `split_at` halves can reach each other |
| C40 | `..=usize::MAX` is accepted in release builds |
| C41 | debug-build `io::Write` panics when the write wraps around the seam |
| C44 | `RingBuffer<_, 0>`: `new` panics in debug builds; iteration and drop never end in release builds |
| C74 | so an out-of-range `IndexMut` on one half of `SliceMut::split_at` gives a second `&mut` to an item of the other half, in safe code |
| C76 | `write_all` on a RingBuffer inherits the debug-build panic of C41 |
| C77 | `Arbitrary::size_hint` leaves out the byte `arbitrary_iter` reads before each item, and multiplies without an overflow check |
| C82 | with zero-sized elements and a capacity near `usize::MAX`, a debug-build `RingBuffer` panics on the third push (`origin + length` overflows); in the same way `pop_back` can panic after it has removed the item, and `drop` can panic and destroy nothing |
| C93 | with zero-sized elements and a capacity near `usize::MAX`, a debug-build `Chunk::append` panics although there is room (`right + other.len()` overflows when the items stand at the right end) |
| C83 | `Chunk::insert_from` is documented as O(m+n), n the items following the index; with the last slot taken it moves all the items *before* the index, so appending one item costs the whole length |
| C86 | `SparseChunk::values()` calls `from_raw_parts` over all `N` slots, initialised or not, so every `get`, `insert` and `remove` on a chunk with a never-written slot breaks that function's contract |
| C88 | `RingBuffer` and `SparseChunk` destroy elements one at a time, so when one destructor panics the elements after it are leaked (`Chunk`, `InlineArray`, `Vec` and arrays still destroy them) |
| C58 | `InlineArray::new` panics when the host has exactly the size of `usize`; it does not panic for over-aligned elements (the capacity is then 0) |
| C97 | `SparseChunk::iter_mut` and `option_iter_mut` reborrow the whole chunk for each item, so a reference got earlier is invalid once the next one has been asked for (Stacked Borrows), or once it has been written through and the next one asked for (Tree Borrows); safe code may keep it |
| C98 | the halves of `SliceMut::split_at` are two `&mut` to the same buffer made one after the other: any use of the left half breaks Stacked Borrows; using one half after writing through the other breaks Tree Borrows |
| C99 | `Chunk::force_copy` makes its source pointer before its destination pointer, and `InlineArray::remove` uses a pointer made before `len_mut()` and `len()`: under Stacked Borrows the older pointer is invalid by then. Tree Borrows accepts both |
| C100 | So every `Chunk` method that has to shift items (`push_front` on a chunk that starts at slot 0, `insert`, `remove`, `insert_from`, …) and `InlineArray::remove(i)` with `i + 1 < len` is undefined behaviour under Stacked Borrows; no other method is |
| C101 | So two threads which own the two halves of a split `SliceMut` can race on the same item in safe code: `left[1] = x` against `right[0]` after `split_at(1)` |

Smaller ones, visible in the model but within the stated properties: `Chunk::insert_from` and a panicking `InlineArray::clone` leak; `SparseChunk::drop`
leaks the remaining items when a destructor panics; `InlineArray`'s `Debug` output calls itself `Chunk` (C70).

## 7. How the theorems are tested

`seeded/LOG.jsonl` records wrong programs: single edits of the model (wrong boundary, swapped argument, dropped update, missed case), each rebuilt in a
scratch copy, with the theorems that failed. A sweep over all model definitions generates them mechanically; the survivors are examined one by one.
Beside each property theorem an `example` evaluates a concrete, non-trivial case in the kernel.

`RepoTests.lean` is a conformance check in the other direction: every `#[test]` of the crate that runs code of the four structures, and every example in
their documentation, is transcribed and evaluated by the kernel on the model. (C90 does the same for the fuzz targets, but as theorems over every input.)
