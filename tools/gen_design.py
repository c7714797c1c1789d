#!/usr/bin/env python3
"""DESIGN.md = design_head.md + one line per property + design_tail.md."""
import json, os
root = os.path.dirname(os.path.dirname(os.path.abspath(__file__)))
props = {json.loads(l)['id']: json.loads(l) for l in open(root + '/properties.jsonl')}
man = {c['property']: c for c in json.load(open(root + '/MANIFEST.json'))['claims']}
how = {}
def h(ids, model, proof):
    for i in ids.split():
        how[i] = (model, proof)
REF = "refinement to lists, induction over the call list (`run_ref`)"
h("C01", "all Chunk calls, any number of chunks", REF)
h("C02", "len/is_empty/is_full on reachable chunks", "invariant carried by the refinement")
h("C03", "same histories; `ub` and `diverge` outcomes", "no outcome related to the list specification is `ub`/`diverge`")
h("C04 C05 C06", "each Chunk call alone", "instances of the per-call refinement, with and without the precondition")
h("C07 C08", "append, drain_from_*, from_front/back, split_off", "per-call refinement on pairs of chunks")
h("C09 C10", "insert_from and write_from_iter with event iterators", "case analysis of the three block moves, induction over events")
h("C11 C12", "two separate `len()` answers; wrapping addition", "counterexample by evaluation; the true part from C10")
h("C13 C33", "insert_ordered over any search meeting the std contract", "list lemma on sorted insertion")
h("C14 C34 C54 C61", "drop log, elements handed over and back, `Clone` births", "permutation invariant over histories (`conservation`)")
h("C15 C35 C62", "panicking destructors", "counterexample by evaluation; the true part from the invariant")
h("C16 C36 C55 C64", "clone loops with panicking `Clone`", "induction over the items; the partial copy is accounted for")
h("C17 C67", "from_iter, extend, collect_from", "induction over iterator events")
h("C18 C37 C63", "Iter, IterMut, Drain, OwnedIter", "induction over interleavings of next and next_back")
h("C19 C42", "io::Read/Write", "refinement to a byte queue")
h("C20 C43 C69", "eq/cmp/partial_cmp/hash", "characterised by contents; lexicographic order stated separately (`LexBefore`)")
h("C21", "what is fed to the hasher", "differs for every chunk from the slice's by the length prefix")
h("C22", "from_front/from_back in both builds", "release counterexample; debug part from the refinement")
h("C23", "From<InlineArray> over the byte model", "per-call theorem across the two models")
h("C24", "all RingBuffer calls, slices included", REF)
h("C25", "observers on reachable buffers", "invariant carried by the refinement")
h("C26", "same histories, and (raw) with nothing held back but C31's call", "refinement; for raw histories an invariant kept by each call (`Keeps`)")
h("C27 C28 C29 C30", "each RingBuffer call alone", "loops by induction on logical positions, slots via `ridx`")
h("C31 C32", "insert_from: shifting loops, gap filling, extension at the end", "induction over events; counterexamples for wrapping and over-long iterators; exactly what a wrapping sum does: `Props/RingWrap.lean`, `Props/RingWrap2.lean`")
h("C38", "slice, slice_mut, sub-slices, split_at, to_owned", "positions `a..b` of the list, induction over narrowing steps")
h("C39 C40 C41", "slice index checks, bound arithmetic, copy_from_slice", "counterexample by evaluation; exact true part")
h("C44", "N = 0", "for every buffer: fuel of any size is used up; working calls listed")
h("C45", "RawIndex arithmetic", "modular arithmetic")
h("C46", "all SparseChunk calls", "refinement to `Nat → Option A`, induction over the call list")
h("C47 C48 C50", "single calls", "per-call refinement")
h("C49 C51", "six iterators over the abstract bitmap", "induction over positions")
h("C52 C53", "eq with chunks and std maps", "pointwise; C53 by counting keys")
h("C56 C57 C58", "layout constants from `repr(C)` rules", "divisibility and omega over all valid layouts")
h("C59", "all InlineArray calls at byte level", REF)
h("C60", "same histories; aligned, in-bounds, initialised bytes", "invariant carried by the refinement")
h("C65", "Arbitrary's take-and-collect loop", "induction over answers of `Unstructured`")
h("C66", "PoolClone/PoolDefault in place", "equality with ordinary clone/new")
h("C68", "each InlineArray call alone", "per-call refinement")
h("C70", "calls made on the Formatter", "contents from the observers")
h("C71", "comparison functions of all containers", "lists inherit the laws (`Lawful.lift`), carried over by C20/C43/C69/C52")
h("C72 C73", "storage before and after a call", "explicit block moves (Chunk); memory postconditions of the shifting loops (Ring)")
h("C74", "the slot a `&mut` refers to (`GivesOut`: every access path through get_mut, index_mut and nested split_at)", "induction on access paths keeps both halves inside their windows as long as no index is out of range; counterexample with an out-of-range `IndexMut`")
h("C75 C76", "`io::Read`/`io::Write` of the containers, driven by std's default methods (`Io.lean`, transcribed from the std documentation)", "induction on the remaining bytes with the single-call theorems C23/C41")
h("C77", "`size_hint`; the `arbitrary` crate's byte-level iteration is an assumption (`Arbitrary.lean`)", "induction on the number of items; counterexamples: the flag bytes are left out, the product overflows")
h("C78", "the shared calls of both tables of operations", "both refine lists (C01, C24); on lists the shared calls are the same functions when destructors do not panic")
h("C79", "the tables of operations of C01, C24, C46, C59", "two refinements of the same run over contents (`MachineRel.same_run`)")
h("C80", "`getUnchecked`, `getUncheckedMut`, their slice twins, `Sparse.getUnchecked`, `replaceUnchecked`", "direct from the representation; theorems that outside the contract the call is undefined behaviour")
h("C81", "the tables of operations of C01, C24, C46, C59, in two environments (and for InlineArray two host types)", "both runs refine the same run over contents (`MachineRel.run_alike`); the calls left out are those of C12, C22, C31, C40, C41")
h("C82", "`Ring.pushFront`, `pushBack` with `N = 2^64 - 1`; for zero-sized elements all slots count as written (`Holds`)", "counterexample evaluated by the kernel; up to isize::MAX from C28; above, release builds by refinement of every call (`Props/HugeRing.lean`), debug builds by the exact condition of each panic")
h("C83", "`insertFrom` of both, cost = slots whose contents change", "Hoare rules for the shifts and the filling loop; a family of counterexamples for `Chunk`")
h("C84", "`drainFromFront`, `drainFromBack`, `append`, `splitOff` of both", "Hoare rules for the copies (`sat_copyFrom`, blits)")
h("C85", "`Inline.push` … `splitOff` on bytes", "symbolic execution to explicit byte states (`withLen`, `withSlot`, `withCopy`)")
h("C86", "`asSlice`, `Inline.items`; `Sparse.values`, `getStrict` with the contract enforced", "reachability invariant; exact condition for `values()`; counterexample evaluated")
h("C87", "`Chunk.pushBack`, `popBack`, `pushFront`, `popFront`, cost = slots whose contents change", "a potential argument: after the one expensive call the items sit at the edge, and stay there (`one_dear_step`, induction on the run)")
h("C88", "`drop`, `clear`, `dropLeft`, `dropRight` of the four containers, with destructors that may panic", "from the refinement lemmas; two counterexamples evaluated")
h("C89", "iterators as streams of answers (`Stream`); the loops of `extend` and `from_iter` with fuel, running out of which is divergence", "induction on the prefix that fits (`feed_prefix`), for every fuel above the capacity")
h("C90", "the four fuzz targets transcribed line by line as programs over the model (`fuzz`, `act`, `Construct.make`), with the guide `Vec`/`BTreeMap` as a list; `none` is a failed target", "one lemma per action: the refinement lemma of the call gives the guide's new contents; induction over the actions (`runAll_some`)")
h("C91", "every `&self` call as a `Query`; threads with programs of calls, a scheduler that picks who moves next (`Shared.interleave`); one call is one step, which loses nothing since calls write nothing", "`Keeps`: each step of the modelled code leaves the state alone, composed along the code (tactic `keeps`); then induction over the schedule (`interleave_eq`), the answers from the refinement lemmas")
h("C92", "`insertOrderedBy` of both containers, with the binary search written out (`Search.halving`, `Search.bisect`) instead of being a parameter; it reads the ring through `Index` of its slice; a counter of comparisons", "loop invariants of the two searches over arbitrary comparison functions; the search does not depend on where the items are (`run_at`), so the call is the one of C13/C33 with that search, whose contract is met by every lawful order")
h("C93", "the Chunk machine with `N < 2^w` instead of `2N < 2^w`", "the refinement of C01 again, lemma by lemma, under the weaker bound; append needs `N + other.len() < 2^w` and has a counterexample")
h("C94", "the disjoint union of the four machines, indexed by type and capacity, plus the calls that involve two types", "refinement and ledger lift to the union (Verif/Mixed.lean); `extend(drain())` by induction over the source")
h("C95", "the standard library's loops over two iterators, with the elements' methods as computations on an arbitrary state of the user's", "each container's iterator yields its contents and changes nothing; induction over the contents")
h("C96", "Stacked Borrows and Tree Borrows as executable state machines (Verif/Alias.lean); the iterator's reborrows, with slots from the value model", "invariant: the references handed out sit on top of their own slot's stack (SB), are reserved or active (TB); induction over the client's steps")
h("C97", "the same two machines; `values_mut()` reborrows the whole chunk on every `next`", "false; the exact set of accepted clients by simulation with an abstract machine of statuses")
h("C98", "the same; two `&mut` made one after the other from one raw pointer", "false; the exact set of accepted clients by invariants before and after the first write")
h("C99", "every internal pointer operation as a sequence of reborrows, casts, reads and writes (`Call.run`)", "each call keeps the callers' borrows (frame lemmas for stacks and trees); false for two calls under Stacked Borrows, exactly characterised")
h("C100", "each method of Chunk and InlineArray as the list of internal pointer operations it makes in a given state (`ChunkMethod.calls`, `InlineMethod.calls`)", "the lists have exactly the effect on storage of the value model of Chunk and on the bytes of the byte model of InlineArray (`C100_chunk_calls`, `C100_inline_calls`), read and drop only initialised slots, stay inside the storage, and so C99 applies; false under Stacked Borrows exactly when items are moved within the container")
h("C101", "threads as small-step machines (getting a reference and using it are separate steps) that share one buffer; any tree of split_at; lists as specification", "an invariant over all schedules: each thread's part is its own list after its own accesses; pending slots differ")
h("C102", "each method of RingBuffer and SparseChunk as the list of internal pointer operations it makes in a given state (`RingMethod.calls`, `SparseMethod.calls`)", "the lists have exactly the effect on storage of the value model's functions (`C102_ring_calls`, `C102_sparse_calls`), stay inside the storage and never reuse a pointer made before a later borrow of the whole container, and so C99 applies with no exception")
h("C103", "`Chunk/Model.lean` push and pop; cost as slots rewritten (`Moves.lean`)", "potential argument over the run: the right (left) edge moves one slot per push and is set back by at least N - K when items are moved (`Props/Queue.lean`)")
h("C104", "`ThreadsIter.lean`: threads as programs over the handed out references (slots computed by the modelled iterators), one read or replacement per step; the specification runs each thread alone on a list", "invariant over the schedule, from the distinctness of the slots (`Props/ThreadsIter.lean`)")
h("C105", "`Types.lean`: the field declarations of the 20 public types, and the language's rules for Send and Sync", "case analysis over the types, for arbitrary truth values of the item's and host's traits, against a table of what each type's methods give access to (`Props/Types.lean`)")
h("C106", "`Types.lean`: the field declarations, the language's rules for variance, and the meaning of safe types as sets of values over a memory with promises", "the meaning of every type is monotone where the rules say covariant (induction over types); case analysis over the 20 public types; a witness for each mutable borrow (`Props/Types.lean`)")
h("C107", "`Pour.lean`: the bulk methods calling an iterator that is any program (its own state, `len`, `next`, drop), and the crate's own consuming iterators as such programs", "a specification of a list-like iterator program (`Source.Models`); `extend` and `collect` by induction on its items, `insert_from` in lockstep with the run over a list; each of the crate's iterators meets the specification (`Props/Pour.lean`)")
h("C108", "`Pour.lean`, with an iterator of which only absence of undefined behaviour in its own code and termination of each call is assumed (`Source.Tame`), and a stable `len()` (`Source.Says`)", "induction on the room left for `extend` and `collect`; `insert_from` in lockstep (`Follows`) with a run over the events the program produces, to which the refinement proofs of the event model apply; a panic in the iterator's destructor is caught while the container looks empty (`Props/AnyIter.lean`)")
h("C109", "`Care.lean`: the cloning and destroying methods calling an element type whose `clone` and destructor are any programs (`Elem`); `CareSpec.lean`: the same on plain lists, and elements that log their calls (`Elem.traced`)", "each method ends like its list version (`Out.Same`: same outcome, related states), by induction on the items; the log of the list version by induction; with the elements of the other models the methods are those models (`C109_plain`) (`Props/Care*.lean`)")
h("C110", "the machines of C01, C24, C46, C59 at two item types; `Opaque.lean`: a replacement of items applied to calls, observations and worlds", "each operation of the list and map specifications is natural in the items; lifted to histories (`MachineNat.run`) and, by the refinements, to the code (`Props/Opaque.lean`)")
h("C111", "`Nest.lean`: each container's `Clone` and `Drop` (`Care.lean`) as those of an item; `Nested`: all finite nestings, with the lists of lists they show", "induction over the nesting: the methods simulate the list programs of C109 (`ElemSim`), whose calls on the plain items are then counted (`Leafy`) (`Props/Nest.lean`)")
h("C112", "each container's methods (`Effects.lean`) as those of an item (`Look.of`, `Seen.sparse`); `Compared`, `Printed`: all finite nestings, with the lists of lists they show", "induction over the nesting from C95; the contracts by `Lawful.lift` at each level (`Props/NestCmp.lean`)")
h("C113", "`Walk.lean`: code that has an iterator as an infinitely branching tree of calls (`Walker`), run on the crate's iterators (`Ends`) and on a list's (`listEnds`); std's provided methods as such code", "a step-by-step simulation for each iterator, then induction over the code (`Props/Walk.lean`); the provided methods by induction on the list (`Props/WalkMethods.lean`)")
h("C114", "`CarePool.lean`: `clone_uninit` of the three containers with `Elem` (any program on the user's state as `clone`), on a target of arbitrary bits", "simulation against cloning a list item by item (`Elem.cloneEach`), with the cells written so far as invariant; the calls made are read off the same run with recorded calls; C66's `clone_uninit` is the special case of a pure clone (`Props/CarePool.lean`)")
h("C115", "`CareWalk.lean`: code as a tree of calls and of programs on the user's state (`WalkerBy`), on the crate's iterators dropped with C109's destructors (`EndsBy`), and on a list's (`listBy`)", "a simulation for the owning iterators, then induction on the code; for the others the simulation is read off C113 (agreement on all code without effects of its own makes the states bisimilar); C113 is the special case of destructors that log (`Props/CareWalk.lean`)")
h("C116", "`Mutate.lean`: code as a tree of calls, reads and writes (`Mutator`) on the crate's iterators and slots (`MutEnds`), and on the places of a list or map (`listRefs`, `mapRefs`)", "a simulation that maps positions to slots, then induction on the code; an invariant on the specification for what does not change (`Props/Mutate.lean`)")
h("C117", "`Fill.lean`: the methods over an iterator and elements that share a state of the user (`SourceBy`, `Elem`), with the drop of the iterator and of the new container on unwinding", "an effect-by-effect simulation by a list or map and the same user calls (`Out.Same`), by induction on the fuel with the room left as invariant; a log added to every call gives the balance (`Props/Fill.lean`)")
h("C118", "`AliasGuard.lean`: each discipline with the arguments guarded (`Rules.guarded`), and Tree Borrows with their cells reserved to what is derived from them (`TB.exclusive`), run on the same pointer operations", "permissions only fade: if the arguments are valid at the end (C100, C102) they were at every step; derivations only grow: what the tags are derived from at the end says what they were derived from at each access (`Props/AliasGuard.lean`); helpers: for any body, by induction on it, the argument's entry stays where it was made under those of the references derived from it (`AliasBody.lean`, `Props/AliasBody.lean`); lifted to whole methods in `Props/AliasHelped.lean`")
out = "| Property | Title | What is modelled | How it is proved | Status |\n|---|---|---|---|---|\n"
for i, p in props.items():
    m, q = how[i]
    out += f"| {i} | {p['title']} | {m} | {q} | {man[i]['status']} |\n"
r = lambda f: open(f"{root}/tools/{f}").read()
open(root + '/DESIGN.md', 'w').write(r('design_head.md') + out + r('design_tail.md'))
