p("C67", "RingBuffer collect/extend/collect_from take items in order and fail cleanly", "from_iter, extend and collect_from append the iterator's items in order; they panic iff the capacity is exceeded (or the iterator is too short / panics); everything taken from the iterator is then in the buffer or dropped.", "all buffers, all iterators including panicking and over-long ones", "Crash points at every item, every origin.", f"{RB}:Extend for RingBuffer", f"{RB}:FromIterator for RingBuffer", f"{RB}:RingBuffer::collect_from")

IAF = "src/inline_array/mod.rs"
p("C68", "Single InlineArray calls do exactly what a vector would, and refused calls change nothing", "push/insert panic iff the array is full (or the index is past the end) and then leave it unchanged; pop/remove return None past the end; split_off, set, clear, extend have exactly the vector effect and panic exactly when documented.", "all layouts, all reachable arrays, all indices and values", "All contents, indices and layouts.", f"{IAF}:InlineArray::push", f"{IAF}:InlineArray::pop", f"{IAF}:InlineArray::insert", f"{IAF}:InlineArray::remove", f"{IAF}:InlineArray::split_off", f"{IAF}:InlineArray::clear", f"{IAF}:Extend for InlineArray")
p("C69", "InlineArray comparison and hashing depend only on the contents", "eq, partial_cmp, cmp are those of the slice of contents (lexicographic); the hash depends only on the contents, not on address or unused bytes.", "all pairs of arrays", "All pairs of contents.", f"{IAF}:PartialEq for InlineArray", f"{IAF}:Ord for InlineArray", f"{IAF}:Hash for InlineArray")

p("C70", "Debug output is the type's name and exactly the contents in order", "{:?} of a container prints its own type name followed by a list (for SparseChunk a map in ascending index order) of exactly its contents.", "all containers and slices, all contents", "All contents and layouts.", "src/sized_chunk/mod.rs:Debug for Chunk", f"{RB}:Debug for RingBuffer", "src/ring_buffer/slice.rs:Debug for Slice", "src/sparse_chunk/mod.rs:Debug for SparseChunk", f"{IAF}:Debug for InlineArray")
p("C71", "Containers keep the contracts of Eq, Ord and Hash", "If the elements' == is an equivalence, their cmp a total order agreeing with ==, and equal elements hash equally, then the same holds of Chunk, RingBuffer, ring slices and InlineArray (of SparseChunk: == is an equivalence); partial_cmp is Some(cmp), and for partially ordered elements it is None exactly when the first pair of unequal elements is incomparable.", "all lawful element types, all triples of containers whatever their layouts", "Laws over all triples of containers.", "src/sized_chunk/mod.rs:PartialEq for Chunk", "src/sized_chunk/mod.rs:Ord for Chunk", f"{RB}:Ord for RingBuffer", "src/ring_buffer/slice.rs:Ord for Slice", "src/sparse_chunk/mod.rs:PartialEq for SparseChunk", f"{IAF}:Ord for InlineArray")
p("C72", "Chunk calls move no more items than documented", "push at an end with a free slot (or on an empty chunk) writes one slot; pop moves nothing; insert rewrites at most one slot plus the items of one side, the smaller one when both ends have room; remove rewrites only the smaller side; a push that must make room moves each item once.", "all chunks, all indices", "The cost depends on where in the storage the history left the items.", "src/sized_chunk/mod.rs:Chunk::push_front", "src/sized_chunk/mod.rs:Chunk::push_back", "src/sized_chunk/mod.rs:Chunk::insert", "src/sized_chunk/mod.rs:Chunk::remove")
p("C73", "RingBuffer insert and remove move only the shorter side", "insert(i, v) rewrites at most min(i, len - i) + 1 slots and remove(i) at most min(i, len - i), wherever the seam is.", "all buffers, all indices", "The cost depends on the origin the history left.", f"{RB}:RingBuffer::insert", f"{RB}:RingBuffer::remove")
p("C74", "The halves of a split mutable ring slice never hand out references to the same item", "After SliceMut::split_at, no sequence of get_mut/index_mut/nested split_at calls on the left half yields a mutable reference to an item that a call on the right half also yields.", "all buffers, windows, split points and access paths", "Needs every pair of access paths over every layout of the buffer.", "src/ring_buffer/slice.rs:SliceMut::split_at", "src/ring_buffer/slice.rs:SliceMut::get_mut", "src/ring_buffer/slice.rs:IndexMut for SliceMut")
p("C75", "A Chunk<u8> is a faithful in-memory pipe", "std's write_all appends exactly the given bytes or fails with WriteZero after filling the chunk; read_exact removes exactly the requested prefix or fails with UnexpectedEof having emptied it; read_to_end returns everything and empties the chunk; what was written is read back.", "all chunks, all byte strings, all lengths", "All contents, offsets and lengths.", "src/sized_chunk/mod.rs:Write for Chunk", "src/sized_chunk/mod.rs:Read for Chunk")
p("C76", "A RingBuffer<u8> is a faithful in-memory pipe", "std's write_all appends exactly the given bytes or fails with WriteZero after filling the buffer; read_exact and read_to_end remove exactly the prefix they return, wherever the seam is.", "all buffers, all byte strings, all origins", "All contents, origins and lengths.", f"{RB}:Write for RingBuffer", f"{RB}:Read for RingBuffer")
p("C77", "Arbitrary::size_hint bounds the input that arbitrary reads", "size_hint never panics, and arbitrary never reads more bytes than the upper bound it gives, whenever the element type's own hint is right.", "all capacities, element types and inputs", "All inputs and element generators.", "src/arbitrary.rs:size_hint", "src/arbitrary.rs:arbitrary")
p("C78", "RingBuffer is a drop-in replacement for Chunk", "A program that uses only the calls the two types share (constructors, queries, indexing, push, insert, remove, insert_from, extend, drop_left/right, clear, split_off, append, drain_from_front/back, clone, consuming iteration, read, drop) sees the same results, panics, destructor runs, clones and final contents with RingBuffer<A, N> as with Chunk<A, N>, as long as no destructor panics (C15 and C35 show what differs then).", "all capacities N > 0, all programs of shared calls on any number of containers, all element types whose destructors do not panic", "Compares two implementations over every program.", "src/sized_chunk/mod.rs:Chunk", f"{RB}:RingBuffer")
p("C79", "How the contents are laid out never shows", "Two containers with the same contents cannot be told apart by any later program, however they came to hold them: same results, panics, destructor runs and clones, and again the same contents afterwards.", "all pairs of states with equal contents, all later programs, all four containers", "Observational equivalence quantifies over all programs.", "src/sized_chunk/mod.rs:Chunk", f"{RB}:RingBuffer", "src/sparse_chunk/mod.rs:SparseChunk", f"{IAF}:InlineArray")
p("C80", "The unsafe accessors agree with the safe ones wherever their safety contract is met", "get_unchecked(i) and get_unchecked_mut(i) of RingBuffer, Slice and SliceMut with i below the length, and of SparseChunk at an inhabited index, return exactly the item there; writing through the mutable one changes exactly that item; nothing else is touched and no undefined behaviour occurs.", "all contents, origins, slice ranges, indices meeting the contract", "Undefined behaviour is invisible to assertions; every origin and index.", f"{RB}:RingBuffer::get_unchecked", f"{RB}:RingBuffer::get_unchecked_mut", "src/ring_buffer/slice.rs:get_unchecked", "src/sparse_chunk/mod.rs:SparseChunk::get_unchecked")
p("C81", "The build profile, the width of usize and an InlineArray's host type never show", "A program sees the same results, panics, destructor runs, clones and final contents in a debug and in a release build, and with any pointer width that fits its numbers; an InlineArray behaves the same in every host type that gives it the same capacity. (The calls excepted are the ones other properties show to differ: Chunk::from_front/from_back across profiles (C22), insert_from with an overflowing announced length (C12, C31), RingBuffer's io::Write in debug builds (C41), ..=usize::MAX in release builds (C40).)", "all programs, pairs of builds, capacities, host types", "Tests run in one build on one target.", "src/sized_chunk/mod.rs:Chunk", f"{RB}:RingBuffer", "src/sparse_chunk/mod.rs:SparseChunk", "src/inline_array/mod.rs:InlineArray")
p("C82", "Every capacity the type system accepts is usable", "A push on a RingBuffer that is not full succeeds, whatever the capacity.", "all capacities up to usize::MAX, all states, builds", "Nobody tests capacities near usize::MAX.", f"{RB}:RingBuffer::push_back", f"{RB}:RingBuffer::push_front", "src/ring_buffer/index.rs:Add for RawIndex")
p("C83", "insert_from costs what is documented", "insert_from of m items rewrites O(m + n) slots of storage, n being the number of items following the index.", "all containers, indices, iterators", "The cost depends on where the history left the items.", "src/sized_chunk/mod.rs:Chunk::insert_from", f"{RB}:RingBuffer::insert_from")
p("C84", "Bulk moves leave the source's storage alone and write no more than the items moved", "split_off, append, drain_from_front and drain_from_back do not touch the storage of the container the items come from, and rewrite in the other one only as many slots as items moved (a Chunk with no room at that end also moves the items it had).", "all pairs of containers, all counts", "Depends on the layouts of both.", "src/sized_chunk/mod.rs:Chunk::append", "src/sized_chunk/mod.rs:Chunk::drain_from_front", "src/sized_chunk/mod.rs:Chunk::drain_from_back", "src/sized_chunk/mod.rs:Chunk::split_off", f"{RB}:RingBuffer::drain_from_front", f"{RB}:RingBuffer::drain_from_back", f"{RB}:RingBuffer::split_off")
p("C85", "InlineArray calls write no more bytes than documented", "push writes the length and one item, pop and (in the array that is split) split_off only the length, insert(i) the length and len - i + 1 items, remove(i) the length and the items after i.", "all layouts, arrays and indices", "All layouts and contents.", f"{IAF}:InlineArray::push", f"{IAF}:InlineArray::pop", f"{IAF}:InlineArray::insert", f"{IAF}:InlineArray::remove", f"{IAF}:InlineArray::split_off")
p("C86", "Every slice built from raw parts covers initialised items only", "Whenever a method builds a slice with from_raw_parts, all the items it covers are initialised, as the contract of that function demands.", "all reachable containers, all methods that build such slices", "Breaking the contract is invisible to assertions.", "src/sized_chunk/mod.rs:Chunk::as_slice", f"{IAF}:Deref for InlineArray", "src/sparse_chunk/mod.rs:SparseChunk::values")
p("C87", "Repeated pushes and pops at one end of a Chunk run in constant time each, with at most one exception", "In any run of push_back and pop_back calls (or of push_front and pop_front calls), from any chunk, every call except at most one rewrites at most one slot; a new chunk that is used at one end only never moves an item.", "all reachable chunks, all runs of any length", "It is about every run, and assertions do not see the cost of a call.", "src/lib.rs", "src/sized_chunk/mod.rs:Chunk::push_back", "src/sized_chunk/mod.rs:Chunk::pop_back", "src/sized_chunk/mod.rs:Chunk::push_front", "src/sized_chunk/mod.rs:Chunk::pop_front")
p("C88", "Every element is destroyed, in order, even when a destructor panics", "Dropping or clearing a container (and drop_left, drop_right) destroys exactly the elements concerned, in ascending order; when one destructor panics the remaining elements are still destroyed before the panic goes on, as for Vec and arrays.", "all reachable containers, all sets of panicking destructors with at most one panic per call, all counts", "It ranges over which destructor panics and over the layout.", "src/sized_chunk/mod.rs:Drop for Chunk", "src/sized_chunk/mod.rs:Chunk::clear", "src/sized_chunk/mod.rs:Chunk::drop_left", "src/sized_chunk/mod.rs:Chunk::drop_right", f"{RB}:Drop for RingBuffer", f"{RB}:RingBuffer::clear", "src/sparse_chunk/mod.rs:Drop for SparseChunk", f"{IAF}:Drop for InlineArray", f"{IAF}:InlineArray::clear")
p("C89", "An iterator that never ends cannot hang or overflow a container", "extend and collecting stop as soon as an item does not fit: they panic after asking for one item more than there is room for, the items that fitted stay (extend) or are destroyed (collect), and the rest is never asked for. Collecting into a SparseChunk stops at the first Some at an index not below N (endless Nones keep it waiting).", "all iterators, including endless ones; all reachable containers", "A test can only try some streams.", "src/sized_chunk/mod.rs:Extend for Chunk", "src/sized_chunk/mod.rs:FromIterator for Chunk", f"{RB}:Extend for RingBuffer", f"{RB}:FromIterator for RingBuffer", f"{IAF}:Extend for InlineArray", f"{IAF}:FromIterator for InlineArray", "src/sparse_chunk/mod.rs:FromIterator for SparseChunk")
p("C90", "The project's own fuzz targets can never fail", "Whatever input the fuzzer generates, the four fuzz targets (which run a container next to a standard Vec or BTreeMap, compare the two after every action and check that the calls they expect to panic do) run to the end: no assertion fails, no unexpected panic, no undefined behaviour.", "all constructs and all sequences of actions of any length; every capacity of at least two (SparseChunk: one), every layout InlineArray accepts; InsertFrom lists whose length plus N fits usize", "Fuzzing samples inputs; this is all of them.", "fuzz/fuzz_targets/sized_chunk.rs", "fuzz/fuzz_targets/ring_buffer.rs", "fuzz/fuzz_targets/sparse_chunk.rs", "fuzz/fuzz_targets/inline_array.rs", "fuzz/fuzz_targets/assert.rs:assert_panic")
p("C91", "Calls through a shared reference write nothing; concurrent readers agree under every schedule", "A call that takes the container by &self (length tests, indexing, iterating, taking and reading slices, comparing, hashing, formatting, cloning) changes no byte of it, even when it panics. So threads that share containers through shared references always find them unchanged, and each of their calls gets the answer that the contents determine, whatever the scheduler does and whatever the other threads call.", "all containers (also states no safe code reaches, for writing nothing), all calls by &self, all numbers of threads, programs and schedules", "It ranges over all schedules.", "src/sized_chunk/mod.rs:Chunk", f"{RB}:RingBuffer", "src/ring_buffer/slice.rs:Slice", "src/sparse_chunk/mod.rs:SparseChunk", f"{IAF}:InlineArray")
p("C92", "insert_ordered finds its place in O(log n) comparisons and inserts exactly once, whatever the order does", "On a container that is not full insert_ordered makes at most ceil(log2 n) + 1 comparisons and then inserts the value exactly once, at an index not above the length, even if the contents are not sorted or the order is inconsistent; if a comparison panics, nothing has changed. Nothing that compares greater stands before it and nothing that compares less after it when the contents were in order; sorted contents stay sorted. A full container panics before comparing anything.", "all reachable Chunks and RingBuffers, all comparison functions (partial, inconsistent, panicking), all values, both binary searches the standard library has shipped", "Needs every content, layout and comparison function; the number of comparisons is not asserted by any test.", "src/sized_chunk/mod.rs:Chunk::insert_ordered", f"{RB}:RingBuffer::insert_ordered", "src/ring_buffer/slice.rs:Index for Slice")
p("C93", "Every capacity the type system accepts is usable: Chunk", "With any capacity up to usize::MAX (Rust accepts all of them for zero-sized elements), a Chunk does what a list of at most N items does: no call panics, wraps or misbehaves because an index computation overflows.", "all capacities up to usize::MAX, all histories, builds", "Nobody tests capacities near usize::MAX.", "src/sized_chunk/mod.rs:Chunk::append", "src/sized_chunk/mod.rs:Chunk::drain_from_front", "src/sized_chunk/mod.rs:Chunk::drain_from_back", "src/sized_chunk/mod.rs:Chunk::insert_from", "src/sized_chunk/mod.rs:Chunk")
p("C94", "Programs that mix the containers behave like programs on lists and maps", "A program that uses any number of Chunks, RingBuffers, SparseChunks and InlineArrays at the same time, at any capacities, and moves items between them (dst.extend(src.drain()) for any two sequence types, Chunk::from(&mut InlineArray)) or compares them, sees the results, panics and destructor runs that the same program on lists and maps sees; no undefined behaviour; every element moved in is handed back, destroyed or stored exactly once, with the exclusions of C14, C34, C54 and C61. (Capacities below usize::MAX / 2, of ring buffers not 0: see C44, C82, C93.)", "all programs, all capacities and layouts, all element types", "A property of all interleavings of calls on all pairs of types.", "src/sized_chunk/mod.rs:Extend for Chunk", "src/sized_chunk/iter.rs:Drain", f"{RB}:Extend for RingBuffer", "src/ring_buffer/iter.rs:OwnedIter", f"{IAF}:Extend for InlineArray", "src/inline_array/iter.rs:Drain", "src/sized_chunk/mod.rs:From<&mut InlineArray>")
p("C95", "Comparing, hashing and printing call the elements' methods in order, as often as needed, and survive their panics", "== calls the elements' == only if the lengths (of SparseChunks: the occupied indices) agree, then on the pairs in order up to the first unequal one; partial_cmp and cmp call the elements' method in order up to the first pair that decides; hash hashes every element once in order; {:?} prints every element once in order up to the first error of the writer, which it returns. If a call panics the panic is passed on; the containers are unchanged whatever the elements' methods do.", "all containers and slices, all contents, all (effectful, panicking, inconsistent) implementations of the elements' methods, all failing writers", "Quantifies over user code and over where it panics or fails.", "src/sized_chunk/mod.rs:PartialEq for Chunk", f"{RB}:PartialEq for RingBuffer", "src/ring_buffer/slice.rs:PartialEq for Slice", "src/sparse_chunk/mod.rs:PartialEq for SparseChunk", f"{IAF}:PartialEq for InlineArray", "src/sized_chunk/mod.rs:Hash for Chunk", "src/sparse_chunk/mod.rs:Debug for SparseChunk")

p("C96", "References handed out by RingBuffer::iter_mut may be kept and used in any order", "A client of iter_mut() may ask for items from either end, keep the references and read and write through any of them in any order, also after asking for more items; none of this is undefined behaviour under Rust's aliasing rules (Stacked Borrows or Tree Borrows), every reference stays usable, they are to distinct slots holding the items in order, and afterwards the buffer may be used again.", "all buffers, all origins, all sequences of next, next_back, reads and writes; all states of the aliasing machine a program can reach", "Breaking the aliasing rules is invisible to assertions; all interleavings of calls and uses.", f"{RB}:RingBuffer::iter_mut", "src/ring_buffer/iter.rs:IterMut::next", "src/ring_buffer/iter.rs:IterMut::next_back", "src/ring_buffer/iter.rs:IterMut::new")
p("C97", "References handed out by SparseChunk::iter_mut and option_iter_mut may be kept and used in any order", "A client of iter_mut() or option_iter_mut() may keep the references it gets and read and write through any of them in any order, also after asking for more; none of this is undefined behaviour under Stacked Borrows or Tree Borrows.", "all chunks, all sequences of next, reads and writes; all states of the aliasing machine a program can reach", "Breaking the aliasing rules is invisible to assertions; all interleavings of calls and uses.", "src/sparse_chunk/iter.rs:IterMut::next", "src/sparse_chunk/iter.rs:OptionIterMut::next", "src/sparse_chunk/mod.rs:SparseChunk::values_mut", "src/sparse_chunk/mod.rs:SparseChunk::iter_mut")
p("C98", "The two halves of SliceMut::split_at may be used side by side", "After split_at, a client may read and write items through the left and the right half in any order without undefined behaviour under Stacked Borrows or Tree Borrows; afterwards the buffer may be used again.", "all sequences of get/index and get_mut/index_mut on either half; all states of the aliasing machine a program can reach", "Breaking the aliasing rules is invisible to assertions; all interleavings.", "src/ring_buffer/slice.rs:SliceMut::split_at", "src/ring_buffer/slice.rs:SliceMut::get_mut")
p("C99", "The containers' own pointers obey the aliasing rules", "Whatever reborrows, raw pointers, reads, writes and block copies the containers make inside their methods, with indices inside the storage, are accepted by Stacked Borrows and by Tree Borrows, in any order and on any number of containers, and leave the caller's borrows usable.", "all sequences of internal pointer operations with indices inside the storage; all states of the aliasing machine a program can reach", "Breaking the aliasing rules is invisible to assertions.", "src/sized_chunk/mod.rs:Chunk::force_copy", "src/sized_chunk/mod.rs:Chunk::force_copy_to", "src/sized_chunk/mod.rs:Chunk::as_mut_slice", f"{RB}:RingBuffer::copy_from", "src/sparse_chunk/mod.rs:SparseChunk::values_mut", f"{IAF}:InlineArray::insert", f"{IAF}:InlineArray::remove", f"{IAF}:InlineArray::split_off")
p("C100", "No method of Chunk or InlineArray breaks the aliasing rules", "Whatever a reachable Chunk or InlineArray holds and wherever its items lie, every method (push, pop, insert, remove, split_off, append, drain_from_front/back, from_front/back, clear, drop_left/right, clone, iteration and drop) makes only reborrows, reads, writes and block copies which Stacked Borrows and Tree Borrows accept, and leaves the caller's borrows usable.", "all chunks and arrays, all methods with all arguments, all states of the aliasing machine a program can reach", "The aliasing rules are not checked by the hardware, and whether a method moves items depends on the history.", "src/sized_chunk/mod.rs:Chunk", f"{IAF}:InlineArray")
p("C101", "Threads that own the parts of a split mutable ring slice do not disturb each other, under any schedule", "A SliceMut (which is Send) may be split with split_at into any number of parts and every part given to a thread of its own. Whatever the threads do with get_mut and slice[i] and however they are scheduled, there is no data race and no undefined behaviour; every thread reads and leaves behind what it would if it had a list of its own, and the rest of the buffer does not change.", "all buffers, windows, ways of splitting, programs of any number of threads, and schedules", "It ranges over all schedules; a data race may show on no test machine.", "src/ring_buffer/slice.rs:SliceMut::split_at", "src/ring_buffer/slice.rs:SliceMut::get_mut", "src/ring_buffer/slice.rs:IndexMut for SliceMut")
p("C102", "No method of RingBuffer or SparseChunk breaks the aliasing rules", "Whatever a reachable RingBuffer or SparseChunk holds and wherever its items lie, every method that touches the storage (push, pop, insert, remove, insert_from, split_off, append, drain_from_front/back, from_front/back, drop_left/right, clear, get, get_mut, indexing, clone, io::Write::write; insert, remove, pop, get, get_mut, clone and drop of the sparse chunk) makes only reborrows, reads, writes and block copies which Stacked Borrows and Tree Borrows accept, reads and drops only initialised slots, and leaves the caller's borrows usable.", "all buffers and sparse chunks, all methods with all arguments, all states of the aliasing machine a program can reach", "The aliasing rules are not checked by the hardware, and which slots a method touches depends on the history.", "src/ring_buffer/mod.rs:RingBuffer", "src/sparse_chunk/mod.rs:SparseChunk")
p("C103", "A Chunk used as a queue moves few items in total, unless it is nearly full", "In any run of k push_back/pop_front calls (or push_front/pop_back calls) during which a Chunk never holds more than K items, the total number of items moved is at most (K-1)/(N-K+1) times k + N; a queue at most half full moves at most one item per call on average.", "all reachable chunks, all runs of any length, all capacities", "A single call can move everything: only the total over a whole run is bounded.", "src/sized_chunk/mod.rs:Chunk::push_back", "src/sized_chunk/mod.rs:Chunk::push_front", "src/sized_chunk/mod.rs:Chunk::pop_front", "src/sized_chunk/mod.rs:Chunk::pop_back")
p("C104", "References handed out by iter_mut can be used by different threads", "Take references from RingBuffer::iter_mut (with any sequence of next and next_back), from SparseChunk::iter_mut or option_iter_mut, or one per item from the mutable slice of a Chunk or InlineArray, and give each to some thread. Two threads never touch the same slot (or byte); under every schedule each thread reads, and leaves behind its references, what it would if it were alone, and in the end the container holds its old contents with exactly those items replaced.", "all reachable containers, all iterator calls, all distributions of the references over any number of threads, all programs, all schedules", "Races depend on the schedule; the iterators make the references from raw pointers, so the borrow checker does not establish that they are distinct.", "src/ring_buffer/iter.rs:IterMut", "src/sparse_chunk/iter.rs:IterMut", "src/sparse_chunk/iter.rs:OptionIterMut", "src/sized_chunk/mod.rs:Chunk::as_mut_slice", "src/inline_array/mod.rs:InlineArray::deref_mut")
p("C105", "Containers and iterators can cross threads only if their items can", "If a container, slice or iterator of this crate is Send, then its items are Send (if it yields items or mutable references) or Sync (if it yields shared references); if it is Sync, its items are Sync. Conversely each is Send and Sync whenever that holds (for InlineArray also of the host type), except RingBuffer's IterMut, which is never either.", "all public types, all item and host types", "Auto traits are derived by the compiler from field declarations for all type parameters at once; a test instantiates a few types.", "src/ring_buffer/iter.rs:IterMut", "src/inline_array/mod.rs:InlineArray", "src/sized_chunk/mod.rs:Chunk", "src/sparse_chunk/mod.rs:SparseChunk", "src/ring_buffer/slice.rs:SliceMut")
p("C106", "Lifetimes can be shortened exactly where that is safe", "Containers, consuming iterators and shared iterators and slices may be used at a more general item type (such as one with a shorter lifetime); those that borrow mutably may not, and if they could, safe code could store a short-lived item where a long-lived one is expected. The borrow's own lifetime may always be shortened.", "all public types, all pairs of item types in the subtype relation, all lifetimes, all memories", "Variance is derived by the compiler from field declarations (raw pointers and PhantomData) and shows only in programs that a test cannot contain because they should not compile.", "src/ring_buffer/iter.rs:IterMut", "src/inline_array/mod.rs:InlineArray", "src/ring_buffer/slice.rs:SliceMut", "src/sparse_chunk/iter.rs:IterMut")
p("C107", "Items can be poured from any container into any other through its iterator", "Extending, collecting into or inserting into a container from an iterator that is itself a program with its own state - such as drain() or into_iter() of another container, forwards or backwards - moves the iterator's items in order and exhausts it (insert_from in a release build: if capacity plus number of items fits in usize, see C12). If they do not fit, the call panics: the items placed stay (extend) or nothing changes (insert_from), the refused item is destroyed, and the rest stays in the drained container or is destroyed with the consumed one.", "all containers on both sides, all capacities and layouts, all contents, all indices and counts, all iterator programs that behave like a list", "A test pours a few sizes of one pair; the claim is about every pair, every split of items between them at a panic, and every iterator whose state is arbitrary.", "src/sized_chunk/mod.rs:insert_from", "src/sized_chunk/mod.rs:collect_from", "src/ring_buffer/mod.rs:insert_from", "src/ring_buffer/mod.rs:collect_from", "src/inline_array/mod.rs:extend", "src/sized_chunk/iter.rs:Drain", "src/ring_buffer/iter.rs:Drain", "src/inline_array/iter.rs:Drain", "src/sparse_chunk/iter.rs:Drain")
p("C108", "No iterator, whatever its own state does, can break a container", "extend, collect, collect_from and insert_from may be given any safe iterator: one whose next(), len() and destructor change its state in any way, return anything and panic at any time. If its len() is stable and does not overflow in a release build, the call has no undefined behaviour and no endless loop, and the container afterwards holds valid items: on return, its own with items the iterator handed out at the right place (as many as announced or asked for, except for insert_from at the end of a RingBuffer); on a panic, its own (with or without some of the iterator's appended), or, for insert_from, possibly none.", "all containers and contents, all indices and counts, all iterator programs over all state types, all panics", "User iterators are arbitrary programs; a test supplies a few of them.", "src/sized_chunk/mod.rs:insert_from", "src/sized_chunk/mod.rs:write_from_iter", "src/sized_chunk/mod.rs:collect_from", "src/ring_buffer/mod.rs:insert_from", "src/ring_buffer/mod.rs:collect_from", "src/inline_array/mod.rs:extend")
p("C109", "Cloning and destroying call each item's own clone and destructor once, in order, whatever these do", "The clone and the destructor of the element type may be any code with state of its own, and may panic at any call. clone calls clone once per item, front to back (by index for SparseChunk); the copy holds exactly what these calls returned, the original is unchanged. If a call panics, no later item is cloned, every clone already made is destroyed once (InlineArray: leaked), and the panic goes on, unless a destructor panics too, which aborts. Dropping, clear, drop_left and drop_right call the destructor of exactly the items concerned, once, in order; Chunk and InlineArray go on after a panic of one of them, RingBuffer and SparseChunk stop there and leak the rest; after a panic the container still shows all its items; an index out of range panics before any call.", "all containers and contents, all indices, all programs for clone and drop over all state types, all panics", "clone and drop are user code; a test tries a few element types and panics at a few calls.", "src/sized_chunk/mod.rs:clone", "src/sized_chunk/mod.rs:clear", "src/sized_chunk/mod.rs:drop_left", "src/ring_buffer/mod.rs:clone", "src/ring_buffer/mod.rs:drop_right", "src/sparse_chunk/mod.rs:clone", "src/inline_array/mod.rs:clone")
p("C110", "The containers never look at their items", "Take any program on any number of containers and replace every item in it by another one, of the same or of another type, whose clone is the replacement of the clone and whose destructor panics exactly if the original's does (and let comparison functions and the client's own writes answer accordingly). Then the program takes the same course: the same calls return or panic, destructors run and clones are made in the same order, and everything returned and held is the replacement of what it was. In particular two programs that differ only in their items return and panic at the same calls, with the same lengths, answers and presence of items. (Left out, as in C01: calls a release build makes undefined, see C12, C22; RingBuffer::write in debug builds, see C41; indices outside a slice, see C39.)", "all programs over all four containers, all item types, all replacements", "a test fixes one item type and a few items; this is what lets a test with one item type speak for all.", "src/sized_chunk/mod.rs:Chunk", "src/ring_buffer/mod.rs:RingBuffer", "src/ring_buffer/slice.rs:Slice", "src/sparse_chunk/mod.rs:SparseChunk", "src/inline_array/mod.rs:InlineArray")
p("C111", "Containers of containers, to any depth, clone and destroy every item in them once and in order", "The items of a container can be containers themselves, of any of the four kinds, to any depth. Destroying such a value calls the destructor of every plain item in it exactly once, front to back, if it returns. If a plain item's destructor panics, none is called twice, and all are called if the containers are chunks and inline arrays; these are destroyed like one slice of all the plain items, ring buffers and sparse chunks like one loop over them. Cloning clones every plain item exactly once, front to back, destroys nothing, and gives a value nested in the same way that holds the clones in the same places. If a plain item's clone panics, no later item is cloned, and of the clones made none is destroyed twice, and each is destroyed once if none of the containers is an inline array (see C64).", "all nestings of the four containers, all depths and capacities, all contents, all effects of the items' own clone and destructor", "the nestings are infinitely many, and which clones exist when a panic strikes depends on all the levels above.", "src/sized_chunk/mod.rs:Chunk::clone", "src/sized_chunk/mod.rs:Chunk::drop", "src/ring_buffer/mod.rs:RingBuffer::clone", "src/ring_buffer/mod.rs:RingBuffer::drop", "src/sparse_chunk/mod.rs:SparseChunk::clone", "src/sparse_chunk/mod.rs:SparseChunk::drop", "src/inline_array/mod.rs:InlineArray::clone", "src/inline_array/mod.rs:InlineArray::drop_contents")
p("C112", "Containers of containers, to any depth, compare, hash and print like lists of lists", "The items of a container can be containers themselves, of any mixture of kinds and to any depth. ==, partial_cmp, cmp, hash and {:?} of such a value then do what the same operations do on the lists of lists (and, for SparseChunk, which has == and {:?} only, maps) that it shows: the plain items' own methods are called on the same items in the same order, up to the same point, and the answer, the panic if there is one and every effect of those methods are the same. In particular: == answers whether the two show the same, if == of the plain items answers whether they are the same; hash feeds the plain items to the hasher, each once and in order, and nothing else, however they are nested (so it cannot tell nestings of the same items apart); and if the plain items keep the contracts of Eq, Ord and Hash, so does the nested container. Borrowed slices as items are not covered.", "all nestings of the containers, all depths and capacities, all contents, all effects of the items' own methods and of the formatter", "the nestings are infinitely many, and which items are compared depends on the answers at all levels.", "src/sized_chunk/mod.rs:Chunk::eq", "src/sized_chunk/mod.rs:Chunk::cmp", "src/sized_chunk/mod.rs:Chunk::hash", "src/ring_buffer/mod.rs:RingBuffer::eq", "src/ring_buffer/mod.rs:RingBuffer::hash", "src/sparse_chunk/mod.rs:SparseChunk::eq", "src/sparse_chunk/mod.rs:SparseChunk::fmt", "src/inline_array/mod.rs:InlineArray::eq", "src/inline_array/mod.rs:InlineArray::hash")
p("C113", "Whatever code does with an iterator of the crate, it might as well do with a list's", "Code that is handed an iterator of the crate may call next, next_back and size_hint as often and in whatever order it decides, depending on everything it has seen, may destroy what it gets whenever it likes, stop early, or panic. Whatever it does, it sees the same answers, the same items are destroyed in the same order, and the same panics and aborts happen, as with an iterator over the list of the items; and when it drops the iterator, or unwinds, the items it did not take stay in the container (drain() of Chunk, RingBuffer and InlineArray) or are each destroyed once (into_iter(), and drain() and option_drain() of SparseChunk). This covers drain and into_iter of all containers, iter and iter_mut of RingBuffer, its slices and SparseChunk, and indices, entries, option_iter, option_iter_mut and option_drain of SparseChunk; the references of iter_mut point to distinct slots that hold the items in order. So the methods every Rust iterator has do what their documentation says: nth, nth_back, count, collect, last, find, position, rposition, len and rev answer as on a list, and destroy what they should. (The iterators of Chunk and InlineArray by reference are std's slice iterators and are not the crate's code.)", "all iterators of the crate, all contents and capacities, all programs that use an iterator, all panics of destructors, debug and release builds", "what code does next may depend on all it has seen, so that there are infinitely many programs.", "src/sized_chunk/iter.rs:Iter", "src/sized_chunk/iter.rs:Drain", "src/ring_buffer/iter.rs:Iter", "src/ring_buffer/iter.rs:IterMut", "src/ring_buffer/iter.rs:Drain", "src/ring_buffer/iter.rs:OwnedIter", "src/sparse_chunk/iter.rs:Iter", "src/sparse_chunk/iter.rs:IterMut", "src/sparse_chunk/iter.rs:Drain", "src/sparse_chunk/iter.rs:OptionIter", "src/sparse_chunk/iter.rs:OptionIterMut", "src/sparse_chunk/iter.rs:OptionDrain", "src/sparse_chunk/mod.rs:SparseChunk::indices", "src/sparse_chunk/mod.rs:SparseChunk::entries", "src/inline_array/iter.rs:Iter", "src/inline_array/iter.rs:Drain")
p("C114", "Cloning into a pool, with items whose clone does whatever it likes", "PoolClone::clone_uninit of Chunk, RingBuffer and SparseChunk calls clone of every item exactly once, front to back (in index order for SparseChunk), and calls nothing else: neither a destructor nor the clone of anything else, whatever the memory it is given held before. When all these calls return, the memory holds a container showing exactly what they returned, at the places the original has its items, and the original is unchanged. When a clone panics, the clones of the later items are not made, and the clones already made are forgotten (leaked), never destroyed. Memory which gets no clone is not written.", "all capacities, contents, contents of the target memory, all clone functions with effects of their own, all panics, debug and release builds", "what clone does can depend on everything it did before, and the target's memory is arbitrary.", "src/sized_chunk/refpool.rs:PoolClone", "src/ring_buffer/refpool.rs:PoolClone", "src/sparse_chunk/refpool.rs:PoolClone")
p("C115", "Iterators in the hands of code with effects, and of elements whose destructor does whatever it likes", "Code that has an iterator of the crate may, beside calling next, next_back and size_hint in any order, run code of its own in between, which keeps counts, destroys items, and may panic; the elements' destructors may do the same; and it may drop the iterator, unwind through it, or forget it. All of this goes as with an iterator over the list of the items: the same answers, the user's code and the destructors run on the same states in the same order, and it ends in the same way (returns, panics, aborts, or runs forever). Dropping into_iter() of a Chunk or InlineArray destroys the items left as a slice is destroyed, that of a RingBuffer, and drain(), into_iter() and option_drain() of a SparseChunk, one at a time, front to back; dropping drain() of the other three destroys nothing, and the items left stay in the container.", "all capacities, contents, all code using an iterator with any effects and any panics, all destructors, debug and release builds", "the code is arbitrary, and what it does may depend on everything it has seen and done, as may the destructors.", "src/sized_chunk/iter.rs:Iter", "src/ring_buffer/iter.rs:OwnedIter", "src/sparse_chunk/iter.rs:OptionDrain", "src/inline_array/iter.rs:Drain")
p("C116", "Whatever code does with iter_mut and the references it gets", "Code that has iter_mut() of a RingBuffer or of one of its slices, or iter_mut() or option_iter_mut() of a SparseChunk, may keep every reference it gets, and read and write through any of them whenever it likes: while it still iterates, in any order, as often as it likes, depending on all it has read. It gets, reads and is answered what it would be by references to the positions of a list (the entries of a map); when it is done, or has panicked, the container shows exactly that list (map) with what was written. Items of which it was given no reference are as before, and no item appears or disappears.", "all capacities, contents, slices, all code using the iterator and its references, debug and release builds", "the code is arbitrary: which references it uses when, and what it writes, may depend on everything before.", "src/ring_buffer/iter.rs:IterMut", "src/sparse_chunk/iter.rs:IterMut", "src/sparse_chunk/iter.rs:OptionIterMut")
p("C117", "Filling a container from an iterator, when both the iterator and the elements run code of their own", "extend() and from_iter() of Chunk, RingBuffer and InlineArray, collect_from() of Chunk and RingBuffer, and from_iter() of SparseChunk: the items are taken from the iterator one by one and appended to a list (put in a map, the first at index 0 and so on, none where the iterator yields None), and the iterator is dropped afterwards, whether the call returns or panics. An item for which there is no room makes the call panic and is destroyed; next() is not called again. When a call that makes a new container panics, the items collected are destroyed, front to back, after the iterator (collect_from, which borrows the iterator, does not drop it). This holds when next(), the destructor of the iterator and the destructors of the items are any code acting on the same state of the user; should a destructor panic during the unwinding, the process aborts. Hence each item the iterator yielded is kept or destroyed exactly once, and the log of what happened is determined.", "all capacities, contents, iterators and elements with any code acting on any state, number of items, debug and release builds", "the user's code is arbitrary and its calls influence one another.", "src/sized_chunk/mod.rs:Extend", "src/sized_chunk/mod.rs:FromIterator", "src/sized_chunk/mod.rs:collect_from", "src/ring_buffer/mod.rs:Extend", "src/ring_buffer/mod.rs:FromIterator", "src/ring_buffer/mod.rs:collect_from", "src/inline_array/mod.rs:Extend", "src/inline_array/mod.rs:FromIterator", "src/sparse_chunk/mod.rs:FromIterator")
p("C118", "A method's arguments stay valid while it runs", "While a method of Chunk, RingBuffer, SparseChunk or InlineArray runs, nothing it does invalidates the reference it was called through (or the one to the other container of append, drain_from_front and so on), even for a moment: with these arguments guarded, the way LLVM is told (noalias, protectors), every method is accepted exactly when it is accepted without. Under Tree Borrows that is always, and during the whole call the containers' memory is accessed only through the arguments and what is derived from them. Under Stacked Borrows it is unless the method moves items within a chunk (C100). The same goes for the arguments of the helper functions the methods are made of (ptr, mut_ptr, as_mut_slice, values_mut, deref_mut and so on), as for those of any function that works only through its argument and what is derived from it.", "all capacities, contents, arguments, methods and helpers, and all states a program can reach", "undefined behaviour is not observable by running a test; the compiler relies on this for every execution.", "src/sized_chunk/mod.rs:Chunk", "src/ring_buffer/mod.rs:RingBuffer", "src/sparse_chunk/mod.rs:SparseChunk", "src/inline_array/mod.rs:InlineArray")
