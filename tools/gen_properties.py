#!/usr/bin/env python3
"""Generates /verif/properties.jsonl (edit here, then run)."""
import json, os
P = []
def p(id, title, statement, quantifier, why, *anchors):
    P.append(dict(id=id, title=title, statement=statement, quantifier=quantifier,
                  why_tests_cant=why, anchors=list(anchors)))
SC = "src/sized_chunk/mod.rs"; SCI = "src/sized_chunk/iter.rs"
RB = "src/ring_buffer/mod.rs"; RBI = "src/ring_buffer/iter.rs"; RBX = "src/ring_buffer/index.rs"; RBS = "src/ring_buffer/slice.rs"
SP = "src/sparse_chunk/mod.rs"; SPI = "src/sparse_chunk/iter.rs"
IA = "src/inline_array/mod.rs"; IAI = "src/inline_array/iter.rs"
HIST = "The internal offset depends on the whole history and on N; tests visit a handful of histories and mostly N = 64."

# ---------------- Chunk
p("C01", "Chunk behaves like a bounded list for every history",
  "For every finite sequence of Chunk API calls on any number of chunks (construct, push/pop at both ends, insert, remove, set, append, drain_from_front/back, split_off, drop_left/right, clear, insert_from, insert_ordered, clone, extend, iteration, drop), every returned value, every panic and the slice seen through deref are exactly those of a plain list with a capacity bound N.",
  "all element types, all capacities N (2N < 2^w), all op sequences and arguments, debug and release arithmetic; apart from the calls that C11, C12 and C22 are about (unstable len(), release-build insert_from of nearly 2^w items, release-build from_front/from_back with an excessive count)", HIST,
  f"{SC}:Chunk", f"{SC}:Chunk::as_slice")
p("C02", "Chunk length never exceeds capacity and len/is_empty/is_full tell the truth",
  "After any history the slice length is at most N, len() is the slice length, is_empty() holds iff the slice is empty and is_full() holds iff the slice has N items.",
  "all histories, all N", HIST, f"{SC}:Chunk::len", f"{SC}:Chunk::is_empty", f"{SC}:Chunk::is_full")
p("C03", "Safe Chunk calls never touch uninitialised or out-of-bounds memory",
  "No history of Chunk calls (with arguments inside the documented preconditions, and iterators whose len() is stable) reads a slot that was never written, accesses a slot outside 0..N, or loops forever; it either returns or panics.",
  "all histories, N, arguments, iterators that may panic or lie about their length", "Undefined behaviour need not show up as a failing assertion; layouts must be covered for every history.",
  f"{SC}:Chunk::force_read", f"{SC}:Chunk::force_write", f"{SC}:Chunk::force_copy", f"{SC}:Chunk::force_copy_to")
p("C04", "Chunk panics exactly when documented and a refused call changes nothing",
  "push on a full chunk, pop on an empty one, and any index/count out of range panic; all other calls do not; and after such a panic every chunk involved still holds exactly its previous contents.",
  "all states, all arguments including usize-extreme values", "Boundary cases multiply over left/right layout; tests check a few.",
  f"{SC}:Chunk::push_front", f"{SC}:Chunk::push_back", f"{SC}:Chunk::pop_front", f"{SC}:Chunk::pop_back", f"{SC}:Chunk::append", f"{SC}:Chunk::drain_from_front", f"{SC}:Chunk::drain_from_back", f"{SC}:Chunk::split_off", f"{SC}:Chunk::insert", f"{SC}:Chunk::remove")
p("C05", "Chunk is a double-ended queue at every layout",
  "push_back then pop_back, and push_front then pop_front, give the pushed value back and restore the contents; pushing l at the back and popping from the front gives l in order; internal re-centring when one side is out of room never reorders or loses items.",
  "all chunks, all values, all sequences of pushes", HIST, f"{SC}:Chunk::push_front", f"{SC}:Chunk::push_back", f"{SC}:Chunk::pop_front", f"{SC}:Chunk::pop_back")
p("C06", "Chunk insert/remove/set act at exactly the given index",
  "insert(i,v) yields l[..i]++[v]++l[i..]; remove(i) returns l[i] and yields l without position i; set(i,v) returns the old l[i] and replaces only that position; remove(i) after insert(i,v) is the identity - whichever side is shifted.",
  "all states, all indices", "Which side is shifted depends on left/right layout; three copy paths.", f"{SC}:Chunk::insert", f"{SC}:Chunk::remove", f"{SC}:Chunk::set")
p("C07", "Bulk moves between chunks keep order and conserve items",
  "append, drain_from_front, drain_from_back, from_front, from_back, drain_from and split_off move exactly the requested items, in order, to the requested end of the destination, and leave exactly the rest in the source.",
  "all pairs of chunks, all counts", "Source and destination layouts are independent: quadratically many cases.", f"{SC}:Chunk::append", f"{SC}:Chunk::drain_from_front", f"{SC}:Chunk::drain_from_back", f"{SC}:Chunk::from_front", f"{SC}:Chunk::from_back", f"{SC}:Chunk::split_off")
p("C08", "split_off and append are inverse",
  "split_off(i) followed by append of the returned chunk restores the original contents and empties the second chunk; it never panics.",
  "all chunks, all i <= len", "Composition of two layout-dependent operations.", f"{SC}:Chunk::split_off", f"{SC}:Chunk::append")
p("C09", "Chunk::insert_from inserts exactly the iterator's items in order",
  "With an iterator that reports its true length and fits, insert_from(i, it) yields l[..i]++items++l[i..]; it panics (contents unchanged) iff the index is out of bounds or the items do not fit (a release build in which len + iterator length overflows usize is the subject of C12).",
  "all chunks, indices, iterators of any length (release: length sum below 2^w)", "Four shifting strategies by layout.", f"{SC}:Chunk::insert_from", f"{SC}:Chunk::write_from_iter")
p("C10", "Chunk::insert_from is memory-safe for lying or panicking iterators",
  "If the iterator's len() is stable (and, in a release build, does not make len + len() overflow: C12) but it yields fewer items or panics part-way, insert_from panics, the chunk is left empty and fully usable and nothing is ever dropped twice; if it yields more items, exactly len() of them are taken.",
  "all chunks, indices, iterator behaviours (any finite sequence of yields ending in end or panic)", "The iterator is arbitrary user code: a crash point after every yield.", f"{SC}:Chunk::write_from_iter")
p("C11", "Chunk::insert_from is memory-safe even if len() changes between calls",
  "insert_from must be sound for any safe ExactSizeIterator, including one whose len() returns different values on successive calls (the code calls it twice).",
  "all iterators implementable in safe Rust", "Needs adversarial trait implementations.", f"{SC}:Chunk::insert_from", f"{SC}:Chunk::write_from_iter")
p("C12", "Chunk::insert_from refuses an over-long iterator in release builds too",
  "insert_from panics whenever len + iterator length exceeds the capacity, including when that sum overflows usize in a build without overflow checks.",
  "all iterators (e.g. 0..usize::MAX), both build modes", "Overflow behaviour differs from the debug build tests run in.", f"{SC}:Chunk::insert_from")
p("C13", "Chunk::insert_ordered keeps a sorted chunk sorted",
  "If the chunk is sorted by a total preorder, insert_ordered(v) leaves it sorted and adds exactly one occurrence of v; on an unsorted chunk v is still inserted exactly once; if a comparison panics, the chunk is unchanged.",
  "all sorted chunks, all values, any binary search meeting the slice::binary_search contract", "Depends on search result for every sorted list.", f"{SC}:Chunk::insert_ordered")
p("C14", "Chunk drops or hands out every element exactly once",
  "Over any history ending with all chunks dropped, the multiset of elements moved in equals the multiset returned to the caller plus the multiset dropped: nothing is leaked or dropped twice. Excluded: histories in which a clear, drop_left or drop_right panicked because of an item's destructor (C15), or an insert_from panicked half-way; writes through &mut only rearrange items.",
  "all histories", "Leaks and double drops are invisible to value assertions; needs every history.", f"{SC}:Drop for Chunk", f"{SC}:Chunk::drop_left", f"{SC}:Chunk::drop_right", f"{SC}:Chunk::clear")
p("C15", "Chunk never drops an element twice even if a destructor panics",
  "If an element's destructor panics inside drop_left, drop_right or clear, later use or destruction of the chunk must not drop an element that was already dropped.",
  "all chunks, all choices of panicking element", "Needs panicking destructors at every position.", f"{SC}:Chunk::drop_left", f"{SC}:Chunk::drop_right", f"{SC}:Chunk::clear")
p("C16", "Chunk::clone copies contents and survives a panicking Clone",
  "clone yields a chunk with the cloned items in order and the same free space on each side, leaving the original unchanged; if the k-th clone panics, exactly the k clones already made are dropped, once each.",
  "all chunks, all clone functions, all panic points", "A crash point at every element.", f"{SC}:Clone for Chunk")
p("C17", "collect/extend/collect_from take items in order and fail cleanly",
  "from_iter, extend and collect_from append the iterator's items in order; they panic iff the capacity is exceeded (or the iterator is too short / panics); extend leaves the already pushed items in place, the constructors drop them exactly once.",
  "all iterators including panicking ones, all chunks, all counts", "All iterator lengths and panic points.", f"{SC}:FromIterator for Chunk", f"{SC}:Extend for Chunk", f"{SC}:Chunk::collect_from")
p("C18", "Chunk consuming and draining iterators yield the contents under any interleaving",
  "Calling next/next_back on into_iter() or drain() in any order yields a prefix and a reversed suffix that partition the contents; size_hint is exact at every point; exhausted iterators stay exhausted; a drain abandoned early leaves exactly the unyielded items.",
  "all chunks, all interleavings of next and next_back", "Exponentially many interleavings.", f"{SCI}:Iter", f"{SCI}:Drain")
p("C19", "Chunk io::Read/io::Write is a bounded FIFO byte pipe",
  "write takes min(buf.len(), free) leading bytes and reports that count, read returns the oldest min(buf.len(), len) bytes; bytes come out in the order they went in, neither ever panics.",
  "all chunks of u8, all buffers, all sequences of reads and writes", "Unbounded sequences of partial reads and writes.", f"{SC}:io::Write for Chunk", f"{SC}:io::Read for Chunk")
p("C20", "Chunk equality, ordering and hashing depend only on contents",
  "Two chunks (or a chunk and a slice) are equal iff their contents are equal elementwise, compare lexicographically, and equal chunks feed identical data to a hasher, however their items are laid out.",
  "all pairs of chunks", "Needs all pairs of layouts.", f"{SC}:PartialEq for Chunk", f"{SC}:Ord for Chunk", f"{SC}:Hash for Chunk")
p("C21", "Chunk and InlineArray hash like the slice they Borrow as",
  "Because they implement Borrow<[A]>, a Chunk/InlineArray must hash identically to the slice it borrows as (so that a HashMap keyed by chunks can be queried by slices).",
  "all contents", "Trait-contract between two impls; no test exercises it.", f"{SC}:Hash for Chunk", f"{SC}:Borrow<[A]> for Chunk", f"{IA}:Hash for InlineArray")
p("C22", "Chunk::from_front/from_back reject an excessive count",
  "from_front/from_back with count greater than the source length panics without touching memory, in every build mode.",
  "all chunks, all counts, debug and release", "The check is a debug_assert: release builds are not what tests run.", f"{SC}:Chunk::from_front", f"{SC}:Chunk::from_back")
p("C23", "Chunk::from(InlineArray) moves everything or nothing",
  "Converting an inline array into a chunk yields the same items in order and empties the array if they fit, and otherwise panics leaving the array unchanged.",
  "all arrays, all capacities of both types", "Two independent capacities.", f"{SC}:From<&mut InlineArray> for Chunk")
# ---------------- RingBuffer
p("C24", "RingBuffer behaves like a bounded list for every history",
  "For every finite sequence of RingBuffer API calls on any number of buffers, every returned value, every panic and the sequence seen through iteration are exactly those of a plain list with capacity N, wherever the origin has wandered.",
  "all element types, all N > 0 (2N < 2^w), all op sequences and arguments, debug and release; apart from the calls that C31, C39, C40 and C41 are about (release-build insert_from of nearly 2^w items, slices indexed beyond their end, release-build bounds that overflow usize, debug-build io::Write)", "The origin depends on the whole history; wrap-around cases are layout specific.", f"{RB}:RingBuffer")
p("C25", "RingBuffer length never exceeds capacity and len/is_full/get agree with contents",
  "After any history the length is at most N, is_full iff it equals N, get(i) is Some of the i-th item iff i < len, and indexing panics iff i >= len.",
  "all histories, all indices", HIST, f"{RB}:RingBuffer::is_full", f"{RB}:HasLength for RingBuffer", f"{RB}:Array for RingBuffer", f"{RB}:Index for RingBuffer")
p("C26", "Safe RingBuffer calls never touch uninitialised or out-of-bounds memory and terminate",
  "No history of RingBuffer calls with N > 0 reads an unwritten slot, leaves 0..N, or loops forever.",
  "all histories, all N > 0 (2N < 2^w), iterators that may panic or lie, slices indexed anywhere, both builds; apart from release-build insert_from of nearly 2^w items (C31)", "UB and hangs are not observable as assertion failures in sampled runs.", f"{RB}:RingBuffer", f"{RBX}:RawIndex")
p("C27", "RingBuffer panics exactly when documented and a refused call changes nothing",
  "push on full, out-of-range insert/remove/drop_left/drop_right/split_off/drain_from_* panic and leave all buffers unchanged; pop on empty returns None.",
  "all states and arguments", "Boundary cases times layouts.", f"{RB}:RingBuffer")
p("C28", "RingBuffer is a double-ended queue without ever moving items",
  "push/pop at either end behave as a deque, and a push or pop changes at most one slot of storage (constant time).",
  "all buffers", HIST, f"{RB}:RingBuffer::push_back", f"{RB}:RingBuffer::push_front", f"{RB}:RingBuffer::pop_back", f"{RB}:RingBuffer::pop_front")
p("C29", "RingBuffer insert/remove act at exactly the given index",
  "insert(i,v) yields l[..i]++[v]++l[i..]; remove(i) returns l[i] and deletes only it; whichever side is shifted and wherever the seam lies.",
  "all states, all indices", "Element-wise shifting loops across the seam, two directions.", f"{RB}:RingBuffer::insert", f"{RB}:RingBuffer::remove")
p("C30", "RingBuffer bulk moves keep order and conserve items across the seam",
  "append, drain_from_front/back, from_front/back, drain_from and split_off move exactly the requested items in order and leave exactly the rest, for any combination of source and destination wrap-around.",
  "all pairs of buffers, all counts", "copy_from splits into up to four block copies depending on two origins.", f"{RB}:RingBuffer::copy_from", f"{RB}:RingBuffer::drain_from_front", f"{RB}:RingBuffer::drain_from_back", f"{RB}:RingBuffer::split_off")
p("C31", "RingBuffer::insert_from inserts exactly the iterator's items in order",
  "With an iterator reporting its true length that fits, insert_from(i,it) yields l[..i]++items++l[i..]; otherwise it panics with contents unchanged.",
  "all buffers, indices, iterators", "Two shifting loops across the seam.", f"{RB}:RingBuffer::insert_from")
p("C32", "RingBuffer::insert_from is memory-safe and takes at most len() items for lying iterators",
  "For any iterator (too short, too long, panicking) insert_from never causes UB or a double drop; it never takes more than the advertised number of items.",
  "all buffers, indices, iterator behaviours", "Arbitrary user code; crash point after every yield.", f"{RB}:RingBuffer::insert_from")
p("C33", "RingBuffer::insert_ordered keeps a sorted buffer sorted",
  "If sorted, insert_ordered(v) leaves it sorted with exactly one more v; on an unsorted buffer v is still inserted exactly once; if a comparison panics, the buffer holds what it held.", "all sorted buffers, values, any contract-meeting binary search", "All sorted lists.", f"{RB}:RingBuffer::insert_ordered")
p("C34", "RingBuffer drops or hands out every element exactly once",
  "Over any history ending with all buffers dropped, elements in = elements returned + elements dropped. Excluded: histories in which a clear, drop_left, drop_right or a buffer's own drop panicked because of an item's destructor (C35), or an insert_from panicked half-way; writes through &mut only rearrange items.", "all histories outside those exclusions", "Leaks/double drops are invisible to value assertions.", f"{RB}:Drop for RingBuffer", f"{RB}:RingBuffer::drop_left", f"{RB}:RingBuffer::drop_right", f"{RB}:RingBuffer::clear")
p("C35", "RingBuffer never drops an element twice even if a destructor panics",
  "A panicking destructor inside drop_left/drop_right/clear must not lead to a second drop of any element later.", "all buffers, all panicking elements", "Needs panicking destructors at every position.", f"{RB}:RingBuffer::drop_left", f"{RB}:RingBuffer::drop_right", f"{RB}:RingBuffer::clear")
p("C36", "RingBuffer::clone copies contents and survives a panicking Clone",
  "clone yields the cloned items in order; a panic in the k-th clone drops exactly the k clones already made.", "all buffers, clone functions, panic points", "Crash point at every element.", f"{RB}:Clone for RingBuffer")
p("C37", "RingBuffer iterators yield the contents under any interleaving of next and next_back",
  "iter, iter_mut, drain and into_iter yield a prefix and a reversed suffix partitioning the contents with exact size_hint; iter_mut never yields the same slot twice.", "all buffers, all interleavings", "Exponentially many interleavings times layouts.", f"{RBI}:Iter", f"{RBI}:IterMut", f"{RBI}:Drain", f"{RBI}:OwnedIter", f"{RBX}:IndexIter")
p("C38", "RingBuffer slices see exactly the requested sub-sequence",
  "slice(r), nested slice(r), split_at, get, iter and to_owned on Slice/SliceMut give exactly the sub-list; out-of-range requests panic.", "all buffers, all nested ranges", "Ranges compose arbitrarily.", f"{RBS}:Slice", f"{RBS}:SliceMut", f"{RB}:RingBuffer::parse_range")
p("C39", "Indexing a RingBuffer slice outside its range panics",
  "slice[i] and slice_mut[i] panic for every i >= slice.len(); in particular the halves produced by SliceMut::split_at never give access to each other's elements.", "all slices, all indices", "Tests index within range.", f"{RBS}:Index for Slice", f"{RBS}:IndexMut for SliceMut", f"{RBS}:SliceMut::split_at")
p("C40", "Out-of-range inclusive slice bounds are rejected in every build",
  "slice(a..=b) panics whenever b >= len, in debug and release.", "all bounds including usize::MAX, both builds", "usize::MAX + 1 wraps only in release.", f"{RB}:RingBuffer::parse_range", f"{RBS}:Slice::slice")
p("C41", "RingBuffer io::Write stores the leading bytes that fit and never panics",
  "write(buf) appends min(buf.len(), free) leading bytes and returns that count, in debug and release builds.", "all buffers, all byte slices, both builds", "Needs a buffer whose free space straddles the seam.", f"{RB}:io::Write for RingBuffer", f"{RB}:RingBuffer::copy_from_slice")
p("C42", "RingBuffer io::Read returns the oldest bytes", "read returns and removes the oldest min(buf.len(), len) bytes, never panics.", "all buffers, all output lengths", HIST, f"{RB}:io::Read for RingBuffer")
p("C43", "RingBuffer/Slice equality, ordering and hashing depend only on contents", "Equality with buffers, slices and primitive slices, lexicographic order and hasher input depend only on the item sequence, never on the origin.", "all pairs", "All pairs of layouts.", f"{RB}:PartialEq for RingBuffer", f"{RB}:Ord for RingBuffer", f"{RB}:Hash for RingBuffer", f"{RBS}:PartialEq for Slice")
p("C44", "A zero-capacity RingBuffer is usable", "RingBuffer<A,0> can be created, iterated, and dropped; it is always empty and full.", "N = 0, both builds", "Non-termination cannot be exhibited by a finite test; no test instantiates N = 0 beyond unit/pair.", f"{RBX}:RawIndex::add", f"{RB}:Drop for RingBuffer")
p("C45", "Ring index arithmetic is arithmetic modulo N and stays in range", "Adding/subtracting any offset to a storage index yields the residue modulo N, inc/dec are +1/-1 modulo N and mutually inverse, and the result is always below N; the loops terminate.", "all N > 0, indices, offsets without usize overflow", "Unbounded offsets.", f"{RBX}:RawIndex")
# ---------------- SparseChunk
p("C46", "SparseChunk behaves like a map from indices below N for every history", "For every sequence of insert/remove/pop/get/get_mut/clone/... calls, returned values, panics and lookups are those of a finite map with keys below N.", "all N, all histories", HIST, f"{SP}:SparseChunk")
p("C47", "SparseChunk len/is_empty/is_full count inhabited indices", "len() is the number of indices for which get is Some; is_empty/is_full agree; len never exceeds N.", "all histories", HIST, f"{SP}:SparseChunk::len", f"{SP}:SparseChunk::is_full")
p("C48", "SparseChunk only ever reads inhabited slots", "No safe call reads a slot that is not inhabited or is outside 0..N; Index panics exactly on absent keys.", "all histories and indices", "UB is not observable in samples.", f"{SP}:SparseChunk::force_read", f"{SP}:SparseChunk::get")
p("C49", "SparseChunk iterates in strictly ascending index order over exactly the inhabited indices", "indices(), iter(), entries(), iter_mut() and drain() visit each inhabited index exactly once, ascending, with its value.", "all chunks", "All bitmaps.", f"{SP}:SparseChunk::indices", f"{SP}:SparseChunk::entries", f"{SPI}:Iter", f"{SPI}:IterMut", f"{SPI}:Drain")
p("C50", "SparseChunk::pop removes the smallest inhabited index", "pop returns the value at first_index() and removes only it; None iff empty.", "all chunks", "All bitmaps.", f"{SP}:SparseChunk::pop", f"{SP}:SparseChunk::first_index")
p("C51", "SparseChunk and Vec<Option<A>> round-trip", "option_iter, option_iter_mut and option_drain yield exactly N entries, entry i being get(i); collecting option_drain's output rebuilds an equal chunk; from_iter panics iff a Some appears at an index >= N.", "all chunks, all option sequences", "2^N occupancy patterns.", f"{SPI}:OptionIter", f"{SPI}:OptionDrain", f"{SP}:FromIterator for SparseChunk")
p("C52", "SparseChunk equality is map equality", "c1 == c2 iff get agrees on every index.", "all pairs of chunks", "All pairs of occupancy patterns.", f"{SP}:PartialEq for SparseChunk")
p("C53", "SparseChunk equals a BTreeMap/HashMap iff they are the same map", "c == m holds iff m has exactly the inhabited indices as keys, with equal values, although only lengths and the chunk's own keys are compared.", "all chunks, all maps (including keys >= N)", "Needs a counting argument over all maps.", f"{SP}:PartialEq<BTreeMap> for SparseChunk", f"{SP}:PartialEq<HashMap> for SparseChunk")
p("C54", "SparseChunk drops or hands out every element exactly once", "Over any history ending with all chunks dropped, elements in = elements returned + dropped, unless a chunk's own drop panicked because of an item's destructor; writes through &mut only rearrange items. A partially consumed drain/option_drain drops exactly the rest.", "all histories", "Leaks invisible to value assertions.", f"{SP}:Drop for SparseChunk", f"{SPI}:OptionDrain")
p("C55", "SparseChunk::clone copies the map and survives a panicking Clone", "clone yields an equal map of clones; if a clone panics exactly the clones already made are dropped.", "all chunks, clone functions, panic points", "Crash points at every element.", f"{SP}:Clone for SparseChunk")
# ---------------- InlineArray
p("C56", "InlineArray's length header and elements never overlap and stay in bounds, aligned", "For every host type layout and element layout accepted by new(), the header and each of the CAPACITY element slots are pairwise disjoint byte ranges inside the host's bytes and correctly aligned.", "all sizes/alignments obeying Rust layout rules, all base addresses", "Infinitely many type pairs.", f"{IA}:InlineArray", f"{IA}:capacity")
p("C57", "InlineArray::CAPACITY is as documented and maximal", "For sized elements with sufficient alignment CAPACITY is floor((size_of T - size_of usize)/size_of A), one more element would not fit; it is 0 if alignment cannot be guaranteed and usize::MAX for zero-sized elements.", "all layouts", "Infinitely many type pairs.", f"{IA}:capacity")
p("C58", "InlineArray::new panics exactly when the documentation says", "new() panics iff size_of T is less than size_of usize, or the element alignment is larger than the array's own alignment; otherwise it returns an empty array.", "all layouts, all addresses", "Infinitely many type pairs.", f"{IA}:InlineArray::new")
p("C59", "InlineArray behaves like a bounded vector for every history", "push, pop, insert, remove, split_off, clear, extend, iteration behave as on a list bounded by CAPACITY, at the byte level, for every layout.", "all layouts and histories", HIST, f"{IA}:InlineArray")
p("C60", "Safe InlineArray calls never touch uninitialised, misaligned or out-of-bounds memory", "No history makes a misaligned, out-of-bounds or uninitialised access.", "all layouts and histories", "UB not observable in samples.", f"{IA}:InlineArray::ptr_at", f"{IA}:InlineArray::len_const")
p("C61", "InlineArray drops or hands out every element exactly once", "elements in = elements returned + dropped over any history ending with all arrays dropped. Excluded: histories in which a clear panicked because of an item's destructor (C62) or a clone panicked half-way; writes through &mut only rearrange items.", "all histories outside those exclusions", "Leaks invisible.", f"{IA}:Drop for InlineArray", f"{IA}:InlineArray::clear")
p("C62", "InlineArray::clear never drops an element twice even if a destructor panics", "If a destructor panics in clear, a later drop of the array must not drop any element again.", "all arrays, panicking elements", "Needs panicking destructors.", f"{IA}:InlineArray::clear")
p("C63", "InlineArray iterators yield the contents under any interleaving", "into_iter/drain with any mix of next/next_back partition the contents; size_hint exact.", "all interleavings", "Exponentially many.", f"{IAI}:Iter", f"{IAI}:Drain")
p("C64", "InlineArray::clone copies contents; a panicking Clone causes no double drop", "clone yields the clones in order; if a clone panics nothing is dropped twice (the clones made so far are leaked).", "all arrays, panic points", "Crash points.", f"{IA}:Clone for InlineArray")
p("C65", "Arbitrary instances never overflow a container", "For every byte source, arbitrary() and arbitrary_take_rest() yield Err, with every item generated before the error destroyed exactly once, or a container holding the first CAPACITY generated items in order, and never panic (for InlineArray: provided its element and host types are ones InlineArray::new accepts; otherwise it always panics like new).", "all sequences of generated items and errors, all N, all accepted InlineArray layouts, destructors that do not panic", "Infinitely many sources.", "src/arbitrary.rs:Arbitrary for Chunk", "src/arbitrary.rs:Arbitrary for RingBuffer", "src/arbitrary.rs:Arbitrary for SparseChunk", "src/arbitrary.rs:Arbitrary for InlineArray")
p("C66", "Pool cloning equals ordinary cloning", "PoolClone::clone_uninit on uninitialised memory produces the same contents as Clone::clone, PoolDefault::default_uninit an empty container, for Chunk, RingBuffer and SparseChunk.", "all containers", "All layouts.", "src/sized_chunk/refpool.rs:PoolClone for Chunk", "src/ring_buffer/refpool.rs:PoolClone for RingBuffer", "src/sparse_chunk/refpool.rs:PoolClone for SparseChunk")
exec(open(os.path.join(os.path.dirname(__file__), "more_properties.py")).read()) if os.path.exists(os.path.join(os.path.dirname(__file__), "more_properties.py")) else None
out = os.path.join(os.path.dirname(__file__), "..", "properties.jsonl")
with open(out, "w") as f:
    for x in P: f.write(json.dumps(x) + "\n")
print(len(P))
