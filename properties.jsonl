{"id": "C01", "title": "Chunk behaves like a bounded list for every history", "statement": "For every finite sequence of Chunk API calls on any number of chunks (construct, push/pop at both ends, insert, remove, set, append, drain_from_front/back, split_off, drop_left/right, clear, insert_from, insert_ordered, clone, extend, iteration, drop), every returned value, every panic and the slice seen through deref are exactly those of a plain list with a capacity bound N.", "quantifier": "all element types, all capacities N (2N < 2^w), all op sequences and arguments, debug and release arithmetic; apart from the calls that C11, C12 and C22 are about (unstable len(), release-build insert_from of nearly 2^w items, release-build from_front/from_back with an excessive count)", "why_tests_cant": "The internal offset depends on the whole history and on N; tests visit a handful of histories and mostly N = 64.", "anchors": ["src/sized_chunk/mod.rs:Chunk", "src/sized_chunk/mod.rs:Chunk::as_slice"]}
{"id": "C02", "title": "Chunk length never exceeds capacity and len/is_empty/is_full tell the truth", "statement": "After any history the slice length is at most N, len() is the slice length, is_empty() holds iff the slice is empty and is_full() holds iff the slice has N items.", "quantifier": "all histories, all N", "why_tests_cant": "The internal offset depends on the whole history and on N; tests visit a handful of histories and mostly N = 64.", "anchors": ["src/sized_chunk/mod.rs:Chunk::len", "src/sized_chunk/mod.rs:Chunk::is_empty", "src/sized_chunk/mod.rs:Chunk::is_full"]}
{"id": "C03", "title": "Safe Chunk calls never touch uninitialised or out-of-bounds memory", "statement": "No history of Chunk calls (with arguments inside the documented preconditions, and iterators whose len() is stable) reads a slot that was never written, accesses a slot outside 0..N, or loops forever; it either returns or panics.", "quantifier": "all histories, N, arguments, iterators that may panic or lie about their length", "why_tests_cant": "Undefined behaviour need not show up as a failing assertion; layouts must be covered for every history.", "anchors": ["src/sized_chunk/mod.rs:Chunk::force_read", "src/sized_chunk/mod.rs:Chunk::force_write", "src/sized_chunk/mod.rs:Chunk::force_copy", "src/sized_chunk/mod.rs:Chunk::force_copy_to"]}
{"id": "C04", "title": "Chunk panics exactly when documented and a refused call changes nothing", "statement": "push on a full chunk, pop on an empty one, and any index/count out of range panic; all other calls do not; and after such a panic every chunk involved still holds exactly its previous contents.", "quantifier": "all states, all arguments including usize-extreme values", "why_tests_cant": "Boundary cases multiply over left/right layout; tests check a few.", "anchors": ["src/sized_chunk/mod.rs:Chunk::push_front", "src/sized_chunk/mod.rs:Chunk::push_back", "src/sized_chunk/mod.rs:Chunk::pop_front", "src/sized_chunk/mod.rs:Chunk::pop_back", "src/sized_chunk/mod.rs:Chunk::append", "src/sized_chunk/mod.rs:Chunk::drain_from_front", "src/sized_chunk/mod.rs:Chunk::drain_from_back", "src/sized_chunk/mod.rs:Chunk::split_off", "src/sized_chunk/mod.rs:Chunk::insert", "src/sized_chunk/mod.rs:Chunk::remove"]}
{"id": "C05", "title": "Chunk is a double-ended queue at every layout", "statement": "push_back then pop_back, and push_front then pop_front, give the pushed value back and restore the contents; pushing l at the back and popping from the front gives l in order; internal re-centring when one side is out of room never reorders or loses items.", "quantifier": "all chunks, all values, all sequences of pushes", "why_tests_cant": "The internal offset depends on the whole history and on N; tests visit a handful of histories and mostly N = 64.", "anchors": ["src/sized_chunk/mod.rs:Chunk::push_front", "src/sized_chunk/mod.rs:Chunk::push_back", "src/sized_chunk/mod.rs:Chunk::pop_front", "src/sized_chunk/mod.rs:Chunk::pop_back"]}
{"id": "C06", "title": "Chunk insert/remove/set act at exactly the given index", "statement": "insert(i,v) yields l[..i]++[v]++l[i..]; remove(i) returns l[i] and yields l without position i; set(i,v) returns the old l[i] and replaces only that position; remove(i) after insert(i,v) is the identity - whichever side is shifted.", "quantifier": "all states, all indices", "why_tests_cant": "Which side is shifted depends on left/right layout; three copy paths.", "anchors": ["src/sized_chunk/mod.rs:Chunk::insert", "src/sized_chunk/mod.rs:Chunk::remove", "src/sized_chunk/mod.rs:Chunk::set"]}
{"id": "C07", "title": "Bulk moves between chunks keep order and conserve items", "statement": "append, drain_from_front, drain_from_back, from_front, from_back, drain_from and split_off move exactly the requested items, in order, to the requested end of the destination, and leave exactly the rest in the source.", "quantifier": "all pairs of chunks, all counts", "why_tests_cant": "Source and destination layouts are independent: quadratically many cases.", "anchors": ["src/sized_chunk/mod.rs:Chunk::append", "src/sized_chunk/mod.rs:Chunk::drain_from_front", "src/sized_chunk/mod.rs:Chunk::drain_from_back", "src/sized_chunk/mod.rs:Chunk::from_front", "src/sized_chunk/mod.rs:Chunk::from_back", "src/sized_chunk/mod.rs:Chunk::split_off"]}
{"id": "C08", "title": "split_off and append are inverse", "statement": "split_off(i) followed by append of the returned chunk restores the original contents and empties the second chunk; it never panics.", "quantifier": "all chunks, all i <= len", "why_tests_cant": "Composition of two layout-dependent operations.", "anchors": ["src/sized_chunk/mod.rs:Chunk::split_off", "src/sized_chunk/mod.rs:Chunk::append"]}
{"id": "C09", "title": "Chunk::insert_from inserts exactly the iterator's items in order", "statement": "With an iterator that reports its true length and fits, insert_from(i, it) yields l[..i]++items++l[i..]; it panics (contents unchanged) iff the index is out of bounds or the items do not fit (a release build in which len + iterator length overflows usize is the subject of C12).", "quantifier": "all chunks, indices, iterators of any length (release: length sum below 2^w)", "why_tests_cant": "Four shifting strategies by layout.", "anchors": ["src/sized_chunk/mod.rs:Chunk::insert_from", "src/sized_chunk/mod.rs:Chunk::write_from_iter"]}
{"id": "C10", "title": "Chunk::insert_from is memory-safe for lying or panicking iterators", "statement": "If the iterator's len() is stable (and, in a release build, does not make len + len() overflow: C12) but it yields fewer items or panics part-way, insert_from panics, the chunk is left empty and fully usable and nothing is ever dropped twice; if it yields more items, exactly len() of them are taken.", "quantifier": "all chunks, indices, iterator behaviours (any finite sequence of yields ending in end or panic)", "why_tests_cant": "The iterator is arbitrary user code: a crash point after every yield.", "anchors": ["src/sized_chunk/mod.rs:Chunk::write_from_iter"]}
{"id": "C11", "title": "Chunk::insert_from is memory-safe even if len() changes between calls", "statement": "insert_from must be sound for any safe ExactSizeIterator, including one whose len() returns different values on successive calls (the code calls it twice).", "quantifier": "all iterators implementable in safe Rust", "why_tests_cant": "Needs adversarial trait implementations.", "anchors": ["src/sized_chunk/mod.rs:Chunk::insert_from", "src/sized_chunk/mod.rs:Chunk::write_from_iter"]}
{"id": "C12", "title": "Chunk::insert_from refuses an over-long iterator in release builds too", "statement": "insert_from panics whenever len + iterator length exceeds the capacity, including when that sum overflows usize in a build without overflow checks.", "quantifier": "all iterators (e.g. 0..usize::MAX), both build modes", "why_tests_cant": "Overflow behaviour differs from the debug build tests run in.", "anchors": ["src/sized_chunk/mod.rs:Chunk::insert_from"]}
{"id": "C13", "title": "Chunk::insert_ordered keeps a sorted chunk sorted", "statement": "If the chunk is sorted by a total preorder, insert_ordered(v) leaves it sorted and adds exactly one occurrence of v; on an unsorted chunk v is still inserted exactly once; if a comparison panics, the chunk is unchanged.", "quantifier": "all sorted chunks, all values, any binary search meeting the slice::binary_search contract", "why_tests_cant": "Depends on search result for every sorted list.", "anchors": ["src/sized_chunk/mod.rs:Chunk::insert_ordered"]}
{"id": "C14", "title": "Chunk drops or hands out every element exactly once", "statement": "Over any history ending with all chunks dropped, the multiset of elements moved in equals the multiset returned to the caller plus the multiset dropped: nothing is leaked or dropped twice. Excluded: histories in which a clear, drop_left or drop_right panicked because of an item's destructor (C15), or an insert_from panicked half-way; writes through &mut only rearrange items.", "quantifier": "all histories", "why_tests_cant": "Leaks and double drops are invisible to value assertions; needs every history.", "anchors": ["src/sized_chunk/mod.rs:Drop for Chunk", "src/sized_chunk/mod.rs:Chunk::drop_left", "src/sized_chunk/mod.rs:Chunk::drop_right", "src/sized_chunk/mod.rs:Chunk::clear"]}
{"id": "C15", "title": "Chunk never drops an element twice even if a destructor panics", "statement": "If an element's destructor panics inside drop_left, drop_right or clear, later use or destruction of the chunk must not drop an element that was already dropped.", "quantifier": "all chunks, all choices of panicking element", "why_tests_cant": "Needs panicking destructors at every position.", "anchors": ["src/sized_chunk/mod.rs:Chunk::drop_left", "src/sized_chunk/mod.rs:Chunk::drop_right", "src/sized_chunk/mod.rs:Chunk::clear"]}
{"id": "C16", "title": "Chunk::clone copies contents and survives a panicking Clone", "statement": "clone yields a chunk with the cloned items in order and the same free space on each side, leaving the original unchanged; if the k-th clone panics, exactly the k clones already made are dropped, once each.", "quantifier": "all chunks, all clone functions, all panic points", "why_tests_cant": "A crash point at every element.", "anchors": ["src/sized_chunk/mod.rs:Clone for Chunk"]}
{"id": "C17", "title": "collect/extend/collect_from take items in order and fail cleanly", "statement": "from_iter, extend and collect_from append the iterator's items in order; they panic iff the capacity is exceeded (or the iterator is too short / panics); extend leaves the already pushed items in place, the constructors drop them exactly once.", "quantifier": "all iterators including panicking ones, all chunks, all counts", "why_tests_cant": "All iterator lengths and panic points.", "anchors": ["src/sized_chunk/mod.rs:FromIterator for Chunk", "src/sized_chunk/mod.rs:Extend for Chunk", "src/sized_chunk/mod.rs:Chunk::collect_from"]}
{"id": "C18", "title": "Chunk consuming and draining iterators yield the contents under any interleaving", "statement": "Calling next/next_back on into_iter() or drain() in any order yields a prefix and a reversed suffix that partition the contents; size_hint is exact at every point; exhausted iterators stay exhausted; a drain abandoned early leaves exactly the unyielded items.", "quantifier": "all chunks, all interleavings of next and next_back", "why_tests_cant": "Exponentially many interleavings.", "anchors": ["src/sized_chunk/iter.rs:Iter", "src/sized_chunk/iter.rs:Drain"]}
{"id": "C19", "title": "Chunk io::Read/io::Write is a bounded FIFO byte pipe", "statement": "write takes min(buf.len(), free) leading bytes and reports that count, read returns the oldest min(buf.len(), len) bytes; bytes come out in the order they went in, neither ever panics.", "quantifier": "all chunks of u8, all buffers, all sequences of reads and writes", "why_tests_cant": "Unbounded sequences of partial reads and writes.", "anchors": ["src/sized_chunk/mod.rs:io::Write for Chunk", "src/sized_chunk/mod.rs:io::Read for Chunk"]}
{"id": "C20", "title": "Chunk equality, ordering and hashing depend only on contents", "statement": "Two chunks (or a chunk and a slice) are equal iff their contents are equal elementwise, compare lexicographically, and equal chunks feed identical data to a hasher, however their items are laid out.", "quantifier": "all pairs of chunks", "why_tests_cant": "Needs all pairs of layouts.", "anchors": ["src/sized_chunk/mod.rs:PartialEq for Chunk", "src/sized_chunk/mod.rs:Ord for Chunk", "src/sized_chunk/mod.rs:Hash for Chunk"]}
{"id": "C21", "title": "Chunk and InlineArray hash like the slice they Borrow as", "statement": "Because they implement Borrow<[A]>, a Chunk/InlineArray must hash identically to the slice it borrows as (so that a HashMap keyed by chunks can be queried by slices).", "quantifier": "all contents", "why_tests_cant": "Trait-contract between two impls; no test exercises it.", "anchors": ["src/sized_chunk/mod.rs:Hash for Chunk", "src/sized_chunk/mod.rs:Borrow<[A]> for Chunk", "src/inline_array/mod.rs:Hash for InlineArray"]}
{"id": "C22", "title": "Chunk::from_front/from_back reject an excessive count", "statement": "from_front/from_back with count greater than the source length panics without touching memory, in every build mode.", "quantifier": "all chunks, all counts, debug and release", "why_tests_cant": "The check is a debug_assert: release builds are not what tests run.", "anchors": ["src/sized_chunk/mod.rs:Chunk::from_front", "src/sized_chunk/mod.rs:Chunk::from_back"]}
{"id": "C23", "title": "Chunk::from(InlineArray) moves everything or nothing", "statement": "Converting an inline array into a chunk yields the same items in order and empties the array if they fit, and otherwise panics leaving the array unchanged.", "quantifier": "all arrays, all capacities of both types", "why_tests_cant": "Two independent capacities.", "anchors": ["src/sized_chunk/mod.rs:From<&mut InlineArray> for Chunk"]}
{"id": "C24", "title": "RingBuffer behaves like a bounded list for every history", "statement": "For every finite sequence of RingBuffer API calls on any number of buffers, every returned value, every panic and the sequence seen through iteration are exactly those of a plain list with capacity N, wherever the origin has wandered.", "quantifier": "all element types, all N > 0 (2N < 2^w), all op sequences and arguments, debug and release; apart from the calls that C31, C39, C40 and C41 are about (release-build insert_from of nearly 2^w items, slices indexed beyond their end, release-build bounds that overflow usize, debug-build io::Write)", "why_tests_cant": "The origin depends on the whole history; wrap-around cases are layout specific.", "anchors": ["src/ring_buffer/mod.rs:RingBuffer"]}
{"id": "C25", "title": "RingBuffer length never exceeds capacity and len/is_full/get agree with contents", "statement": "After any history the length is at most N, is_full iff it equals N, get(i) is Some of the i-th item iff i < len, and indexing panics iff i >= len.", "quantifier": "all histories, all indices", "why_tests_cant": "The internal offset depends on the whole history and on N; tests visit a handful of histories and mostly N = 64.", "anchors": ["src/ring_buffer/mod.rs:RingBuffer::is_full", "src/ring_buffer/mod.rs:HasLength for RingBuffer", "src/ring_buffer/mod.rs:Array for RingBuffer", "src/ring_buffer/mod.rs:Index for RingBuffer"]}
{"id": "C26", "title": "Safe RingBuffer calls never touch uninitialised or out-of-bounds memory and terminate", "statement": "No history of RingBuffer calls with N > 0 reads an unwritten slot, leaves 0..N, or loops forever.", "quantifier": "all histories, all N > 0 (2N < 2^w), iterators that may panic or lie, slices indexed anywhere, both builds; apart from release-build insert_from of nearly 2^w items (C31)", "why_tests_cant": "UB and hangs are not observable as assertion failures in sampled runs.", "anchors": ["src/ring_buffer/mod.rs:RingBuffer", "src/ring_buffer/index.rs:RawIndex"]}
{"id": "C27", "title": "RingBuffer panics exactly when documented and a refused call changes nothing", "statement": "push on full, out-of-range insert/remove/drop_left/drop_right/split_off/drain_from_* panic and leave all buffers unchanged; pop on empty returns None.", "quantifier": "all states and arguments", "why_tests_cant": "Boundary cases times layouts.", "anchors": ["src/ring_buffer/mod.rs:RingBuffer"]}
{"id": "C28", "title": "RingBuffer is a double-ended queue without ever moving items", "statement": "push/pop at either end behave as a deque, and a push or pop changes at most one slot of storage (constant time).", "quantifier": "all buffers", "why_tests_cant": "The internal offset depends on the whole history and on N; tests visit a handful of histories and mostly N = 64.", "anchors": ["src/ring_buffer/mod.rs:RingBuffer::push_back", "src/ring_buffer/mod.rs:RingBuffer::push_front", "src/ring_buffer/mod.rs:RingBuffer::pop_back", "src/ring_buffer/mod.rs:RingBuffer::pop_front"]}
{"id": "C29", "title": "RingBuffer insert/remove act at exactly the given index", "statement": "insert(i,v) yields l[..i]++[v]++l[i..]; remove(i) returns l[i] and deletes only it; whichever side is shifted and wherever the seam lies.", "quantifier": "all states, all indices", "why_tests_cant": "Element-wise shifting loops across the seam, two directions.", "anchors": ["src/ring_buffer/mod.rs:RingBuffer::insert", "src/ring_buffer/mod.rs:RingBuffer::remove"]}
{"id": "C30", "title": "RingBuffer bulk moves keep order and conserve items across the seam", "statement": "append, drain_from_front/back, from_front/back, drain_from and split_off move exactly the requested items in order and leave exactly the rest, for any combination of source and destination wrap-around.", "quantifier": "all pairs of buffers, all counts", "why_tests_cant": "copy_from splits into up to four block copies depending on two origins.", "anchors": ["src/ring_buffer/mod.rs:RingBuffer::copy_from", "src/ring_buffer/mod.rs:RingBuffer::drain_from_front", "src/ring_buffer/mod.rs:RingBuffer::drain_from_back", "src/ring_buffer/mod.rs:RingBuffer::split_off"]}
{"id": "C31", "title": "RingBuffer::insert_from inserts exactly the iterator's items in order", "statement": "With an iterator reporting its true length that fits, insert_from(i,it) yields l[..i]++items++l[i..]; otherwise it panics with contents unchanged.", "quantifier": "all buffers, indices, iterators", "why_tests_cant": "Two shifting loops across the seam.", "anchors": ["src/ring_buffer/mod.rs:RingBuffer::insert_from"]}
{"id": "C32", "title": "RingBuffer::insert_from is memory-safe and takes at most len() items for lying iterators", "statement": "For any iterator (too short, too long, panicking) insert_from never causes UB or a double drop; it never takes more than the advertised number of items.", "quantifier": "all buffers, indices, iterator behaviours", "why_tests_cant": "Arbitrary user code; crash point after every yield.", "anchors": ["src/ring_buffer/mod.rs:RingBuffer::insert_from"]}
{"id": "C33", "title": "RingBuffer::insert_ordered keeps a sorted buffer sorted", "statement": "If sorted, insert_ordered(v) leaves it sorted with exactly one more v; on an unsorted buffer v is still inserted exactly once; if a comparison panics, the buffer holds what it held.", "quantifier": "all sorted buffers, values, any contract-meeting binary search", "why_tests_cant": "All sorted lists.", "anchors": ["src/ring_buffer/mod.rs:RingBuffer::insert_ordered"]}
{"id": "C34", "title": "RingBuffer drops or hands out every element exactly once", "statement": "Over any history ending with all buffers dropped, elements in = elements returned + elements dropped. Excluded: histories in which a clear, drop_left, drop_right or a buffer's own drop panicked because of an item's destructor (C35), or an insert_from panicked half-way; writes through &mut only rearrange items.", "quantifier": "all histories outside those exclusions", "why_tests_cant": "Leaks/double drops are invisible to value assertions.", "anchors": ["src/ring_buffer/mod.rs:Drop for RingBuffer", "src/ring_buffer/mod.rs:RingBuffer::drop_left", "src/ring_buffer/mod.rs:RingBuffer::drop_right", "src/ring_buffer/mod.rs:RingBuffer::clear"]}
{"id": "C35", "title": "RingBuffer never drops an element twice even if a destructor panics", "statement": "A panicking destructor inside drop_left/drop_right/clear must not lead to a second drop of any element later.", "quantifier": "all buffers, all panicking elements", "why_tests_cant": "Needs panicking destructors at every position.", "anchors": ["src/ring_buffer/mod.rs:RingBuffer::drop_left", "src/ring_buffer/mod.rs:RingBuffer::drop_right", "src/ring_buffer/mod.rs:RingBuffer::clear"]}
{"id": "C36", "title": "RingBuffer::clone copies contents and survives a panicking Clone", "statement": "clone yields the cloned items in order; a panic in the k-th clone drops exactly the k clones already made.", "quantifier": "all buffers, clone functions, panic points", "why_tests_cant": "Crash point at every element.", "anchors": ["src/ring_buffer/mod.rs:Clone for RingBuffer"]}
{"id": "C37", "title": "RingBuffer iterators yield the contents under any interleaving of next and next_back", "statement": "iter, iter_mut, drain and into_iter yield a prefix and a reversed suffix partitioning the contents with exact size_hint; iter_mut never yields the same slot twice.", "quantifier": "all buffers, all interleavings", "why_tests_cant": "Exponentially many interleavings times layouts.", "anchors": ["src/ring_buffer/iter.rs:Iter", "src/ring_buffer/iter.rs:IterMut", "src/ring_buffer/iter.rs:Drain", "src/ring_buffer/iter.rs:OwnedIter", "src/ring_buffer/index.rs:IndexIter"]}
{"id": "C38", "title": "RingBuffer slices see exactly the requested sub-sequence", "statement": "slice(r), nested slice(r), split_at, get, iter and to_owned on Slice/SliceMut give exactly the sub-list; out-of-range requests panic.", "quantifier": "all buffers, all nested ranges", "why_tests_cant": "Ranges compose arbitrarily.", "anchors": ["src/ring_buffer/slice.rs:Slice", "src/ring_buffer/slice.rs:SliceMut", "src/ring_buffer/mod.rs:RingBuffer::parse_range"]}
{"id": "C39", "title": "Indexing a RingBuffer slice outside its range panics", "statement": "slice[i] and slice_mut[i] panic for every i >= slice.len(); in particular the halves produced by SliceMut::split_at never give access to each other's elements.", "quantifier": "all slices, all indices", "why_tests_cant": "Tests index within range.", "anchors": ["src/ring_buffer/slice.rs:Index for Slice", "src/ring_buffer/slice.rs:IndexMut for SliceMut", "src/ring_buffer/slice.rs:SliceMut::split_at"]}
{"id": "C40", "title": "Out-of-range inclusive slice bounds are rejected in every build", "statement": "slice(a..=b) panics whenever b >= len, in debug and release.", "quantifier": "all bounds including usize::MAX, both builds", "why_tests_cant": "usize::MAX + 1 wraps only in release.", "anchors": ["src/ring_buffer/mod.rs:RingBuffer::parse_range", "src/ring_buffer/slice.rs:Slice::slice"]}
{"id": "C41", "title": "RingBuffer io::Write stores the leading bytes that fit and never panics", "statement": "write(buf) appends min(buf.len(), free) leading bytes and returns that count, in debug and release builds.", "quantifier": "all buffers, all byte slices, both builds", "why_tests_cant": "Needs a buffer whose free space straddles the seam.", "anchors": ["src/ring_buffer/mod.rs:io::Write for RingBuffer", "src/ring_buffer/mod.rs:RingBuffer::copy_from_slice"]}
{"id": "C42", "title": "RingBuffer io::Read returns the oldest bytes", "statement": "read returns and removes the oldest min(buf.len(), len) bytes, never panics.", "quantifier": "all buffers, all output lengths", "why_tests_cant": "The internal offset depends on the whole history and on N; tests visit a handful of histories and mostly N = 64.", "anchors": ["src/ring_buffer/mod.rs:io::Read for RingBuffer"]}
{"id": "C43", "title": "RingBuffer/Slice equality, ordering and hashing depend only on contents", "statement": "Equality with buffers, slices and primitive slices, lexicographic order and hasher input depend only on the item sequence, never on the origin.", "quantifier": "all pairs", "why_tests_cant": "All pairs of layouts.", "anchors": ["src/ring_buffer/mod.rs:PartialEq for RingBuffer", "src/ring_buffer/mod.rs:Ord for RingBuffer", "src/ring_buffer/mod.rs:Hash for RingBuffer", "src/ring_buffer/slice.rs:PartialEq for Slice"]}
{"id": "C44", "title": "A zero-capacity RingBuffer is usable", "statement": "RingBuffer<A,0> can be created, iterated, and dropped; it is always empty and full.", "quantifier": "N = 0, both builds", "why_tests_cant": "Non-termination cannot be exhibited by a finite test; no test instantiates N = 0 beyond unit/pair.", "anchors": ["src/ring_buffer/index.rs:RawIndex::add", "src/ring_buffer/mod.rs:Drop for RingBuffer"]}
{"id": "C45", "title": "Ring index arithmetic is arithmetic modulo N and stays in range", "statement": "Adding/subtracting any offset to a storage index yields the residue modulo N, inc/dec are +1/-1 modulo N and mutually inverse, and the result is always below N; the loops terminate.", "quantifier": "all N > 0, indices, offsets without usize overflow", "why_tests_cant": "Unbounded offsets.", "anchors": ["src/ring_buffer/index.rs:RawIndex"]}
{"id": "C46", "title": "SparseChunk behaves like a map from indices below N for every history", "statement": "For every sequence of insert/remove/pop/get/get_mut/clone/... calls, returned values, panics and lookups are those of a finite map with keys below N.", "quantifier": "all N, all histories", "why_tests_cant": "The internal offset depends on the whole history and on N; tests visit a handful of histories and mostly N = 64.", "anchors": ["src/sparse_chunk/mod.rs:SparseChunk"]}
{"id": "C47", "title": "SparseChunk len/is_empty/is_full count inhabited indices", "statement": "len() is the number of indices for which get is Some; is_empty/is_full agree; len never exceeds N.", "quantifier": "all histories", "why_tests_cant": "The internal offset depends on the whole history and on N; tests visit a handful of histories and mostly N = 64.", "anchors": ["src/sparse_chunk/mod.rs:SparseChunk::len", "src/sparse_chunk/mod.rs:SparseChunk::is_full"]}
{"id": "C48", "title": "SparseChunk only ever reads inhabited slots", "statement": "No safe call reads a slot that is not inhabited or is outside 0..N; Index panics exactly on absent keys.", "quantifier": "all histories and indices", "why_tests_cant": "UB is not observable in samples.", "anchors": ["src/sparse_chunk/mod.rs:SparseChunk::force_read", "src/sparse_chunk/mod.rs:SparseChunk::get"]}
{"id": "C49", "title": "SparseChunk iterates in strictly ascending index order over exactly the inhabited indices", "statement": "indices(), iter(), entries(), iter_mut() and drain() visit each inhabited index exactly once, ascending, with its value.", "quantifier": "all chunks", "why_tests_cant": "All bitmaps.", "anchors": ["src/sparse_chunk/mod.rs:SparseChunk::indices", "src/sparse_chunk/mod.rs:SparseChunk::entries", "src/sparse_chunk/iter.rs:Iter", "src/sparse_chunk/iter.rs:IterMut", "src/sparse_chunk/iter.rs:Drain"]}
{"id": "C50", "title": "SparseChunk::pop removes the smallest inhabited index", "statement": "pop returns the value at first_index() and removes only it; None iff empty.", "quantifier": "all chunks", "why_tests_cant": "All bitmaps.", "anchors": ["src/sparse_chunk/mod.rs:SparseChunk::pop", "src/sparse_chunk/mod.rs:SparseChunk::first_index"]}
{"id": "C51", "title": "SparseChunk and Vec<Option<A>> round-trip", "statement": "option_iter, option_iter_mut and option_drain yield exactly N entries, entry i being get(i); collecting option_drain's output rebuilds an equal chunk; from_iter panics iff a Some appears at an index >= N.", "quantifier": "all chunks, all option sequences", "why_tests_cant": "2^N occupancy patterns.", "anchors": ["src/sparse_chunk/iter.rs:OptionIter", "src/sparse_chunk/iter.rs:OptionDrain", "src/sparse_chunk/mod.rs:FromIterator for SparseChunk"]}
{"id": "C52", "title": "SparseChunk equality is map equality", "statement": "c1 == c2 iff get agrees on every index.", "quantifier": "all pairs of chunks", "why_tests_cant": "All pairs of occupancy patterns.", "anchors": ["src/sparse_chunk/mod.rs:PartialEq for SparseChunk"]}
{"id": "C53", "title": "SparseChunk equals a BTreeMap/HashMap iff they are the same map", "statement": "c == m holds iff m has exactly the inhabited indices as keys, with equal values, although only lengths and the chunk's own keys are compared.", "quantifier": "all chunks, all maps (including keys >= N)", "why_tests_cant": "Needs a counting argument over all maps.", "anchors": ["src/sparse_chunk/mod.rs:PartialEq<BTreeMap> for SparseChunk", "src/sparse_chunk/mod.rs:PartialEq<HashMap> for SparseChunk"]}
{"id": "C54", "title": "SparseChunk drops or hands out every element exactly once", "statement": "Over any history ending with all chunks dropped, elements in = elements returned + dropped, unless a chunk's own drop panicked because of an item's destructor; writes through &mut only rearrange items. A partially consumed drain/option_drain drops exactly the rest.", "quantifier": "all histories", "why_tests_cant": "Leaks invisible to value assertions.", "anchors": ["src/sparse_chunk/mod.rs:Drop for SparseChunk", "src/sparse_chunk/iter.rs:OptionDrain"]}
{"id": "C55", "title": "SparseChunk::clone copies the map and survives a panicking Clone", "statement": "clone yields an equal map of clones; if a clone panics exactly the clones already made are dropped.", "quantifier": "all chunks, clone functions, panic points", "why_tests_cant": "Crash points at every element.", "anchors": ["src/sparse_chunk/mod.rs:Clone for SparseChunk"]}
{"id": "C56", "title": "InlineArray's length header and elements never overlap and stay in bounds, aligned", "statement": "For every host type layout and element layout accepted by new(), the header and each of the CAPACITY element slots are pairwise disjoint byte ranges inside the host's bytes and correctly aligned.", "quantifier": "all sizes/alignments obeying Rust layout rules, all base addresses", "why_tests_cant": "Infinitely many type pairs.", "anchors": ["src/inline_array/mod.rs:InlineArray", "src/inline_array/mod.rs:capacity"]}
{"id": "C57", "title": "InlineArray::CAPACITY is as documented and maximal", "statement": "For sized elements with sufficient alignment CAPACITY is floor((size_of T - size_of usize)/size_of A), one more element would not fit; it is 0 if alignment cannot be guaranteed and usize::MAX for zero-sized elements.", "quantifier": "all layouts", "why_tests_cant": "Infinitely many type pairs.", "anchors": ["src/inline_array/mod.rs:capacity"]}
{"id": "C58", "title": "InlineArray::new panics exactly when the documentation says", "statement": "new() panics iff size_of T is less than size_of usize, or the element alignment is larger than the array's own alignment; otherwise it returns an empty array.", "quantifier": "all layouts, all addresses", "why_tests_cant": "Infinitely many type pairs.", "anchors": ["src/inline_array/mod.rs:InlineArray::new"]}
{"id": "C59", "title": "InlineArray behaves like a bounded vector for every history", "statement": "push, pop, insert, remove, split_off, clear, extend, iteration behave as on a list bounded by CAPACITY, at the byte level, for every layout.", "quantifier": "all layouts and histories", "why_tests_cant": "The internal offset depends on the whole history and on N; tests visit a handful of histories and mostly N = 64.", "anchors": ["src/inline_array/mod.rs:InlineArray"]}
{"id": "C60", "title": "Safe InlineArray calls never touch uninitialised, misaligned or out-of-bounds memory", "statement": "No history makes a misaligned, out-of-bounds or uninitialised access.", "quantifier": "all layouts and histories", "why_tests_cant": "UB not observable in samples.", "anchors": ["src/inline_array/mod.rs:InlineArray::ptr_at", "src/inline_array/mod.rs:InlineArray::len_const"]}
{"id": "C61", "title": "InlineArray drops or hands out every element exactly once", "statement": "elements in = elements returned + dropped over any history ending with all arrays dropped. Excluded: histories in which a clear panicked because of an item's destructor (C62) or a clone panicked half-way; writes through &mut only rearrange items.", "quantifier": "all histories outside those exclusions", "why_tests_cant": "Leaks invisible.", "anchors": ["src/inline_array/mod.rs:Drop for InlineArray", "src/inline_array/mod.rs:InlineArray::clear"]}
{"id": "C62", "title": "InlineArray::clear never drops an element twice even if a destructor panics", "statement": "If a destructor panics in clear, a later drop of the array must not drop any element again.", "quantifier": "all arrays, panicking elements", "why_tests_cant": "Needs panicking destructors.", "anchors": ["src/inline_array/mod.rs:InlineArray::clear"]}
{"id": "C63", "title": "InlineArray iterators yield the contents under any interleaving", "statement": "into_iter/drain with any mix of next/next_back partition the contents; size_hint exact.", "quantifier": "all interleavings", "why_tests_cant": "Exponentially many.", "anchors": ["src/inline_array/iter.rs:Iter", "src/inline_array/iter.rs:Drain"]}
{"id": "C64", "title": "InlineArray::clone copies contents; a panicking Clone causes no double drop", "statement": "clone yields the clones in order; if a clone panics nothing is dropped twice (the clones made so far are leaked).", "quantifier": "all arrays, panic points", "why_tests_cant": "Crash points.", "anchors": ["src/inline_array/mod.rs:Clone for InlineArray"]}
{"id": "C65", "title": "Arbitrary instances never overflow a container", "statement": "For every byte source, arbitrary() and arbitrary_take_rest() yield Err, with every item generated before the error destroyed exactly once, or a container holding the first CAPACITY generated items in order, and never panic (for InlineArray: provided its element and host types are ones InlineArray::new accepts; otherwise it always panics like new).", "quantifier": "all sequences of generated items and errors, all N, all accepted InlineArray layouts, destructors that do not panic", "why_tests_cant": "Infinitely many sources.", "anchors": ["src/arbitrary.rs:Arbitrary for Chunk", "src/arbitrary.rs:Arbitrary for RingBuffer", "src/arbitrary.rs:Arbitrary for SparseChunk", "src/arbitrary.rs:Arbitrary for InlineArray"]}
{"id": "C66", "title": "Pool cloning equals ordinary cloning", "statement": "PoolClone::clone_uninit on uninitialised memory produces the same contents as Clone::clone, PoolDefault::default_uninit an empty container, for Chunk, RingBuffer and SparseChunk.", "quantifier": "all containers", "why_tests_cant": "All layouts.", "anchors": ["src/sized_chunk/refpool.rs:PoolClone for Chunk", "src/ring_buffer/refpool.rs:PoolClone for RingBuffer", "src/sparse_chunk/refpool.rs:PoolClone for SparseChunk"]}
{"id": "C67", "title": "RingBuffer collect/extend/collect_from take items in order and fail cleanly", "statement": "from_iter, extend and collect_from append the iterator's items in order; they panic iff the capacity is exceeded (or the iterator is too short / panics); everything taken from the iterator is then in the buffer or dropped.", "quantifier": "all buffers, all iterators including panicking and over-long ones", "why_tests_cant": "Crash points at every item, every origin.", "anchors": ["src/ring_buffer/mod.rs:Extend for RingBuffer", "src/ring_buffer/mod.rs:FromIterator for RingBuffer", "src/ring_buffer/mod.rs:RingBuffer::collect_from"]}
{"id": "C68", "title": "Single InlineArray calls do exactly what a vector would, and refused calls change nothing", "statement": "push/insert panic iff the array is full (or the index is past the end) and then leave it unchanged; pop/remove return None past the end; split_off, set, clear, extend have exactly the vector effect and panic exactly when documented.", "quantifier": "all layouts, all reachable arrays, all indices and values", "why_tests_cant": "All contents, indices and layouts.", "anchors": ["src/inline_array/mod.rs:InlineArray::push", "src/inline_array/mod.rs:InlineArray::pop", "src/inline_array/mod.rs:InlineArray::insert", "src/inline_array/mod.rs:InlineArray::remove", "src/inline_array/mod.rs:InlineArray::split_off", "src/inline_array/mod.rs:InlineArray::clear", "src/inline_array/mod.rs:Extend for InlineArray"]}
{"id": "C69", "title": "InlineArray comparison and hashing depend only on the contents", "statement": "eq, partial_cmp, cmp are those of the slice of contents (lexicographic); the hash depends only on the contents, not on address or unused bytes.", "quantifier": "all pairs of arrays", "why_tests_cant": "All pairs of contents.", "anchors": ["src/inline_array/mod.rs:PartialEq for InlineArray", "src/inline_array/mod.rs:Ord for InlineArray", "src/inline_array/mod.rs:Hash for InlineArray"]}
{"id": "C70", "title": "Debug output is the type's name and exactly the contents in order", "statement": "{:?} of a container prints its own type name followed by a list (for SparseChunk a map in ascending index order) of exactly its contents.", "quantifier": "all containers and slices, all contents", "why_tests_cant": "All contents and layouts.", "anchors": ["src/sized_chunk/mod.rs:Debug for Chunk", "src/ring_buffer/mod.rs:Debug for RingBuffer", "src/ring_buffer/slice.rs:Debug for Slice", "src/sparse_chunk/mod.rs:Debug for SparseChunk", "src/inline_array/mod.rs:Debug for InlineArray"]}
{"id": "C71", "title": "Containers keep the contracts of Eq, Ord and Hash", "statement": "If the elements' == is an equivalence, their cmp a total order agreeing with ==, and equal elements hash equally, then the same holds of Chunk, RingBuffer, ring slices and InlineArray (of SparseChunk: == is an equivalence); partial_cmp is Some(cmp), and for partially ordered elements it is None exactly when the first pair of unequal elements is incomparable.", "quantifier": "all lawful element types, all triples of containers whatever their layouts", "why_tests_cant": "Laws over all triples of containers.", "anchors": ["src/sized_chunk/mod.rs:PartialEq for Chunk", "src/sized_chunk/mod.rs:Ord for Chunk", "src/ring_buffer/mod.rs:Ord for RingBuffer", "src/ring_buffer/slice.rs:Ord for Slice", "src/sparse_chunk/mod.rs:PartialEq for SparseChunk", "src/inline_array/mod.rs:Ord for InlineArray"]}
{"id": "C72", "title": "Chunk calls move no more items than documented", "statement": "push at an end with a free slot (or on an empty chunk) writes one slot; pop moves nothing; insert rewrites at most one slot plus the items of one side, the smaller one when both ends have room; remove rewrites only the smaller side; a push that must make room moves each item once.", "quantifier": "all chunks, all indices", "why_tests_cant": "The cost depends on where in the storage the history left the items.", "anchors": ["src/sized_chunk/mod.rs:Chunk::push_front", "src/sized_chunk/mod.rs:Chunk::push_back", "src/sized_chunk/mod.rs:Chunk::insert", "src/sized_chunk/mod.rs:Chunk::remove"]}
{"id": "C73", "title": "RingBuffer insert and remove move only the shorter side", "statement": "insert(i, v) rewrites at most min(i, len - i) + 1 slots and remove(i) at most min(i, len - i), wherever the seam is.", "quantifier": "all buffers, all indices", "why_tests_cant": "The cost depends on the origin the history left.", "anchors": ["src/ring_buffer/mod.rs:RingBuffer::insert", "src/ring_buffer/mod.rs:RingBuffer::remove"]}
{"id": "C74", "title": "The halves of a split mutable ring slice never hand out references to the same item", "statement": "After SliceMut::split_at, no sequence of get_mut/index_mut/nested split_at calls on the left half yields a mutable reference to an item that a call on the right half also yields.", "quantifier": "all buffers, windows, split points and access paths", "why_tests_cant": "Needs every pair of access paths over every layout of the buffer.", "anchors": ["src/ring_buffer/slice.rs:SliceMut::split_at", "src/ring_buffer/slice.rs:SliceMut::get_mut", "src/ring_buffer/slice.rs:IndexMut for SliceMut"]}
{"id": "C75", "title": "A Chunk<u8> is a faithful in-memory pipe", "statement": "std's write_all appends exactly the given bytes or fails with WriteZero after filling the chunk; read_exact removes exactly the requested prefix or fails with UnexpectedEof having emptied it; read_to_end returns everything and empties the chunk; what was written is read back.", "quantifier": "all chunks, all byte strings, all lengths", "why_tests_cant": "All contents, offsets and lengths.", "anchors": ["src/sized_chunk/mod.rs:Write for Chunk", "src/sized_chunk/mod.rs:Read for Chunk"]}
{"id": "C76", "title": "A RingBuffer<u8> is a faithful in-memory pipe", "statement": "std's write_all appends exactly the given bytes or fails with WriteZero after filling the buffer; read_exact and read_to_end remove exactly the prefix they return, wherever the seam is.", "quantifier": "all buffers, all byte strings, all origins", "why_tests_cant": "All contents, origins and lengths.", "anchors": ["src/ring_buffer/mod.rs:Write for RingBuffer", "src/ring_buffer/mod.rs:Read for RingBuffer"]}
{"id": "C77", "title": "Arbitrary::size_hint bounds the input that arbitrary reads", "statement": "size_hint never panics, and arbitrary never reads more bytes than the upper bound it gives, whenever the element type's own hint is right.", "quantifier": "all capacities, element types and inputs", "why_tests_cant": "All inputs and element generators.", "anchors": ["src/arbitrary.rs:size_hint", "src/arbitrary.rs:arbitrary"]}
{"id": "C78", "title": "RingBuffer is a drop-in replacement for Chunk", "statement": "A program that uses only the calls the two types share (constructors, queries, indexing, push, insert, remove, insert_from, extend, drop_left/right, clear, split_off, append, drain_from_front/back, clone, consuming iteration, read, drop) sees the same results, panics, destructor runs, clones and final contents with RingBuffer<A, N> as with Chunk<A, N>, as long as no destructor panics (C15 and C35 show what differs then).", "quantifier": "all capacities N > 0, all programs of shared calls on any number of containers, all element types whose destructors do not panic", "why_tests_cant": "Compares two implementations over every program.", "anchors": ["src/sized_chunk/mod.rs:Chunk", "src/ring_buffer/mod.rs:RingBuffer"]}
{"id": "C79", "title": "How the contents are laid out never shows", "statement": "Two containers with the same contents cannot be told apart by any later program, however they came to hold them: same results, panics, destructor runs and clones, and again the same contents afterwards.", "quantifier": "all pairs of states with equal contents, all later programs, all four containers", "why_tests_cant": "Observational equivalence quantifies over all programs.", "anchors": ["src/sized_chunk/mod.rs:Chunk", "src/ring_buffer/mod.rs:RingBuffer", "src/sparse_chunk/mod.rs:SparseChunk", "src/inline_array/mod.rs:InlineArray"]}
{"id": "C80", "title": "The unsafe accessors agree with the safe ones wherever their safety contract is met", "statement": "get_unchecked(i) and get_unchecked_mut(i) of RingBuffer, Slice and SliceMut with i below the length, and of SparseChunk at an inhabited index, return exactly the item there; writing through the mutable one changes exactly that item; nothing else is touched and no undefined behaviour occurs.", "quantifier": "all contents, origins, slice ranges, indices meeting the contract", "why_tests_cant": "Undefined behaviour is invisible to assertions; every origin and index.", "anchors": ["src/ring_buffer/mod.rs:RingBuffer::get_unchecked", "src/ring_buffer/mod.rs:RingBuffer::get_unchecked_mut", "src/ring_buffer/slice.rs:get_unchecked", "src/sparse_chunk/mod.rs:SparseChunk::get_unchecked"]}
{"id": "C81", "title": "The build profile, the width of usize and an InlineArray's host type never show", "statement": "A program sees the same results, panics, destructor runs, clones and final contents in a debug and in a release build, and with any pointer width that fits its numbers; an InlineArray behaves the same in every host type that gives it the same capacity. (The calls excepted are the ones other properties show to differ: Chunk::from_front/from_back across profiles (C22), insert_from with an overflowing announced length (C12, C31), RingBuffer's io::Write in debug builds (C41), ..=usize::MAX in release builds (C40).)", "quantifier": "all programs, pairs of builds, capacities, host types", "why_tests_cant": "Tests run in one build on one target.", "anchors": ["src/sized_chunk/mod.rs:Chunk", "src/ring_buffer/mod.rs:RingBuffer", "src/sparse_chunk/mod.rs:SparseChunk", "src/inline_array/mod.rs:InlineArray"]}
{"id": "C82", "title": "Every capacity the type system accepts is usable", "statement": "A push on a RingBuffer that is not full succeeds, whatever the capacity.", "quantifier": "all capacities up to usize::MAX, all states, builds", "why_tests_cant": "Nobody tests capacities near usize::MAX.", "anchors": ["src/ring_buffer/mod.rs:RingBuffer::push_back", "src/ring_buffer/mod.rs:RingBuffer::push_front", "src/ring_buffer/index.rs:Add for RawIndex"]}
{"id": "C83", "title": "insert_from costs what is documented", "statement": "insert_from of m items rewrites O(m + n) slots of storage, n being the number of items following the index.", "quantifier": "all containers, indices, iterators", "why_tests_cant": "The cost depends on where the history left the items.", "anchors": ["src/sized_chunk/mod.rs:Chunk::insert_from", "src/ring_buffer/mod.rs:RingBuffer::insert_from"]}
{"id": "C84", "title": "Bulk moves leave the source's storage alone and write no more than the items moved", "statement": "split_off, append, drain_from_front and drain_from_back do not touch the storage of the container the items come from, and rewrite in the other one only as many slots as items moved (a Chunk with no room at that end also moves the items it had).", "quantifier": "all pairs of containers, all counts", "why_tests_cant": "Depends on the layouts of both.", "anchors": ["src/sized_chunk/mod.rs:Chunk::append", "src/sized_chunk/mod.rs:Chunk::drain_from_front", "src/sized_chunk/mod.rs:Chunk::drain_from_back", "src/sized_chunk/mod.rs:Chunk::split_off", "src/ring_buffer/mod.rs:RingBuffer::drain_from_front", "src/ring_buffer/mod.rs:RingBuffer::drain_from_back", "src/ring_buffer/mod.rs:RingBuffer::split_off"]}
{"id": "C85", "title": "InlineArray calls write no more bytes than documented", "statement": "push writes the length and one item, pop and (in the array that is split) split_off only the length, insert(i) the length and len - i + 1 items, remove(i) the length and the items after i.", "quantifier": "all layouts, arrays and indices", "why_tests_cant": "All layouts and contents.", "anchors": ["src/inline_array/mod.rs:InlineArray::push", "src/inline_array/mod.rs:InlineArray::pop", "src/inline_array/mod.rs:InlineArray::insert", "src/inline_array/mod.rs:InlineArray::remove", "src/inline_array/mod.rs:InlineArray::split_off"]}
{"id": "C86", "title": "Every slice built from raw parts covers initialised items only", "statement": "Whenever a method builds a slice with from_raw_parts, all the items it covers are initialised, as the contract of that function demands.", "quantifier": "all reachable containers, all methods that build such slices", "why_tests_cant": "Breaking the contract is invisible to assertions.", "anchors": ["src/sized_chunk/mod.rs:Chunk::as_slice", "src/inline_array/mod.rs:Deref for InlineArray", "src/sparse_chunk/mod.rs:SparseChunk::values"]}
{"id": "C87", "title": "Repeated pushes and pops at one end of a Chunk run in constant time each, with at most one exception", "statement": "In any run of push_back and pop_back calls (or of push_front and pop_front calls), from any chunk, every call except at most one rewrites at most one slot; a new chunk that is used at one end only never moves an item.", "quantifier": "all reachable chunks, all runs of any length", "why_tests_cant": "It is about every run, and assertions do not see the cost of a call.", "anchors": ["src/lib.rs", "src/sized_chunk/mod.rs:Chunk::push_back", "src/sized_chunk/mod.rs:Chunk::pop_back", "src/sized_chunk/mod.rs:Chunk::push_front", "src/sized_chunk/mod.rs:Chunk::pop_front"]}
{"id": "C88", "title": "Every element is destroyed, in order, even when a destructor panics", "statement": "Dropping or clearing a container (and drop_left, drop_right) destroys exactly the elements concerned, in ascending order; when one destructor panics the remaining elements are still destroyed before the panic goes on, as for Vec and arrays.", "quantifier": "all reachable containers, all sets of panicking destructors with at most one panic per call, all counts", "why_tests_cant": "It ranges over which destructor panics and over the layout.", "anchors": ["src/sized_chunk/mod.rs:Drop for Chunk", "src/sized_chunk/mod.rs:Chunk::clear", "src/sized_chunk/mod.rs:Chunk::drop_left", "src/sized_chunk/mod.rs:Chunk::drop_right", "src/ring_buffer/mod.rs:Drop for RingBuffer", "src/ring_buffer/mod.rs:RingBuffer::clear", "src/sparse_chunk/mod.rs:Drop for SparseChunk", "src/inline_array/mod.rs:Drop for InlineArray", "src/inline_array/mod.rs:InlineArray::clear"]}
{"id": "C89", "title": "An iterator that never ends cannot hang or overflow a container", "statement": "extend and collecting stop as soon as an item does not fit: they panic after asking for one item more than there is room for, the items that fitted stay (extend) or are destroyed (collect), and the rest is never asked for. Collecting into a SparseChunk stops at the first Some at an index not below N (endless Nones keep it waiting).", "quantifier": "all iterators, including endless ones; all reachable containers", "why_tests_cant": "A test can only try some streams.", "anchors": ["src/sized_chunk/mod.rs:Extend for Chunk", "src/sized_chunk/mod.rs:FromIterator for Chunk", "src/ring_buffer/mod.rs:Extend for RingBuffer", "src/ring_buffer/mod.rs:FromIterator for RingBuffer", "src/inline_array/mod.rs:Extend for InlineArray", "src/inline_array/mod.rs:FromIterator for InlineArray", "src/sparse_chunk/mod.rs:FromIterator for SparseChunk"]}
{"id": "C90", "title": "The project's own fuzz targets can never fail", "statement": "Whatever input the fuzzer generates, the four fuzz targets (which run a container next to a standard Vec or BTreeMap, compare the two after every action and check that the calls they expect to panic do) run to the end: no assertion fails, no unexpected panic, no undefined behaviour.", "quantifier": "all constructs and all sequences of actions of any length; every capacity of at least two (SparseChunk: one), every layout InlineArray accepts; InsertFrom lists whose length plus N fits usize", "why_tests_cant": "Fuzzing samples inputs; this is all of them.", "anchors": ["fuzz/fuzz_targets/sized_chunk.rs", "fuzz/fuzz_targets/ring_buffer.rs", "fuzz/fuzz_targets/sparse_chunk.rs", "fuzz/fuzz_targets/inline_array.rs", "fuzz/fuzz_targets/assert.rs:assert_panic"]}
{"id": "C91", "title": "Calls through a shared reference write nothing; concurrent readers agree under every schedule", "statement": "A call that takes the container by &self (length tests, indexing, iterating, taking and reading slices, comparing, hashing, formatting, cloning) changes no byte of it, even when it panics. So threads that share containers through shared references always find them unchanged, and each of their calls gets the answer that the contents determine, whatever the scheduler does and whatever the other threads call.", "quantifier": "all containers (also states no safe code reaches, for writing nothing), all calls by &self, all numbers of threads, programs and schedules", "why_tests_cant": "It ranges over all schedules.", "anchors": ["src/sized_chunk/mod.rs:Chunk", "src/ring_buffer/mod.rs:RingBuffer", "src/ring_buffer/slice.rs:Slice", "src/sparse_chunk/mod.rs:SparseChunk", "src/inline_array/mod.rs:InlineArray"]}
{"id": "C92", "title": "insert_ordered finds its place in O(log n) comparisons and inserts exactly once, whatever the order does", "statement": "On a container that is not full insert_ordered makes at most ceil(log2 n) + 1 comparisons and then inserts the value exactly once, at an index not above the length, even if the contents are not sorted or the order is inconsistent; if a comparison panics, nothing has changed. Nothing that compares greater stands before it and nothing that compares less after it when the contents were in order; sorted contents stay sorted. A full container panics before comparing anything.", "quantifier": "all reachable Chunks and RingBuffers, all comparison functions (partial, inconsistent, panicking), all values, both binary searches the standard library has shipped", "why_tests_cant": "Needs every content, layout and comparison function; the number of comparisons is not asserted by any test.", "anchors": ["src/sized_chunk/mod.rs:Chunk::insert_ordered", "src/ring_buffer/mod.rs:RingBuffer::insert_ordered", "src/ring_buffer/slice.rs:Index for Slice"]}
{"id": "C93", "title": "Every capacity the type system accepts is usable: Chunk", "statement": "With any capacity up to usize::MAX (Rust accepts all of them for zero-sized elements), a Chunk does what a list of at most N items does: no call panics, wraps or misbehaves because an index computation overflows.", "quantifier": "all capacities up to usize::MAX, all histories, builds", "why_tests_cant": "Nobody tests capacities near usize::MAX.", "anchors": ["src/sized_chunk/mod.rs:Chunk::append", "src/sized_chunk/mod.rs:Chunk::drain_from_front", "src/sized_chunk/mod.rs:Chunk::drain_from_back", "src/sized_chunk/mod.rs:Chunk::insert_from", "src/sized_chunk/mod.rs:Chunk"]}
{"id": "C94", "title": "Programs that mix the containers behave like programs on lists and maps", "statement": "A program that uses any number of Chunks, RingBuffers, SparseChunks and InlineArrays at the same time, at any capacities, and moves items between them (dst.extend(src.drain()) for any two sequence types, Chunk::from(&mut InlineArray)) or compares them, sees the results, panics and destructor runs that the same program on lists and maps sees; no undefined behaviour; every element moved in is handed back, destroyed or stored exactly once, with the exclusions of C14, C34, C54 and C61. (Capacities below usize::MAX / 2, of ring buffers not 0: see C44, C82, C93.)", "quantifier": "all programs, all capacities and layouts, all element types", "why_tests_cant": "A property of all interleavings of calls on all pairs of types.", "anchors": ["src/sized_chunk/mod.rs:Extend for Chunk", "src/sized_chunk/iter.rs:Drain", "src/ring_buffer/mod.rs:Extend for RingBuffer", "src/ring_buffer/iter.rs:OwnedIter", "src/inline_array/mod.rs:Extend for InlineArray", "src/inline_array/iter.rs:Drain", "src/sized_chunk/mod.rs:From<&mut InlineArray>"]}
{"id": "C95", "title": "Comparing, hashing and printing call the elements' methods in order, as often as needed, and survive their panics", "statement": "== calls the elements' == only if the lengths (of SparseChunks: the occupied indices) agree, then on the pairs in order up to the first unequal one; partial_cmp and cmp call the elements' method in order up to the first pair that decides; hash hashes every element once in order; {:?} prints every element once in order up to the first error of the writer, which it returns. If a call panics the panic is passed on; the containers are unchanged whatever the elements' methods do.", "quantifier": "all containers and slices, all contents, all (effectful, panicking, inconsistent) implementations of the elements' methods, all failing writers", "why_tests_cant": "Quantifies over user code and over where it panics or fails.", "anchors": ["src/sized_chunk/mod.rs:PartialEq for Chunk", "src/ring_buffer/mod.rs:PartialEq for RingBuffer", "src/ring_buffer/slice.rs:PartialEq for Slice", "src/sparse_chunk/mod.rs:PartialEq for SparseChunk", "src/inline_array/mod.rs:PartialEq for InlineArray", "src/sized_chunk/mod.rs:Hash for Chunk", "src/sparse_chunk/mod.rs:Debug for SparseChunk"]}
{"id": "C96", "title": "References handed out by RingBuffer::iter_mut may be kept and used in any order", "statement": "A client of iter_mut() may ask for items from either end, keep the references and read and write through any of them in any order, also after asking for more items; none of this is undefined behaviour under Rust's aliasing rules (Stacked Borrows or Tree Borrows), every reference stays usable, they are to distinct slots holding the items in order, and afterwards the buffer may be used again.", "quantifier": "all buffers, all origins, all sequences of next, next_back, reads and writes; all states of the aliasing machine a program can reach", "why_tests_cant": "Breaking the aliasing rules is invisible to assertions; all interleavings of calls and uses.", "anchors": ["src/ring_buffer/mod.rs:RingBuffer::iter_mut", "src/ring_buffer/iter.rs:IterMut::next", "src/ring_buffer/iter.rs:IterMut::next_back", "src/ring_buffer/iter.rs:IterMut::new"]}
{"id": "C97", "title": "References handed out by SparseChunk::iter_mut and option_iter_mut may be kept and used in any order", "statement": "A client of iter_mut() or option_iter_mut() may keep the references it gets and read and write through any of them in any order, also after asking for more; none of this is undefined behaviour under Stacked Borrows or Tree Borrows.", "quantifier": "all chunks, all sequences of next, reads and writes; all states of the aliasing machine a program can reach", "why_tests_cant": "Breaking the aliasing rules is invisible to assertions; all interleavings of calls and uses.", "anchors": ["src/sparse_chunk/iter.rs:IterMut::next", "src/sparse_chunk/iter.rs:OptionIterMut::next", "src/sparse_chunk/mod.rs:SparseChunk::values_mut", "src/sparse_chunk/mod.rs:SparseChunk::iter_mut"]}
{"id": "C98", "title": "The two halves of SliceMut::split_at may be used side by side", "statement": "After split_at, a client may read and write items through the left and the right half in any order without undefined behaviour under Stacked Borrows or Tree Borrows; afterwards the buffer may be used again.", "quantifier": "all sequences of get/index and get_mut/index_mut on either half; all states of the aliasing machine a program can reach", "why_tests_cant": "Breaking the aliasing rules is invisible to assertions; all interleavings.", "anchors": ["src/ring_buffer/slice.rs:SliceMut::split_at", "src/ring_buffer/slice.rs:SliceMut::get_mut"]}
{"id": "C99", "title": "The containers' own pointers obey the aliasing rules", "statement": "Whatever reborrows, raw pointers, reads, writes and block copies the containers make inside their methods, with indices inside the storage, are accepted by Stacked Borrows and by Tree Borrows, in any order and on any number of containers, and leave the caller's borrows usable.", "quantifier": "all sequences of internal pointer operations with indices inside the storage; all states of the aliasing machine a program can reach", "why_tests_cant": "Breaking the aliasing rules is invisible to assertions.", "anchors": ["src/sized_chunk/mod.rs:Chunk::force_copy", "src/sized_chunk/mod.rs:Chunk::force_copy_to", "src/sized_chunk/mod.rs:Chunk::as_mut_slice", "src/ring_buffer/mod.rs:RingBuffer::copy_from", "src/sparse_chunk/mod.rs:SparseChunk::values_mut", "src/inline_array/mod.rs:InlineArray::insert", "src/inline_array/mod.rs:InlineArray::remove", "src/inline_array/mod.rs:InlineArray::split_off"]}
{"id": "C100", "title": "No method of Chunk or InlineArray breaks the aliasing rules", "statement": "Whatever a reachable Chunk or InlineArray holds and wherever its items lie, every method (push, pop, insert, remove, split_off, append, drain_from_front/back, from_front/back, clear, drop_left/right, clone, iteration and drop) makes only reborrows, reads, writes and block copies which Stacked Borrows and Tree Borrows accept, and leaves the caller's borrows usable.", "quantifier": "all chunks and arrays, all methods with all arguments, all states of the aliasing machine a program can reach", "why_tests_cant": "The aliasing rules are not checked by the hardware, and whether a method moves items depends on the history.", "anchors": ["src/sized_chunk/mod.rs:Chunk", "src/inline_array/mod.rs:InlineArray"]}
{"id": "C101", "title": "Threads that own the parts of a split mutable ring slice do not disturb each other, under any schedule", "statement": "A SliceMut (which is Send) may be split with split_at into any number of parts and every part given to a thread of its own. Whatever the threads do with get_mut and slice[i] and however they are scheduled, there is no data race and no undefined behaviour; every thread reads and leaves behind what it would if it had a list of its own, and the rest of the buffer does not change.", "quantifier": "all buffers, windows, ways of splitting, programs of any number of threads, and schedules", "why_tests_cant": "It ranges over all schedules; a data race may show on no test machine.", "anchors": ["src/ring_buffer/slice.rs:SliceMut::split_at", "src/ring_buffer/slice.rs:SliceMut::get_mut", "src/ring_buffer/slice.rs:IndexMut for SliceMut"]}
{"id": "C102", "title": "No method of RingBuffer or SparseChunk breaks the aliasing rules", "statement": "Whatever a reachable RingBuffer or SparseChunk holds and wherever its items lie, every method that touches the storage (push, pop, insert, remove, insert_from, split_off, append, drain_from_front/back, from_front/back, drop_left/right, clear, get, get_mut, indexing, clone, io::Write::write; insert, remove, pop, get, get_mut, clone and drop of the sparse chunk) makes only reborrows, reads, writes and block copies which Stacked Borrows and Tree Borrows accept, reads and drops only initialised slots, and leaves the caller's borrows usable.", "quantifier": "all buffers and sparse chunks, all methods with all arguments, all states of the aliasing machine a program can reach", "why_tests_cant": "The aliasing rules are not checked by the hardware, and which slots a method touches depends on the history.", "anchors": ["src/ring_buffer/mod.rs:RingBuffer", "src/sparse_chunk/mod.rs:SparseChunk"]}
{"id": "C103", "title": "A Chunk used as a queue moves few items in total, unless it is nearly full", "statement": "In any run of k push_back/pop_front calls (or push_front/pop_back calls) during which a Chunk never holds more than K items, the total number of items moved is at most (K-1)/(N-K+1) times k + N; a queue at most half full moves at most one item per call on average.", "quantifier": "all reachable chunks, all runs of any length, all capacities", "why_tests_cant": "A single call can move everything: only the total over a whole run is bounded.", "anchors": ["src/sized_chunk/mod.rs:Chunk::push_back", "src/sized_chunk/mod.rs:Chunk::push_front", "src/sized_chunk/mod.rs:Chunk::pop_front", "src/sized_chunk/mod.rs:Chunk::pop_back"]}
{"id": "C104", "title": "References handed out by iter_mut can be used by different threads", "statement": "Take references from RingBuffer::iter_mut (with any sequence of next and next_back), from SparseChunk::iter_mut or option_iter_mut, or one per item from the mutable slice of a Chunk or InlineArray, and give each to some thread. Two threads never touch the same slot (or byte); under every schedule each thread reads, and leaves behind its references, what it would if it were alone, and in the end the container holds its old contents with exactly those items replaced.", "quantifier": "all reachable containers, all iterator calls, all distributions of the references over any number of threads, all programs, all schedules", "why_tests_cant": "Races depend on the schedule; the iterators make the references from raw pointers, so the borrow checker does not establish that they are distinct.", "anchors": ["src/ring_buffer/iter.rs:IterMut", "src/sparse_chunk/iter.rs:IterMut", "src/sparse_chunk/iter.rs:OptionIterMut", "src/sized_chunk/mod.rs:Chunk::as_mut_slice", "src/inline_array/mod.rs:InlineArray::deref_mut"]}
{"id": "C105", "title": "Containers and iterators can cross threads only if their items can", "statement": "If a container, slice or iterator of this crate is Send, then its items are Send (if it yields items or mutable references) or Sync (if it yields shared references); if it is Sync, its items are Sync. Conversely each is Send and Sync whenever that holds (for InlineArray also of the host type), except RingBuffer's IterMut, which is never either.", "quantifier": "all public types, all item and host types", "why_tests_cant": "Auto traits are derived by the compiler from field declarations for all type parameters at once; a test instantiates a few types.", "anchors": ["src/ring_buffer/iter.rs:IterMut", "src/inline_array/mod.rs:InlineArray", "src/sized_chunk/mod.rs:Chunk", "src/sparse_chunk/mod.rs:SparseChunk", "src/ring_buffer/slice.rs:SliceMut"]}
{"id": "C106", "title": "Lifetimes can be shortened exactly where that is safe", "statement": "Containers, consuming iterators and shared iterators and slices may be used at a more general item type (such as one with a shorter lifetime); those that borrow mutably may not, and if they could, safe code could store a short-lived item where a long-lived one is expected. The borrow's own lifetime may always be shortened.", "quantifier": "all public types, all pairs of item types in the subtype relation, all lifetimes, all memories", "why_tests_cant": "Variance is derived by the compiler from field declarations (raw pointers and PhantomData) and shows only in programs that a test cannot contain because they should not compile.", "anchors": ["src/ring_buffer/iter.rs:IterMut", "src/inline_array/mod.rs:InlineArray", "src/ring_buffer/slice.rs:SliceMut", "src/sparse_chunk/iter.rs:IterMut"]}
{"id": "C107", "title": "Items can be poured from any container into any other through its iterator", "statement": "Extending, collecting into or inserting into a container from an iterator that is itself a program with its own state - such as drain() or into_iter() of another container, forwards or backwards - moves the iterator's items in order and exhausts it (insert_from in a release build: if capacity plus number of items fits in usize, see C12). If they do not fit, the call panics: the items placed stay (extend) or nothing changes (insert_from), the refused item is destroyed, and the rest stays in the drained container or is destroyed with the consumed one.", "quantifier": "all containers on both sides, all capacities and layouts, all contents, all indices and counts, all iterator programs that behave like a list", "why_tests_cant": "A test pours a few sizes of one pair; the claim is about every pair, every split of items between them at a panic, and every iterator whose state is arbitrary.", "anchors": ["src/sized_chunk/mod.rs:insert_from", "src/sized_chunk/mod.rs:collect_from", "src/ring_buffer/mod.rs:insert_from", "src/ring_buffer/mod.rs:collect_from", "src/inline_array/mod.rs:extend", "src/sized_chunk/iter.rs:Drain", "src/ring_buffer/iter.rs:Drain", "src/inline_array/iter.rs:Drain", "src/sparse_chunk/iter.rs:Drain"]}
{"id": "C108", "title": "No iterator, whatever its own state does, can break a container", "statement": "extend, collect, collect_from and insert_from may be given any safe iterator: one whose next(), len() and destructor change its state in any way, return anything and panic at any time. If its len() is stable and does not overflow in a release build, the call has no undefined behaviour and no endless loop, and the container afterwards holds valid items: on return, its own with items the iterator handed out at the right place (as many as announced or asked for, except for insert_from at the end of a RingBuffer); on a panic, its own (with or without some of the iterator's appended), or, for insert_from, possibly none.", "quantifier": "all containers and contents, all indices and counts, all iterator programs over all state types, all panics", "why_tests_cant": "User iterators are arbitrary programs; a test supplies a few of them.", "anchors": ["src/sized_chunk/mod.rs:insert_from", "src/sized_chunk/mod.rs:write_from_iter", "src/sized_chunk/mod.rs:collect_from", "src/ring_buffer/mod.rs:insert_from", "src/ring_buffer/mod.rs:collect_from", "src/inline_array/mod.rs:extend"]}
{"id": "C109", "title": "Cloning and destroying call each item's own clone and destructor once, in order, whatever these do", "statement": "The clone and the destructor of the element type may be any code with state of its own, and may panic at any call. clone calls clone once per item, front to back (by index for SparseChunk); the copy holds exactly what these calls returned, the original is unchanged. If a call panics, no later item is cloned, every clone already made is destroyed once (InlineArray: leaked), and the panic goes on, unless a destructor panics too, which aborts. Dropping, clear, drop_left and drop_right call the destructor of exactly the items concerned, once, in order; Chunk and InlineArray go on after a panic of one of them, RingBuffer and SparseChunk stop there and leak the rest; after a panic the container still shows all its items; an index out of range panics before any call.", "quantifier": "all containers and contents, all indices, all programs for clone and drop over all state types, all panics", "why_tests_cant": "clone and drop are user code; a test tries a few element types and panics at a few calls.", "anchors": ["src/sized_chunk/mod.rs:clone", "src/sized_chunk/mod.rs:clear", "src/sized_chunk/mod.rs:drop_left", "src/ring_buffer/mod.rs:clone", "src/ring_buffer/mod.rs:drop_right", "src/sparse_chunk/mod.rs:clone", "src/inline_array/mod.rs:clone"]}
{"id": "C110", "title": "The containers never look at their items", "statement": "Take any program on any number of containers and replace every item in it by another one, of the same or of another type, whose clone is the replacement of the clone and whose destructor panics exactly if the original's does (and let comparison functions and the client's own writes answer accordingly). Then the program takes the same course: the same calls return or panic, destructors run and clones are made in the same order, and everything returned and held is the replacement of what it was. In particular two programs that differ only in their items return and panic at the same calls, with the same lengths, answers and presence of items. (Left out, as in C01: calls a release build makes undefined, see C12, C22; RingBuffer::write in debug builds, see C41; indices outside a slice, see C39.)", "quantifier": "all programs over all four containers, all item types, all replacements", "why_tests_cant": "a test fixes one item type and a few items; this is what lets a test with one item type speak for all.", "anchors": ["src/sized_chunk/mod.rs:Chunk", "src/ring_buffer/mod.rs:RingBuffer", "src/ring_buffer/slice.rs:Slice", "src/sparse_chunk/mod.rs:SparseChunk", "src/inline_array/mod.rs:InlineArray"]}
{"id": "C111", "title": "Containers of containers, to any depth, clone and destroy every item in them once and in order", "statement": "The items of a container can be containers themselves, of any of the four kinds, to any depth. Destroying such a value calls the destructor of every plain item in it exactly once, front to back, if it returns. If a plain item's destructor panics, none is called twice, and all are called if the containers are chunks and inline arrays; these are destroyed like one slice of all the plain items, ring buffers and sparse chunks like one loop over them. Cloning clones every plain item exactly once, front to back, destroys nothing, and gives a value nested in the same way that holds the clones in the same places. If a plain item's clone panics, no later item is cloned, and of the clones made none is destroyed twice, and each is destroyed once if none of the containers is an inline array (see C64).", "quantifier": "all nestings of the four containers, all depths and capacities, all contents, all effects of the items' own clone and destructor", "why_tests_cant": "the nestings are infinitely many, and which clones exist when a panic strikes depends on all the levels above.", "anchors": ["src/sized_chunk/mod.rs:Chunk::clone", "src/sized_chunk/mod.rs:Chunk::drop", "src/ring_buffer/mod.rs:RingBuffer::clone", "src/ring_buffer/mod.rs:RingBuffer::drop", "src/sparse_chunk/mod.rs:SparseChunk::clone", "src/sparse_chunk/mod.rs:SparseChunk::drop", "src/inline_array/mod.rs:InlineArray::clone", "src/inline_array/mod.rs:InlineArray::drop_contents"]}
{"id": "C112", "title": "Containers of containers, to any depth, compare, hash and print like lists of lists", "statement": "The items of a container can be containers themselves, of any mixture of kinds and to any depth. ==, partial_cmp, cmp, hash and {:?} of such a value then do what the same operations do on the lists of lists (and, for SparseChunk, which has == and {:?} only, maps) that it shows: the plain items' own methods are called on the same items in the same order, up to the same point, and the answer, the panic if there is one and every effect of those methods are the same. In particular: == answers whether the two show the same, if == of the plain items answers whether they are the same; hash feeds the plain items to the hasher, each once and in order, and nothing else, however they are nested (so it cannot tell nestings of the same items apart); and if the plain items keep the contracts of Eq, Ord and Hash, so does the nested container. Borrowed slices as items are not covered.", "quantifier": "all nestings of the containers, all depths and capacities, all contents, all effects of the items' own methods and of the formatter", "why_tests_cant": "the nestings are infinitely many, and which items are compared depends on the answers at all levels.", "anchors": ["src/sized_chunk/mod.rs:Chunk::eq", "src/sized_chunk/mod.rs:Chunk::cmp", "src/sized_chunk/mod.rs:Chunk::hash", "src/ring_buffer/mod.rs:RingBuffer::eq", "src/ring_buffer/mod.rs:RingBuffer::hash", "src/sparse_chunk/mod.rs:SparseChunk::eq", "src/sparse_chunk/mod.rs:SparseChunk::fmt", "src/inline_array/mod.rs:InlineArray::eq", "src/inline_array/mod.rs:InlineArray::hash"]}
{"id": "C113", "title": "Whatever code does with an iterator of the crate, it might as well do with a list's", "statement": "Code that is handed an iterator of the crate may call next, next_back and size_hint as often and in whatever order it decides, depending on everything it has seen, may destroy what it gets whenever it likes, stop early, or panic. Whatever it does, it sees the same answers, the same items are destroyed in the same order, and the same panics and aborts happen, as with an iterator over the list of the items; and when it drops the iterator, or unwinds, the items it did not take stay in the container (drain() of Chunk, RingBuffer and InlineArray) or are each destroyed once (into_iter(), and drain() and option_drain() of SparseChunk). This covers drain and into_iter of all containers, iter and iter_mut of RingBuffer, its slices and SparseChunk, and indices, entries, option_iter, option_iter_mut and option_drain of SparseChunk; the references of iter_mut point to distinct slots that hold the items in order. So the methods every Rust iterator has do what their documentation says: nth, nth_back, count, collect, last, find, position, rposition, len and rev answer as on a list, and destroy what they should. (The iterators of Chunk and InlineArray by reference are std's slice iterators and are not the crate's code.)", "quantifier": "all iterators of the crate, all contents and capacities, all programs that use an iterator, all panics of destructors, debug and release builds", "why_tests_cant": "what code does next may depend on all it has seen, so that there are infinitely many programs.", "anchors": ["src/sized_chunk/iter.rs:Iter", "src/sized_chunk/iter.rs:Drain", "src/ring_buffer/iter.rs:Iter", "src/ring_buffer/iter.rs:IterMut", "src/ring_buffer/iter.rs:Drain", "src/ring_buffer/iter.rs:OwnedIter", "src/sparse_chunk/iter.rs:Iter", "src/sparse_chunk/iter.rs:IterMut", "src/sparse_chunk/iter.rs:Drain", "src/sparse_chunk/iter.rs:OptionIter", "src/sparse_chunk/iter.rs:OptionIterMut", "src/sparse_chunk/iter.rs:OptionDrain", "src/sparse_chunk/mod.rs:SparseChunk::indices", "src/sparse_chunk/mod.rs:SparseChunk::entries", "src/inline_array/iter.rs:Iter", "src/inline_array/iter.rs:Drain"]}
{"id": "C114", "title": "Cloning into a pool, with items whose clone does whatever it likes", "statement": "PoolClone::clone_uninit of Chunk, RingBuffer and SparseChunk calls clone of every item exactly once, front to back (in index order for SparseChunk), and calls nothing else: neither a destructor nor the clone of anything else, whatever the memory it is given held before. When all these calls return, the memory holds a container showing exactly what they returned, at the places the original has its items, and the original is unchanged. When a clone panics, the clones of the later items are not made, and the clones already made are forgotten (leaked), never destroyed. Memory which gets no clone is not written.", "quantifier": "all capacities, contents, contents of the target memory, all clone functions with effects of their own, all panics, debug and release builds", "why_tests_cant": "what clone does can depend on everything it did before, and the target's memory is arbitrary.", "anchors": ["src/sized_chunk/refpool.rs:PoolClone", "src/ring_buffer/refpool.rs:PoolClone", "src/sparse_chunk/refpool.rs:PoolClone"]}
{"id": "C115", "title": "Iterators in the hands of code with effects, and of elements whose destructor does whatever it likes", "statement": "Code that has an iterator of the crate may, beside calling next, next_back and size_hint in any order, run code of its own in between, which keeps counts, destroys items, and may panic; the elements' destructors may do the same; and it may drop the iterator, unwind through it, or forget it. All of this goes as with an iterator over the list of the items: the same answers, the user's code and the destructors run on the same states in the same order, and it ends in the same way (returns, panics, aborts, or runs forever). Dropping into_iter() of a Chunk or InlineArray destroys the items left as a slice is destroyed, that of a RingBuffer, and drain(), into_iter() and option_drain() of a SparseChunk, one at a time, front to back; dropping drain() of the other three destroys nothing, and the items left stay in the container.", "quantifier": "all capacities, contents, all code using an iterator with any effects and any panics, all destructors, debug and release builds", "why_tests_cant": "the code is arbitrary, and what it does may depend on everything it has seen and done, as may the destructors.", "anchors": ["src/sized_chunk/iter.rs:Iter", "src/ring_buffer/iter.rs:OwnedIter", "src/sparse_chunk/iter.rs:OptionDrain", "src/inline_array/iter.rs:Drain"]}
{"id": "C116", "title": "Whatever code does with iter_mut and the references it gets", "statement": "Code that has iter_mut() of a RingBuffer or of one of its slices, or iter_mut() or option_iter_mut() of a SparseChunk, may keep every reference it gets, and read and write through any of them whenever it likes: while it still iterates, in any order, as often as it likes, depending on all it has read. It gets, reads and is answered what it would be by references to the positions of a list (the entries of a map); when it is done, or has panicked, the container shows exactly that list (map) with what was written. Items of which it was given no reference are as before, and no item appears or disappears.", "quantifier": "all capacities, contents, slices, all code using the iterator and its references, debug and release builds", "why_tests_cant": "the code is arbitrary: which references it uses when, and what it writes, may depend on everything before.", "anchors": ["src/ring_buffer/iter.rs:IterMut", "src/sparse_chunk/iter.rs:IterMut", "src/sparse_chunk/iter.rs:OptionIterMut"]}
{"id": "C117", "title": "Filling a container from an iterator, when both the iterator and the elements run code of their own", "statement": "extend() and from_iter() of Chunk, RingBuffer and InlineArray, collect_from() of Chunk and RingBuffer, and from_iter() of SparseChunk: the items are taken from the iterator one by one and appended to a list (put in a map, the first at index 0 and so on, none where the iterator yields None), and the iterator is dropped afterwards, whether the call returns or panics. An item for which there is no room makes the call panic and is destroyed; next() is not called again. When a call that makes a new container panics, the items collected are destroyed, front to back, after the iterator (collect_from, which borrows the iterator, does not drop it). This holds when next(), the destructor of the iterator and the destructors of the items are any code acting on the same state of the user; should a destructor panic during the unwinding, the process aborts. Hence each item the iterator yielded is kept or destroyed exactly once, and the log of what happened is determined.", "quantifier": "all capacities, contents, iterators and elements with any code acting on any state, number of items, debug and release builds", "why_tests_cant": "the user's code is arbitrary and its calls influence one another.", "anchors": ["src/sized_chunk/mod.rs:Extend", "src/sized_chunk/mod.rs:FromIterator", "src/sized_chunk/mod.rs:collect_from", "src/ring_buffer/mod.rs:Extend", "src/ring_buffer/mod.rs:FromIterator", "src/ring_buffer/mod.rs:collect_from", "src/inline_array/mod.rs:Extend", "src/inline_array/mod.rs:FromIterator", "src/sparse_chunk/mod.rs:FromIterator"]}
{"id": "C118", "title": "A method's arguments stay valid while it runs", "statement": "While a method of Chunk, RingBuffer, SparseChunk or InlineArray runs, nothing it does invalidates the reference it was called through (or the one to the other container of append, drain_from_front and so on), even for a moment: with these arguments guarded, the way LLVM is told (noalias, protectors), every method is accepted exactly when it is accepted without. Under Tree Borrows that is always, and during the whole call the containers' memory is accessed only through the arguments and what is derived from them. Under Stacked Borrows it is unless the method moves items within a chunk (C100). The same goes for the arguments of the helper functions the methods are made of (ptr, mut_ptr, as_mut_slice, values_mut, deref_mut and so on), as for those of any function that works only through its argument and what is derived from it.", "quantifier": "all capacities, contents, arguments, methods and helpers, and all states a program can reach", "why_tests_cant": "undefined behaviour is not observable by running a test; the compiler relies on this for every execution.", "anchors": ["src/sized_chunk/mod.rs:Chunk", "src/ring_buffer/mod.rs:RingBuffer", "src/sparse_chunk/mod.rs:SparseChunk", "src/inline_array/mod.rs:InlineArray"]}
