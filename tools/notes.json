{
 "C11": {
  "status": "partial",
  "note": "False of the code: insert_from calls len() twice; counterexample proved (undefined behaviour). Proved for iterators whose len() is stable (or panics), and for those that yield no more than the first answer and fewer than the second."
 },
 "C12": {
  "status": "partial",
  "note": "False of the code in release builds: the sum wraps; counterexample proved (undefined behaviour). Proved in debug builds always, and in release builds when capacity + len() fits in usize. More precisely it is refused whenever the wrapped sum still exceeds the capacity. Exactly how it fails, for every chunk and index in range: when the wrapped sum is within the capacity the call is undefined behaviour (C12_overflow_partial)."
 },
 "C15": {
  "status": "partial",
  "note": "False of the code: clear, drop_left and drop_right double-drop after a panicking destructor; counterexample proved. Proved for all histories in which none of those three calls panics (destructors may panic anywhere else). Exactly how it fails, for every chunk: if one destructor panics inside those calls the chunk still shows everything and dropping it destroys it all again; if two panic the process aborts (C15_destroys_again_partial)."
 },
 "C21": {
  "status": "partial",
  "note": "False of the code: the length prefix is missing from Hash; proved that it always differs from the slice's, and by exactly that prefix."
 },
 "C22": {
  "status": "partial",
  "note": "False of the code in release builds: counterexample proved. The debug-build half is proved. Exactly how it fails in release builds, for every chunk and count: the call is undefined behaviour, or it returns and looking at what is left is (C22_release_partial)."
 },
 "C26": {
  "note": "C26_raw_* cover every call of the API, including those of C39-C41 whose answers are wrong, with iterators of any behaviour; the only calls left out are release-build insert_from with len() near usize::MAX (C31; undefined behaviour is proved there by C32_uninitialised_read_counterexample) and zero capacity (C44, where an endless loop is proved)."
 },
 "C31": {
  "status": "partial",
  "note": "False of the code in release builds when the sum wraps: counterexamples proved (contents changed before the panic; an endless loop; a read of a slot never written, which is undefined behaviour: C32_uninitialised_read_counterexample). Proved in debug builds always, in release builds when len + it.len() fits in usize. Exactly what happens when it does not fit: at the end it is extend (C31_at_end_partial); in the second half no undefined behaviour, the call panics and leaves the buffer empty, or returns with only the iterator's items in it (C31_second_half_partial); in the first half the same, or it never ends, or it reads a slot never written (C31_first_half_partial), and which of these exactly when the capacity is a power of two (C31_power_of_two_partial)."
 },
 "C32": {
  "status": "partial",
  "note": "The memory-safety half is proved for every iterator in debug builds, and in release builds whenever capacity + len() fits in usize; beyond that it is false of the code (C32_uninitialised_read_counterexample: capacity 3, len() = usize::MAX); 'takes at most len() items' is false of the code when inserting at the end: counterexample proved. Exactly how: at the end insert_from is extend, once the announced length is accepted (C32_at_end_partial). What happens when capacity + len() does not fit is C31_*_partial."
 },
 "C35": {
  "status": "partial",
  "note": "False of the code: clear, drop_left and drop_right double-drop after a panicking destructor; counterexample proved. Proved for all histories in which none of those three calls panics (destructors may panic anywhere else). Exactly how it fails, for every buffer: after the panic the buffer still shows everything and dropping it destroys the same items again (C35_destroys_again_partial)."
 },
 "C39": {
  "status": "partial",
  "note": "False of the code: slice Index checks only against the buffer; counterexample proved. Proved exactly: indexing a slice is indexing the buffer at start + i (wrapped in release builds), so positions outside the buffer panic and only the one item at that position is read or replaced."
 },
 "C40": {
  "status": "partial",
  "note": "False of the code in release builds for ..=usize::MAX; counterexample proved, and exactly what such a bound gives. Proved for every other bound, and that any granted slice, however narrowed, lies inside the buffer."
 },
 "C41": {
  "status": "partial",
  "note": "False of the code in debug builds (a wrapping write panics): counterexample proved, and exactly when it happens. Proved in release builds, in debug builds up to that panic, which changes nothing, and in every build for writes into a fresh buffer."
 },
 "C44": {
  "status": "partial",
  "note": "False of the code: debug builds panic in new, release builds loop forever in iter, clear and drop; proved for every such buffer. The calls that do work are proved."
 },
 "C58": {
  "status": "partial",
  "note": "False of the code: new also panics when size_of T equals size_of usize, and does not panic for over-aligned sized elements (capacity is then 0). The exact condition under which it panics is proved, and that otherwise it returns an empty array without tripping its internal assertions."
 },
 "C62": {
  "status": "partial",
  "note": "False of the code: a panicking destructor inside clear leaves the length unchanged, so the items are dropped again. Proved for all histories in which no clear panics. Exactly how it fails, for every array: C62_destroys_again_partial."
 },
 "C70": {
  "status": "partial",
  "note": "False of the code for InlineArray, which prints `Chunk`: proved for every array. Proved for the other containers. The formatter is modelled by the calls made on it (text, debug_list, debug_map) and does not fail. For failing writers see C95."
 },
 "C72": {
  "note": "Cost is modelled as the number of storage slots whose contents change."
 },
 "C73": {
  "note": "Cost is modelled as the number of storage slots whose contents change."
 },
 "C74": {
  "note": "False of the code: IndexMut on a half of split_at accepts indices beyond the half (C39), so both halves can yield the same item (C74_halves_alias_counterexample). Proved: with get_mut, in-range index_mut and nested splits the halves are disjoint. Exactly how it fails, for every buffer and split: the left half indexed beyond its end yields the slot of the right half (C74_halves_alias_partial)."
 },
 "C76": {
  "note": "False of debug builds: write panics when the data wraps around the seam (C41), so write_all does too (C76_debug_write_all_counterexample). Proved for release builds; the read side in all builds. Exactly what holds in every build: write_all panics, changing nothing, exactly when the bytes that fit would wrap in a debug build (C76_write_all_or_panic_partial)."
 },
 "C77": {
  "note": "False of the code: the bound leaves out the continuation byte before every item, and the product is unchecked (counterexamples). Proved: the bound plus one byte per item is right whenever the product fits. The byte-level behaviour of the arbitrary crate is an assumption."
 },
 "C82": {
  "status": "partial",
  "note": "False of debug builds for zero-sized elements and capacities above isize::MAX: counterexample proved. Proved for every capacity up to isize::MAX; for zero-sized elements and every capacity from 1 to usize::MAX, that release builds behave as bounded lists do in every sequence of calls on the ends, reads, drop_left, drop_right, clear and drop (C82_release_partial), and exactly which calls panic in debug builds (C82_debug_partial: those whose origin + count overflows; a panicking pop_back loses the item, a panicking drop leaks all)."
 },
 "C83": {
  "note": "RingBuffer: proved (min(i, len - i) + m slots). Chunk: false as documented - when the last slot is taken, inserting at the end moves everything (C83_insert_from_counterexample, for every constant K); the exact bound per case is C83_insert_from_partial."
 },
 "C84": {
  "note": "Cost is modelled as the number of storage slots whose contents change."
 },
 "C85": {
  "note": "Cost is modelled as the number of bytes whose contents change."
 },
 "C86": {
  "note": "Chunk and InlineArray: proved. SparseChunk::values()/values_mut() build a slice over all N slots, so the contract is broken whenever a slot was never written: C86_get_counterexample; exactly when it is kept: C86_values_iff_partial, C86_full_partial. RingBuffer builds no slices."
 },
 "C87": {
  "note": "The crate documentation says repeated pushes to the same side run in constant time; the one exception (a call that moves all the items to the other edge) is documented too."
 },
 "C88": {
  "note": "Chunk and InlineArray: proved (they drop a slice in place). RingBuffer and SparseChunk call destructors one at a time, so after a panic the rest is leaked: C88_leak_counterexample of both; what holds is C88_*_partial. A second panic while the first unwinds aborts the process; this is modelled (C15, C62)."
 },
 "C89": {
  "note": "What an endless iterator still owns when it is dropped is not modelled here. C89_endless_nones shows the exception for SparseChunk named in the statement."
 },
 "C90": {
  "note": "The fuzzer's generated containers may be any that show some contents (View). Chunk: chunk and guide use the same slice::binary_search, an arbitrary total function with indices up to the length. RingBuffer: two arbitrary searches meeting binary_search's contract, an order in which only equal items are equivalent. The elements have no destructor (u32). into_iter of the source in CollectFrom/FromIter is represented by the items it yields (C18, C37)."
 },
 "C93": {
  "note": "The claim is false in debug builds near usize::MAX (C93_*_counterexample); the partial theorems bound the capacity by what the index arithmetic needs. Exactly when append panics in debug builds: C93_append_debug_partial."
 },
 "C96": {
  "note": "The aliasing machines are transcriptions of the published rules with the simplifications stated in Alias.lean and DESIGN section 5 (no protectors; cells instead of bytes)."
 },
 "C97": {
  "note": "False of the code: C97_iter_mut_counterexample. Proved instead: exactly which clients are accepted under either set of rules (lending: a reference is used only until the next is asked for; noRewrite: no reference is written through, then another asked for, then the first written through again)."
 },
 "C98": {
  "note": "False of the code: C98_split_at_counterexample. Proved instead: exactly which clients are accepted (SB: those that never use the left half; TB: those that, once one half has been written through, never use the other)."
 },
 "C99": {
  "note": "Tree Borrows: proved. Stacked Borrows: false for Chunk::force_copy and InlineArray::remove (C99_stale_pointer_counterexample); proved that exactly those calls are rejected."
 },
 "C100": {
  "note": "Tree Borrows: proved for all methods. Stacked Borrows: false for a Chunk method which must move items within the chunk, and InlineArray::remove (and drain) of an item which is not the last (C100_methods_counterexample); proved that exactly those are rejected."
 },
 "C101": {
  "note": "False of the code: IndexMut on a part accepts indices beyond the part (C39), so safe code can cause a data race (C101_data_race_counterexample). Proved for get_mut with any index and slice[i] inside the part, under every schedule."
 },
 "C102": {
  "note": "Proved without exception under both sets of rules."
 },
 "C103": {
  "note": "Cost is the number of storage slots that change (`Mem.Rewritten`); one slot per push is the pushed item itself."
 },
 "C104": {
  "note": "Sequentially consistent steps; as no two threads touch the same slot (or byte), there is no data race and the assumption costs nothing."
 },
 "C105": {
  "note": "The rules for auto traits are the language's, and trusted."
 },
 "C106": {
  "note": "The rules for variance are the language's, and trusted; that they are sound for safe types is proved here (`means_mono`, `means_shorter`)."
 },
 "C107": {
  "note": "Theorems about the four bulk methods hold for every iterator program meeting Source.Models; the source theorems show that drain(), drain().rev() and into_iter() of each container do."
 },
 "C108": {
  "note": "Source.Gave says that the iterator handed out exactly the items in question, in order."
 },
 "C109": {
  "note": "C109_plain: the methods modelled here are, for log-and-panic elements, equal to those of the container models."
 },
 "C113": {
  "note": "The methods every Rust iterator has are std's code, not the crate's; they are modelled by what std documents (next until done). Items the code itself holds when it unwinds are not followed. Writing through the references of iter_mut is left to C96, C97 and C104."
 },
 "C114": {
  "note": "What refpool does with the memory after a panic (it frees the box without running a destructor) is refpool's code and not modelled."
 },
 "C115": {
  "note": "The code's own items are destroyed by the code (any program on its state), before or after the iterator when it unwinds."
 },
 "C116": {
  "note": "Values only: that the references may be kept by the aliasing rules is C96 to C98 (for SparseChunk they may not, C97). Destroying an overwritten item is left to the code, which gets it back (mem::replace)."
 },
 "C117": {
  "note": "insert_from runs no user code but the iterator's (RingBuffer's drops it at the end), which C108 covers. The fuel bounds the turns of the loop: any fuel above the capacity gives the same result; for SparseChunk, whose iterator may yield None without end, every fuel is covered, and the overflow of the index counter is not modelled."
 },
 "C118": {
  "note": "In C118_<container>_<discipline> the arguments are the methods' own, taken as &mut; in C118_<container>_helpers_<discipline> they are those of the helpers the methods call (AliasBody.lean; runIn_plain shows that without protectors these are the pointer operations of Alias.lean). C118_helper_* are about one call of any function with one reference argument, which may pass & references on to further functions. C97 and C98 are about references held outside a call, to which protectors do not apply."
 }
}