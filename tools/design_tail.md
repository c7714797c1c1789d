
## 4. Trusted base

* **Lean 4.33.0's kernel**, and Mathlib as installed. Axioms: every theorem depends on at most `propext`, `Classical.choice` and `Quot.sound`
  (`vcheck` reports them); no axiom is added, nothing rests on compiled evaluation (`decide +kernel` is evaluated by the kernel).
* **The reading of Rust** in `Basic.lean`: what overflow, `debug_assert!`, unwinding, drop glue, `ptr::read/write/copy` and uninitialised memory do.
* **The reading of the source**: that each definition says what the cited lines say. Simplifications are stated at the definition.
* **Compiler guarantees about layout** (`Layout.Valid`): alignments are powers of two, sizes are multiples of alignments and at most
  `isize::MAX`, a tuple is at least as aligned as its fields, a zero-sized type has at most one value (which is what lets the model recreate
  a zero-sized element from no bytes).
* **Outside code, assumed to meet its documented contract**:
  `bitmaps::Bitmap` (get/set/len/first_index/iteration in ascending order, indices at or above `N` are undefined behaviour in the model — stricter than
  the crate, which panics); `slice::binary_search` and `array_ops`' binary search (a parameter with the std contract; C92 writes out the two algorithms that std has shipped, proves that they meet the contract, and counts their comparisons); `BTreeMap`/`HashMap` `len`/`get` (a
  lookup function); `Hasher` (the list of what is fed to it); `arbitrary::Unstructured` (a list of answers; for C77 the byte-level behaviour of `arbitrary_iter` as I know it from version 1.0.2, stated at `Arb.takeItems`); std's default `write_all`, `read_exact`, `read_to_end` (`Io.lean`, from their documentation); `refpool` (a parameter with the contract of its
  documentation); slice/`Iterator` adapters (`zip`, `take`, `all`, `skip`) are modelled by their definition.

## 5. Not modelled

* Reference aliasing is modelled in `Alias*.lean` (C96–C100, C102, C118) only, on its own: two executable machines for Stacked Borrows and Tree Borrows, and the sequences of
  reborrows, casts and accesses the code makes. Simplifications: a container is one cell for its fields and one per slot, not bytes; protectors (a function's
  arguments must stay valid until it returns) are checked for the methods' own arguments, for those of the helpers such as `mut_ptr`, and for the `&mut` that the destructor called by `force_drop` receives (C118); a two-phase borrow is made when it is used; a `&T` cast to `*const T` keeps the `&T`'s permission; a reference
  passed on unchanged is not reborrowed; `UnsafeCell` does not occur. The two machines are my transcription of the papers' rules. Undefined behaviour found by them is with respect to these
  (experimental) rules, not to a settled part of the language.
* Provenance otherwise, and data races (beyond C91, C101 and C104: the modelled `&self` calls write nothing, so readers cannot race with each other). Drop check.
* `SparseChunk::values()` and its mutable twin form a `&[A]` over slots that may be uninitialised. In the model only *reads* of such slots are
  undefined behaviour; forming the slice is not counted (except in C86, where it is, and fails).
* User `PartialEq`/`Ord`/`Hash`/`Debug` implementations that have side effects or panic are modelled in C95 (and C13/C33/C92 for `insert_ordered`); elsewhere they are pure functions. An element changed through interior mutability during such a call is covered as far as the user state of C95 goes (the element is then a name for a part of that state); iterators with state of their own, that never end or that interact with other containers are modelled in C89, C107 and C108, elsewhere an iterator is a list of events; `Clone` and `Drop` of the elements with state of their own are modelled in C109, elsewhere a destructor is a log entry and perhaps a panic, and `clone` a pure function that may panic;
  `mem::forget` of containers (equivalent to never calling `drop`).
* Trivial forwarding impls (`Borrow`, `AsRef`, `Deref` to `as_slice`, `IntoIterator for &C`, `IndexMut` where it is the same expression as `Index`)
  are represented by what they forward to. So are `Slice::clone`, `SliceMut::unmut` and `Into<Slice>`, which give the same range of the same buffer (a `Span` stands
  for all three), and `IntoIterator` of `Slice` and `SliceMut`, which forward to `iter` and `iter_mut`.
* Code generation, time (but see C28 and C73 for which slots change), allocation (there is none).

## 6. What the proofs found

Each is a theorem with a concrete witness; the part that is true is proved beside it as `..._partial`.
For C12, C15, C22, C32, C35, C62, C74 and C76 `Props/Failures.lean` proves, for every container, exactly what happens where the property fails.

| Property | The code |
|---|---|
| C11 | `Chunk::insert_from` calls `len()` twice; different answers write out of bounds or leave a hole |
| C12, C31 | `len + it.len()` wraps in release builds: Chunk moves memory out of bounds; RingBuffer changes its contents, loops forever when `N` is a power of two, or reads a slot never written, which is undefined behaviour, when `2^w` is one more than a multiple of `N`, such as 3 (C32_uninitialised_read_counterexample); exactly what it does, by position: C31_at_end_partial, C31_second_half_partial, C31_first_half_partial, C31_power_of_two_partial |
| C15, C35, C62 | a destructor panicking in `drop_left`, `drop_right` or `clear` leaves the bounds as they were: elements are dropped again |
| C21 | `Hash` omits the length prefix of slices although `Borrow<[A]>` is implemented |
| C22 | `Chunk::from_front`/`from_back` check the count only in debug builds |
| C32 | `RingBuffer::insert_from` at the end takes more items than `len()` claimed (safely) |
| C39 | indexing a RingBuffer slice checks against the buffer, not the slice; `split_at` halves can reach each other |
| C40 | `..=usize::MAX` is accepted in release builds |
| C41 | debug-build `io::Write` panics when the write wraps around the seam |
| C44 | `RingBuffer<_, 0>`: `new` panics in debug builds; iteration and drop never end in release builds |
| C74 | so an out-of-range `IndexMut` on one half of `SliceMut::split_at` gives a second `&mut` to an item of the other half, in safe code |
| C76 | `write_all` on a RingBuffer inherits the debug-build panic of C41 |
| C77 | `Arbitrary::size_hint` leaves out the byte `arbitrary_iter` reads before each item, and multiplies without an overflow check |
| C82 | with zero-sized elements and a capacity near `usize::MAX`, a debug-build `RingBuffer` panics on the third push (`origin + length` overflows); in the same way `pop_back` can panic after it has removed the item, and `drop` can panic and destroy nothing |
| C93 | with zero-sized elements and a capacity near `usize::MAX`, a debug-build `Chunk::append` panics although there is room (`right + other.len()` overflows when the items stand at the right end) |
| C83 | `Chunk::insert_from` is documented as O(m+n), n the items following the index; with the last slot taken it moves all the items *before* the index, so appending one item costs the whole length |
| C86 | `SparseChunk::values()` calls `from_raw_parts` over all `N` slots, initialised or not, so every `get`, `insert` and `remove` on a chunk with a never-written slot breaks that function's contract |
| C88 | `RingBuffer` and `SparseChunk` destroy elements one at a time, so when one destructor panics the elements after it are leaked (`Chunk`, `InlineArray`, `Vec` and arrays still destroy them) |
| C58 | `InlineArray::new` panics when the host has exactly the size of `usize`; it does not panic for over-aligned elements (the capacity is then 0) |
| C97 | `SparseChunk::iter_mut` and `option_iter_mut` reborrow the whole chunk for each item, so a reference got earlier is invalid once the next one has been asked for (Stacked Borrows), or once it has been written through and the next one asked for (Tree Borrows); safe code may keep it |
| C98 | the halves of `SliceMut::split_at` are two `&mut` to the same buffer made one after the other: any use of the left half breaks Stacked Borrows; using one half after writing through the other breaks Tree Borrows |
| C99 | `Chunk::force_copy` makes its source pointer before its destination pointer, and `InlineArray::remove` uses a pointer made before `len_mut()` and `len()`: under Stacked Borrows the older pointer is invalid by then. Tree Borrows accepts both |
| C100 | So every `Chunk` method that has to shift items (`push_front` on a chunk that starts at slot 0, `insert`, `remove`, `insert_from`, …) and `InlineArray::remove(i)` with `i + 1 < len` is undefined behaviour under Stacked Borrows; no other method is |
| C101 | So two threads which own the two halves of a split `SliceMut` can race on the same item in safe code: `left[1] = x` against `right[0]` after `split_at(1)` |

Smaller ones, visible in the model but within the stated properties: `Chunk::insert_from` and a panicking `InlineArray::clone` leak; `SparseChunk::drop`
leaks the remaining items when a destructor panics; `InlineArray`'s `Debug` output calls itself `Chunk` (C70).

## 7. How the theorems are tested

`seeded/LOG.jsonl` records wrong programs: single edits of the model (wrong boundary, swapped argument, dropped update, missed case), each rebuilt in a
scratch copy, with the theorems that failed. A sweep over all model definitions generates them mechanically; the survivors are examined one by one.
Beside each property theorem an `example` evaluates a concrete, non-trivial case in the kernel.

`RepoTests.lean` is a conformance check in the other direction: every `#[test]` of the crate that runs code of the four structures, and every example in
their documentation, is transcribed and evaluated by the kernel on the model. (C90 does the same for the fuzz targets, but as theorems over every input.)
