# Formal model of gauteh/hidefix in Lean 4 - design

## 1. What is modelled and how

The model is a set of total, computable Lean functions, one per Rust function, under
`lean/Verif/Model/`; every definition cites the file and lines of `/repo` it models.

| module | source | content |
|---|---|---|
| `Machine` | std | `u64`/`usize` are natural numbers; every arithmetic operation of the code that can leave the 64-bit range goes through `add64/sub64/mul64 p a b`, which on overflow panics in the `debug` profile and wraps modulo 2^64 in the `release` profile. `debug_assert!` is checked only in `debug`. `usize = u64` (64-bit target). Results are `Outcome = ok, err, panic, ub, diverge`. Theorems quantify over the profile `p` unless they say otherwise. |
| `Extent` | `src/extent.rs` | all conversions (`..`, `a..b`, tuples, `ndarray::s!`, `(starts, counts)`), canonicalisation, counts and starts |
| `Chunk` | `src/idx/chunk.rs` | order, equality, hash, `contains`, the raw `u64` views |
| `Dataset` | `src/idx/dataset/{dataset,types}.rs` | `new`, `size`, `valid`, `chunk_at_coord`, `ChunkSlicer::{empty,new,chunk_start,next}`, `chunk_slices`, `group_chunk_slices`. The iterator is a step function; a lazily consumed iterator is a *trace*: the items yielded and how the iteration ended (exhausted, panic, or never) |
| `Filters` | `src/filters/*`, `decode_chunk` | shuffle/unshuffle, byte order on both host endiannesses, XDR, decompression with the zlib format as a parameter |
| `Reader` | `src/reader/{chunk,direct,cache}.rs` | `read_chunk`, `Direct::read_to`, `Direct::read_to_par` (a relation: any schedule, any interleaving of writes, an overlap of two threads' writes or a write past the destination is `ub`), `CacheReader` with its LRU cache |
| `Stream` | `src/reader/stream.rs`, part of `dataset.rs` | `stream`, `stream_xdr`, `stream_values` |
| `S3` | `src/reader/s3.rs` | `group_requests`, `fetch`, `read_to_async` for any server and any order of completion, `block_on` |
| `Flight` | `src/reader/s3.rs` | `read_to_async` as a transition system: requests waiting, in flight, handled (`buffer_unordered`) |
| `Fetches` | `src/reader/*` | the list of file ranges that each reader's loop reads |
| `Unsteady` | `src/reader/*` | the readers' loops when every operation on the file meets its own content or fails |
| `Poll` | `src/reader/stream.rs` | a stream as a generator that is polled: answers, ranges read |
| `Entry` | `src/idx/index.rs`, `src/idx.rs`, `src/python.rs`, `python/hidefix/xarray.py` | the ways to make an index, the working directory, `guess_can_open`, `len`, `shape` |
| `Session` | `src/idx/dataset/any.rs`, `src/reader/*` | several readers and streams in use, calls on them in any order |
| `Values` | `src/reader/dataset.rs` | `values_to`, `values` (also with the feature `unstable`), `values_dyn_par` over any byte reader |
| `Index` | `src/idx/dataset/{dataset,any,types}.rs`, `src/idx/index.rs` | `Dataset::index` against the answers of an HDF5 handle; `DatasetD::index`; group trees, `index_group`, path lookup |
| `Links` | `src/idx/index.rs` | indexing a file given as a graph of group handles whose listings may fail, whose members may not open and whose links may form cycles |
| `Open` | `src/idx/index.rs`, `src/idx/dataset/any.rs` | `reader`, `streamer`, `as_reader`, `as_par_reader` on a file system |
| `Serde` | `src/idx/serde.rs`, derived impls, bincode 1, `src/bin/hfxlst.rs` | byte-exact encoder and decoder of an `Index`; UTF-8 validation; `read_index` |
| `Tree` | the derived impls and `src/idx/serde.rs` in a self-describing format (flexbuffers) | an `Index` as a tree of maps, sequences, strings; struct fields by name or position, enum variants by name; the bytes of flexbuffers are parameters |
| `Tools` | `src/bin/{hfxidx,hfxlst}.rs` | `main` of both tools; `fs::write` can stop at any point |
| `Python` | `src/python.rs` | `__getitem__`, `read_py_array`, `apply_fill_value`, handles |
| `Xarray` | `python/hidefix/xarray.py`, `src/python.rs` | `_getitem`, `get_variables`, the fill value and its conversion to the element type (`extract`) |
| `XrOpen` | `python/hidefix/xarray.py`, `src/python.rs` | opening a file: index, netCDF4, list of variables |
| `XrIndex` | `python/hidefix/xarray.py` (`__getitem__`) | xarray's splitting of a key (`explicit_indexing_adapter`, `IndexingSupport.BASIC`), `_getitem`, numpy's outer indexing |
| `XrPoints` | `python/hidefix/xarray.py` (`__getitem__`) | the same for an array for every dimension (`VectorizedIndexer`), numpy's pointwise indexing |

Specifications, written without the model's helpers, are in `lean/Verif/Spec/`:
`Grid` (row-major order, boxes, well-formed datasets `WF`), `Select` (what a selection selects),
`Store` (what it means that a file stores an array: `Stores`), `Good` (the selections for which the
slicer is right: sufficient and necessary, decidable from shapes and selection), `Number` (numbers and
their encodings), `Remote` (honest servers), `History` (calls on one reader), `Common` (everyday selections), `Returned`
(what a caller sees), `Plain` (unfiltered storage; `Writable`: files, filtered or not, with room for chunks in which one element is marked), `Tree`, `Ranges`, `Order`, `Index`, `Stored` (HDF5's view of a chunked
dataset), `Paths`, `Links` (groups and datasets found by following links), `XrOpen`, `Numpy`, `Utf8`, `Float` (IEEE numbers). Property theorems are in `lean/Verif/Props/`; helper lemmas in
`lean/Verif/Proofs/`. `Props/Demo.lean` has a concrete dataset, file, index and server on which the
hypotheses of the theorems hold; other modules add `example`s next to their theorems, and
`Props/XCases` applies the theorems of `Props/X` that have no example there to a concrete case.

`COVERAGE.md` lists every function of the crate with the model definitions that cite it, or why there is none.

Not modelled: the bytes of flexbuffers (above them, `Tree`; a parser parameter in C51), the HDF5 C library and the `hdf5` crate (records of
answers, with any failures and link cycles in C93 and C94), libdeflate (parameter `inflate`), the command
line parsing and printing of the binaries, `Display`/`Debug` output, running out of memory or stack, chunks
being overwritten during one read of them, targets that are not 64-bit, S3 connection set-up and credentials,
`dsetreader`/`AnyVecReader`-like type erasure beyond its rank dispatch.

## 2. Plan per property

| id | model | proof |
|----|-------|-------|
| C01 | readers over a file whose chunks store an array `A` (`Spec.Stores`) | FALSE of the code in general (see §4); `_partial` theorem under the sufficient shape condition `Good`; negation with witnesses; right for every content *iff* `Good` (`C01_exact_*`; release: `C01_exact_*_release`) |
| C02 | `chunkSlices` trace | mixed-radix invariant of the walk; FALSE in general, `_partial` under `Good`; right *iff* `Good` (`C02_exact`, `C02_exact_release`); witnesses |
| C03 | same | corollaries of C02: last dimension not covering exactly one chunk; rank ≤ 1; one whole chunk; ... |
| C04 | `chunkAtCoord` | grid index arithmetic |
| C05 | trace with fuel | debug: strictly increasing offset for every dataset; release: well-formed grids and selections that are `Good`, or not pinned (C91), or meet no cut chunk (C87); witnesses that diverge otherwise |
| C06 | `chunkSlices` | direct; debug builds without exception (`C06_debug`); the exception in release builds (`C06_release`) |
| C07 | `cacheReadTo`, `directReadTo` | FALSE for out-of-bounds selections (`Ok(n)` with untouched buffer), `_partial` for in-bounds |
| C08 | readers | induction over the item list, every outcome |
| C09 | readers | direct, every reader; `C09_every`: all at once, in terms of the selected elements |
| C10, C11 | LRU invariant | induction over histories |
| C12, C15 | readers | all refine one fold over the slices; `C12_destination`, `C12_stream` for every dataset and selection: in release a successful read has checked every copy, so the wrapped positions are contiguous (`Proofs/Wrapped*.lean`) |
| C13, C14 | permutation of groups | disjointness of tiles; C13 for every dataset and selection; FALSE in general for C14 (UB witness), `_partial` |
| C16, C23 | xdr | elementwise lemma + slices commute with elementwise maps; C16_exact* (Props/ExactXdr): the encoding of elements is injective, so a right XDR stream comes from a right plain stream (C15_exact) |
| C17-C19 | S3 | invariant of coalescing fold, arbitrary server; C17 and C19 for every dataset (non-empty chunks) and selection |
| C20, C21 | shuffle | index permutation |
| C22 | byte order | both host endiannesses; FALSE for little-endian floats on big-endian hosts; C22_exact: only there |
| C24, C25 | values | C25 FALSE (returns bytes; swaps the tail); C24_exact_* (Props/ExactValues): the conversion is injective, so right values come from right bytes, read into zeroed memory; then as C01_exact |
| C26-C28 | extents | case analysis with u64 bounds |
| C29-C31 | chunk | lexicographic order laws; list reshaping |
| C32, C33 | bincode; self-describing trees | round trip by structural induction (trees: up to the order of map entries, which lookups cannot observe, `C32_order`); C33 FALSE (`arr_u64` truncates/pads; panics) |
| C34, C35, C47 | `Dataset.index` | sorted permutation of the grid is the grid |
| C36-C38 | group tree | induction over path / tree |
| C39-C41 | python | C39/C40 FALSE for reversed slices / empty dims; `_partial`; C39_exact (Props/ExactPython) as C24_exact; both in release builds in Props/ExactValuesRelease |
| C42 | decision table of `block_on` | case analysis; the tokio rules are assumptions |
| C43 | `valid` | FALSE (vacuous check): characterised exactly |
| C44 | profiles | both profiles equal under size bounds and `Good`; FALSE otherwise |
| C45, C46 | decode_chunk | round trip; C46 FALSE for short data (zero tail) |
| C48 | group_chunk_slices | prefix sums tile |
| C49 | read_chunk_to; `Unsteady` with a disk that stays as it is | direct; `C49_truncated_*`: every step reads the same or fails, so C66's simulation applies to every dataset and selection |
| C50, C51 | size, read_index | direct |
| C52 | `Datatype.ofH5` | case analysis; FALSE for the other byte order; C52_exact (Props/TypeSurvives): exactly when, with `H5Tequal` on number types written out (`h5Number`) |
| C53 | `index` then read | composition of C34 with C01; FALSE for other filter orders and filter masks; exactness from C01_exact, because with filters in the usual order the chunks of the index store what the chunks HDF5 lists store |
| C54 | decoder | every decoder is prefix-closed on its encodings |
| C55 | python handles | C36/C37 |
| C56 | `Open`: `reader`, `streamer` on a file system | case analysis |
| C58 | `Tools`: `hfxidx`, `hfxlst`, `fs::write` with crash points | composition of C32, C38, C51, C54 |
| C59 | `Values`: `values`, `values_dyn_par` | direct; cutting the bytes into pieces by induction |
| C60 | `Stream`: `stream_values` | C15 and item-wise conversion; pieces of equal size are determined by their concatenation; C60_exact (Props/ExactStreamValues) from C15_exact |
| C61 | `Xarray`: `_getitem`; pyo3's `extract`, IEEE equality on bytes | C39 and C41 composed; integers: `np.nan` has no `__index__` |
| C62 | `Xarray`: `get_variables`; what netCDF4 shows is a parameter | induction over the datasets |
| C63 | all readers | the iterator's coordinates stay inside the selection (`Proofs/Touched`); congruence of the readers |
| C64 | `Fetches`: the ranges each loop reads | sortedness by address; recency invariant of the LRU cache |
| C65 | `Reader`, `Fetches` | the recency invariant: what has been read last stays in a cache that is large enough |
| C66 | `Unsteady`: the `k`-th operation meets `disk k` | the disturbed loop simulates the undisturbed one up to an I/O error; writes are old-or-new |
| C67 | `Unsteady` | the cache invariant of C15 holds after disturbed reads too |
| C68 | `Xarray.pyApplyFill`; `Spec/Float`: the number that IEEE bytes stand for, `Spec/Number` | equality of bytes is equality of numbers; independence of the schedule (C41) |
| C69 | `Poll`: the generator of a stream, resumed by every poll, each of which meets its own content of the file | simulation of `Model/Stream`; `streamFetch` of the head slice; under `Good` the slices enumerate the selection |
| C70 | every function of the model returns `ub` where an unchecked access would be out of bounds or a data race | no function but the parallel copy can return `ub`, without hypotheses (`NoUb`, compositional); FALSE for the parallel reader in release |
| C71 | `Session`: one state per handle, calls interleaved in any way, `Unsteady`/`Poll` for each | induction over the session; with C67 and C69 |
| C72 | `Entry`: an operating system with a working directory, the three `TryFrom`s, Python's `Index` | the index keeps the path; absolute paths do not depend on the directory; FALSE for relative paths |
| C73 | `Entry`: `os.path.splitext`, `guess_can_open` | equivalence with a specification by concatenation |
| C74 | `Reader`, `Unsteady`, `Poll`: caches as histories of reads and polls leave them | invariant of the caches (number of entries, length of an entry); refuted for XDR |
| C75 | all of the API, in both modes | simulation: the debug outcome is a panic or equal to the release outcome, through every operation (`Proofs/Faithful`, `Proofs/Builds`) |
| C76 | readers | from C12_destination, C13 and C17 |
| C77 | `Spec/Common.lean` defines seven kinds of selections from shape, chunk shape, start, count | each kind is `Good` (`common_good`), by induction over the dimensions; then the theorems for `Good` selections |
| C78 | all of the API in debug mode, and in release mode for common selections (C77) and selections that meet no cut chunk (C87), or cut chunks in the first and last dimension only | the iterator ends in debug mode; no other operation can be `diverge` (`Proofs/Hang`) |
| C79 | all of the API | from the theorems of C70 and C14 |
| C80 | Spec/Returned, Props/Coherent | an intact file stores an array (built from its chunks by choice; a coordinate lies in one chunk); then C77 for both reads and the row-major position of an element |
| C81 | Spec/History, Props/History | invariant over the calls: the addresses fetched so far are the most recent keys of the cache, which holds them all; a call fetches new addresses only, except the one whose fetch fails |
| C82 | Spec/Numpy (`numpyShape`), Props/PythonShape | per item: the computed count is the number of selected indices, or at most 1 for an int, or at least 2^63, in which case the allocation fails; then induction over the items |
| C83 | Model/Flight, Props/Flight | transition system of starting and handling requests; invariant: at most 16 in flight, handled ++ flight ++ waiting is a permutation of the requests, the loop state is that of handling the handled ones; refinement to `s3ReadTo`; measure 2·handled + flight |
| C84 | Props/Requests | from C18 and C64: the requests are greedy (neighbouring requests cannot share even one chunk); greedy stays ahead of any other grouping, by induction over the other grouping; the bytes by induction over the chunks |
| C85 | Spec/Within (`InOneChunk`, `SingledOut`, `Overdrawn`), Props/Within | inside one uncut chunk `Good` comes down to `SingledOut` or `Overdrawn`, by induction over the dimensions (`okFrom_inside`, `okRun_inside`, `good_inside`); then C01/C02/C15 exactly; in release builds the slices are not empty because the loop never takes rows back there (`walk_inside`, `trace_pos`) |
| C86 | Props/StreamOrder (`bigEndian`) | C15 and the byte order of the elements; FALSE for little-endian numbers: a file whose first selected element is 1, 0, ... (`lopsided_setup`), so C86_exact |
| C87 | Spec/Uncut (`Uncut`, `ThinPair`, `Astray`, `Derailed`, `Lost`), Proofs/Uncut, Proofs/UncutGood, Props/Uncut | the loop of a release build keeps `1 + (carry - 1) * stride <= advanced` (`walk_uncut`), so what it takes back in its last dimension is less than it has gone forward and every `next` advances; `Good` comes down to `Astray` by induction over the dimensions (`okFrom_uncut`, `good_uncut`), for every selection but one index in each of the last two dimensions with chunk extent 1 in both (`ThinPair`), for which it comes down to `Derailed` (`okRun_uncut`); then C01/C02/C15 exactly; a new witness against C01 (`not_C01_grains`) |
| C88 | Proofs/Fewest, Props/Fewest | where a right iteration starts a slice, the element is not stored right after the one before (`reach_not_adj` and `adj_of`, by induction over the dimensions), so the slices cannot be joined (`Sel.trace_apart`); the places of the elements determine the least number of slices (`runs`), and two right lists stand for the same places (`enumerates_expand`) |
| C89 | Spec/Uncut (`Snug`), Proofs/Snug, Props/Snug | the loop of a release build keeps the offset of the iterator equal to the stride of the chunk times the position of its coordinates (`walk_snug`, modulo 2^64 where rows are taken back), so the slices add up to the selection (`trace_snug`); `Checked`, the hypothesis of C07, C08, C12, C14 and C70, contains these selections |
| C90 | Spec/Matrix (`Ragged`), Proofs/Matrix, Props/Matrix | `C87_ends` holds if chunks are cut only in the first and last dimension, so in rank 2 always; `Good` comes down to `Ragged` (`good_two`); then C01/C02/C15 exactly (`between_*` in Props/Uncut) |
| C91 | Spec/Uncut (`Pinned`), Proofs/Ends, Props/Ends | offsets stay zero in the dimensions where the selection is exactly one chunk, up to the first dimension where the loop always stops (`Still`); so carries in the main loop stay at most one and nothing is taken back (`walk_ends`) |
| C92 | Spec/Filled (`Tried`, `Fills`), Props/Filled | the slices of a release build are together at least as long as the selection (`trace_ends`), their byte ranges do not wrap (`slices_room`), so the copies, which check what they read (C49), write one contiguous run of at least the reported length; debug builds through C07 |
| C93 | Model/Links, Spec/Links (`Leads`, `Opens`, `Named`), Props/Links | inversion of the recursion at each group; a path of names is followed in the index exactly as `Leads` does in the graph; `C93_tree` relates it to the tree model |
| C94 | Spec/Links (`Endless`), Props/Links | `Endless` is the negation of accessibility; induction on accessibility gives the depth that suffices, and success at any depth gives accessibility |
| C95 | Model/XrOpen, Spec/XrOpen, Props/XrOpen | C93, C94 and C62 composed: the keys of the group in the index are the allocated datasets of the group in the graph |
| C96 | Props/WholeXr, Props/WholeXrKeys, Props/WholeXrPoints | C95, C53 (`readable_index`), C52 and C61 composed; `C96_keys_partial`, `C96_points_partial` with C97, C98 for the keys xarray hands to a variable |
| C97 | Model/XrIndex, Spec/XrIndex, Props/XrIndex | every item splits into a range for the backend and positions in it for numpy (`Halves`); induction over the dimensions: position in C order of the squeezed array is the position in the box; FALSE for dimensions read at one index (squeezed away), other steps, empty slices |
| C98 | Model/XrPoints, Spec/XrPoints, Props/XrPoints | the arrays are the items of C97, so the box read is the same; each point is an element of the box at its position in C order (`box_at`), and what comes back keeps the dimensions exactly if the points are spread (`spread_keeps`) |
| C57 | all of it | composition of C32, C38, C53, C15, C56; C57_exact (Props/ExactWhole) from C53_exact |

## 3. Trusted base

* Lean 4.33.0's kernel; axioms `propext`, `Classical.choice`, `Quot.sound` at most (see §5).
* The reading of the Rust source: nothing was compiled or run.
* Assumed behaviour of dependencies, as cited in the model's comments: `std` integer overflow rules,
  `Vec`/slice panics, `sort` (stable sorted permutation), `sort_unstable_by_key` (some sorted
  permutation), `lru::LruCache` get/put, `File` seek/read_exact, `strength_reduce` (exact division,
  panics on 0), `libdeflater` (error if output does not fit, shorter output accepted),
  `byte_slice_cast` (length check), `bincode` 1.x default encoding, `hdf5` handles, tokio rules
  (`block_in_place`, `Runtime::block_on`), rayon (`try_for_each_init` runs each group at most once, all of
  them unless one fails), `rust-s3` (`get_object_range` asserts that the range is not reversed; if the version in use
  asserts `start < end` instead, a request for a single byte panics, and the S3 theorems need requests of two bytes or more), `futures` (`buffer_unordered` starts futures
  in order while fewer than the limit are in progress, then yields any that is complete), numpy's
  uninitialised allocation and outer indexing, CPython's `slice.indices`, how xarray splits a key (`explicit_indexing_adapter`); pyo3's number conversions, what netCDF4 says about a file.

## 4. Findings: properties that are false of the code

Each is a theorem `not_Cxx..` with a concrete witness or a family of witnesses; the property then has a
`_partial` theorem with the condition under which it holds.

* **C01, C02, C12, C14, C44 - the slicer.** `ChunkSlicer::next` lengthens a run through every inner
  dimension that the selection covers exactly. Two things go wrong. (a) A covered inner dimension leaves a
  carry of one *and* the outer dimension is advanced by its own rule, so the outer position is counted
  twice: `[.., 0, ..]` of a contiguous 2×4×2 dataset gives positions 0..4 (`not_C01`). (b) The length of
  the run is computed with the strides of the uncut chunk although the covered inner dimension is cut by
  the edge, or dimensions of (cut) extent one are stepped over, so padding is returned: rows 0..20, columns
  10..15 of 20×15 in 10×10 (`cut2015_slices`), and even reading *all* of 2×3×2 in 2×2×2
  (`not_C01_whole`: Ok with wrong bytes in debug and release). (c) Every last dimension of chunk extent 1
  counts as a row of the next one outwards, so with two of them `[.., 0..2, .., ..]` of a contiguous 4×3×1×1
  dataset is misread (`not_C01_channels`), and 2×3×1 in chunks of one element (`not_C01_grains`). Depending on the shape it is a panic (debug),
  wrong bytes, or (parallel reader) an unchecked copy outside the destination (C14: undefined behaviour).
  `Spec.Good` excludes these. Readable cases: `C03_last_dim`, `C03_rank_one`, `C03_rank_two` (only several
  rows of exactly an edge-cut last column of chunks can go wrong), `C03_one_chunk`, `C03_whole_chunks`,
  `C01_whole_partial`. `C02_exact`: in a debug build `Good` is not only sufficient but necessary, for every
  well-formed dataset and every in-bounds selection. `Good` takes the build profile: in release, wrapping
  arithmetic makes a few more selections come out right, which `Good .release` covers; `C02_exact_release`: no
  others do (among iterations that yield no range ending before it starts, for sizes below 2^62; a right
  iteration has no empty range either: after every call that gains rows the coordinates are those of the next row, `go_next` in
  Proofs/Chain.lean). `C01_exact_direct/cache/par`: the same
  for the bytes the readers return, over all contents of the file (data with or without filters: `Spec.Writable`); `C01_exact_*_release`: in
  release builds (sizes below 2^57); `C01_exact_s3*`, `C15_exact*`: the S3
  reader and the stream (`Props/ExactStreams.lean`).
* **C05** in release, reading all of a well-formed 2×5×1×1 dataset in chunks of 1×2×6×1 never ends
  (`not_C05_wf`: the slicer goes round in six states), as does a malformed dataset.
* **C16, C48, C49** fail on the slicer's wrong slices too (`Props/Refuted.lean`): a truncated file that
  goes unnoticed. **C13** holds on success for every selection (`C13`), but where the sequential read
  panics the parallel one can be undefined behaviour (`not_C13`).
* **C07** an out-of-range selection is `Ok(n)` with nothing written, whatever the reader (`C07_outside`).
  **C24** `values` then returns zeros and `values_dyn_par` uninitialised memory (`C24_outside`).
* **C08** release: a reader can write past the size it reports (selection not `Good`).
* **C15** inside a current-thread tokio runtime the stream panics.
* **C86** a byte stream is in the order of the file, not always big-endian as documented.
* **C22** on a big-endian host floats are never converted (wrong for little-endian ones).
* **C25** `values_to` returns a number of bytes, and converts the part of the buffer it did not read into.
* **C26** `..=u64::MAX` overflows. **C30** `contains` overflows for chunks that end beyond 2^64.
* **C27** `chunk_slices` and the streams panic on a rank mismatch (the readers return an error).
* **C33** arrays of the wrong length are filled up or cut; bad chunk bytes and zero divisors panic
  (`Props/SerdeExact.lean`: exactly, for every dataset).
* **C16** 16-bit floats (not produced by indexing, but possible in a deserialized index) are not widened by
  `xdr`, while `xdr_factor` is 2: wrong elements, or a panic (`not_C16_half`).
* **C34/C35** the product of the number of chunks wraps in release, so a wrong number of chunks passes.
* **C37** `/` is not the root group (the property says so).
* **C39/C40** `ds[-1]` raises; an out-of-range int gives uninitialised memory, as does an empty slice (`C39_int`, `C40_empty`); too
  many indices are ignored; dimensions of size 1 are squeezed.
* **C61** the xarray backend cannot read a variable of integers that has a fill value (`not_C61`, every key:
  `np.nan` is not an integer). **C62** a variable with NaN for both `_FillValue` and `missing_value` makes the whole
  file unopenable (`not_C62`), as does a dataset netCDF4 does not show.
* **C43** `valid()` accepts everything (it checks that a chunk contains its own offset; `C43_exact`).
* **C46** a chunk that decompresses to fewer bytes is filled up with zeros (`C46_short`).

`Props/Exactly.lean` says exactly what happens in the cases in which C26, C30, C35, C43 and C46 fail.

* **C72** an index keeps a relative path as it was given: after a change of the working directory its readers read
  another file, without an error (`not_C72`).
* **C74** `stream_xdr` counts chunks before they are widened: 8-bit numbers fill the cache with four times
  the documented maximum (`not_C74`).
* **C47/C53** filter order and the per-chunk filter mask are ignored.
* **C52** numbers in the other byte order become `Custom`, so the XDR stream passes them on unconverted.
* **C93** datasets of the file that cannot be opened, for example because they are damaged, are missing from the index
  without an error (`not_C93`).
* **C94** a group linked into itself makes indexing recurse without end (`not_C94`): on a real machine, a stack overflow.
* **C95** `xarray.open_dataset(f, engine='hidefix', group='/')` shows no variables (`not_C95_root`), variables never
  written are missing (`not_C95_unwritten`), and a dataset that cannot be indexed in one group makes all groups of the
  file unopenable (`C95_elsewhere`).
* **C96** numbers stored in the other byte order than the host's are shown by the xarray backend but cannot be read from
  Python at all (`C96_foreign`), though the Rust API reads them right (`C52_values`).
* **C97** a variable that has a dimension of size 1 and another one cannot be read through xarray: hidefix drops the dimension, and
  xarray then applies one index too many (`not_C97`, `C97_fails`); slices with other steps than 1 and -1 raise (`C97_steps`).
* **C98** no single point of a variable with two dimensions can be picked through xarray, nor points that share an index
  (`not_C98`, `C98_fails`): hidefix drops the dimension that is read at one index only.

Smaller observations recorded in comments: a rank above 9 panics at indexing; a contiguous dataset with an
empty dimension panics (division by zero); XDR with an unknown byte order panics for 8/16-bit integers;
debug builds assert an element size below 16; with a missing file and an empty selection `read_to` fails
but `read_to_par` succeeds; in release builds a `start + count` that overflows passes the bounds check of `chunk_slices`,
which may then yield slices outside the dataset for ever (`C06_release`; the readers that fill a destination refuse such
sizes before); `LruCache::new(cap)` of the `lru` crate reserves a table of `cap` entries at once, which for chunks of a few
bytes is up to `2^25` entries, far more memory than the 32 MiB of chunks the cache is meant to hold.

### The `unsafe` blocks of the crate

| block | what it relies on | theorem |
|---|---|---|
| `shuffle.rs:44,68,87,93` | indices inside both buffers | `C70_filters`: for all lengths and word sizes |
| `direct.rs:87` | the copy stays inside `dst`, threads write disjoint ranges | `C14_partial`, `C70_par_partial`; FALSE in release for selections the slicer gets wrong (`not_C14`) |
| `chunk.rs:79,102,109,135` | `repr(C)`, alignment 1, length | the length: `C31`, `C33_partial`; the layout is trusted |
| `reader/dataset.rs:30` (feature `unstable`) | the reader fills the vector | `C24_unstable_partial`; FALSE for out-of-range selections (`C24_unstable_outside`) |
| `reader/dataset.rs:162`, `python.rs:111` | the reader fills the uninitialised array | `C24_*`, `C40_partial`; FALSE for out-of-range selections (`not_C24`, `not_C40`) |
| `python.rs:166` | no other reference to the array | trusted (the GIL is held) |

## 5. Axioms

`#print axioms` over the theorems in MANIFEST.json: every one depends on a subset of `propext`,
`Classical.choice`, `Quot.sound`; three depend on none. No other axiom, no compiled evaluation.

## 6. Tests against wrong programs

`seeded/LOG.jsonl`: one line per edit of the model (in a scratch copy), with the theorems that failed. A
driver (not part of this repository) recompiles every dependent module, keeps going after errors, and then
asks for every theorem of MANIFEST.json whether its proof still stands.

* Edits written by hand, in the way a realistic bug would change the program (ids without a prefix, and `2-` to
  `12-` for the later rounds): all theorems that no longer hold are listed. If none of those that state the broken
  claim was among them, the entry names the theorem that was tightened or added, or says why the edit changes
  nothing a claim speaks of.
* Edits made by a script (`auto-`: other constants, comparisons, branches left out, operators; `auto4-`: one
  identifier for another of the same type), over all definitions of the model: the build stops at the first theorem
  that fails, which is the one listed. Edits that do not type-check are left out.

## 7. Tests of the model against the code (supplementary, not proofs)

The model can be wrong about the program; nothing in Lean can exclude that. Three things reduce the risk:

* `lean/Verif/Check/RepoTests.lean` replays the repository's own unit tests (those that need neither a file nor a
  network: `src/idx/dataset.rs`, `src/idx/chunk.rs`, `src/reader/s3.rs`, `src/filters/shuffle.rs`,
  `src/filters/xdr.rs`, `src/extent.rs`, and the expected result of `coads_slice_all`) on the model in both build
  profiles.
* `tools/difftest_slicer.py SEED N` prints a Lean file comparing the model's chunk enumeration with a separate,
  loop-by-loop Python transcription of `ChunkSlicer` (both profiles, random ranks, shapes, chunks and
  selections); `tools/difftest_misc.py` does the same for request coalescing, extents and Python indexing. `lake env lean`
  on the printed file shows `[]` for each batch when they agree.
* The coverage script `tools/coverage.py` lists every `fn` of the source and the model definition citing it.
