#!/usr/bin/env python3
"""Source of properties.jsonl (run from /verif: python3 tools/gen_properties.py)."""
import json
P = []
def p(id, title, statement, quantifier, why, anchors):
    P.append(dict(id=id, title=title, statement=statement, quantifier=quantifier,
                  why_tests_cant=why, anchors=anchors))
DS="src/idx/dataset/dataset.rs"
p("C01","Reading a selection returns exactly the stored elements",
  "If every chunk of a dataset's file region decodes to the row-major block of some logical array A, then Reader::read_to for any in-bounds selection fills the destination with the bytes of A at the selected coordinates, in row-major order, and returns their total size.",
  "every rank, shape, chunk shape, chunk placement, element size, filter combination, file, selection and destination buffer",
  "the interaction of selection, chunk boundary and cut edge chunks has unboundedly many shapes; the repository's tests sample a few files",
  [f"{DS}: ChunkSlicer::next, Dataset::chunk_slices","src/reader/cache.rs: CacheReader::read_to","src/reader/direct.rs: Direct::read_to"])
p("C02","chunk_slices enumerates the selection in row-major order",
  "For an in-bounds non-empty selection, expanding each (chunk, start, end) returned by Dataset::chunk_slices into chunk positions start..end gives exactly one position per selected coordinate, in row-major order of the selection, each lying in the chunk that contains the coordinate and at the coordinate's row-major position inside that chunk.",
  "every rank, shape, chunk shape and in-bounds selection",
  "needs an argument over all carry patterns between dimensions; enumerating shapes never finishes",
  [f"{DS}: Dataset::chunk_slices, ChunkSlicer::{{new,next,chunk_start}}"])
p("C03","Classes of selections that are always sliced correctly",
  "Whenever the selection's last dimension is not exactly the (edge-cut) extent of a single chunk - in particular for every rank-1 dataset read - chunk_slices yields the row-major enumeration of C02, whatever the other dimensions look like. In rank 2 it does so for every selection except several rows of exactly an edge-cut last column of chunks. In any rank it does so for selections of whole chunks (for example the whole dataset) with two or more elements in the last dimension, unless the last dimension is one chunk and a middle dimension has chunks of extent one.",
  "every rank, shape, chunk shape, selection with that last dimension; all rank-0 and rank-1 datasets",
  "unbounded family of shapes",
  [f"{DS}: ChunkSlicer::next"])
p("C04","chunk_at_coord returns the chunk containing the coordinate",
  "On a dataset whose chunks form the complete row-major grid, Dataset::chunk_at_coord(i) returns, for every in-bounds coordinate i, the unique chunk whose box contains i; it never panics there.",
  "every rank, shape, chunk shape, coordinate",
  "index arithmetic over every grid",
  [f"{DS}: Dataset::chunk_at_coord, Dataset::new"])
p("C05","The slice iterator always makes progress and ends",
  "Iterating chunk_slices terminates on every dataset and selection: no infinite sequence of items is possible, and at most as many items are produced as there are selected elements.",
  "every dataset (also malformed ones), every selection, both build profiles",
  "non-termination cannot be observed by a test; the code itself only has a debug assertion for it",
  [f"{DS}: ChunkSlicer::next (debug_assert advance > 0)"])
p("C06","Out-of-bounds and empty selections yield no slices",
  "If some dimension's start+count exceeds the shape, or some count is 0, chunk_slices yields no item (and never a slice outside the dataset); start+count overflowing u64 is the only exception.",
  "every dataset, every selection",
  "boundary values of 64-bit integers",
  [f"{DS}: Dataset::chunk_slices, ChunkSlicer::empty"])
p("C07","A successful read filled every byte it reports",
  "When read_to returns Ok(n), the first n bytes of the destination have all been written with dataset bytes.",
  "every dataset, selection (also out-of-bounds), destination",
  "an untouched buffer looks like zeros in a test that starts from a zeroed buffer",
  ["src/reader/cache.rs: CacheReader::read_to","src/reader/direct.rs: Direct::read_to"])
p("C08","Reads never touch bytes past the requested size",
  "read_to leaves every destination byte at index >= n unchanged, where n is the byte size of the selection, for every outcome of the call.",
  "every dataset, selection, destination, file content and outcome",
  "frame condition over all inputs",
  ["src/reader/cache.rs: read_to","src/reader/direct.rs: read_to, read_to_par","src/reader/s3.rs: read_to_async"])
p("C09","A too small destination is refused without side effects",
  "If the destination is shorter than the selection's byte size (and that size fits in 64 bits), every reader returns Err, leaves the destination unchanged and does not read the file.",
  "every reader, dataset, selection, destination",
  "all sizes, incl. those near 2^64",
  ["src/reader/cache.rs: read_to","src/reader/direct.rs: read_to, read_to_par","src/reader/s3.rs: read_to_async"])
p("C10","The chunk cache is transparent",
  "For a file that does not change, the result and destination of read_to on a CacheReader do not depend on the reads made before on the same reader (including reads that failed).",
  "every history of reads, every cache capacity, every dataset in which a chunk address determines its size",
  "unbounded histories and eviction patterns",
  ["src/reader/cache.rs: CacheReader::read_to"])
p("C11","The cache respects its capacity and never holds two copies of a chunk",
  "After any history of reads the cache of a CacheReader holds at most max(1, 32MiB/chunk size) entries, with pairwise distinct chunk addresses, each holding the decoded chunk at that address.",
  "every history of reads",
  "unbounded histories",
  ["src/reader/cache.rs: CacheReader::{with_dataset,read_to}"])
p("C12","All readers agree",
  "Direct::read_to, Direct::read_to_par, CacheReader::read_to and the concatenated StreamReader::stream give the same bytes (or all fail) for the same dataset, file and selection.",
  "every dataset, file, selection, destination",
  "relational property over all inputs",
  ["src/reader/{cache,direct,stream}.rs"])
p("C13","Parallel reads do not depend on the schedule",
  "read_to_par succeeds exactly when the sequential read does, and then reports the same number and leaves the same destination, for every order in which the worker threads handle the chunk groups and their writes happen.",
  "every schedule (permutation of chunk groups), dataset, selection",
  "schedules cannot be enumerated by a test",
  ["src/reader/direct.rs: Direct::read_to_par"])
p("C14","Parallel reads write only inside the destination, without overlap",
  "The unchecked pointer copies of read_to_par always target pairwise disjoint ranges inside the destination slice.",
  "every dataset, selection, destination, schedule",
  "undefined behaviour is not observable by a test; it must be excluded for every input",
  ["src/reader/direct.rs: Direct::read_to_par (unsafe copy_nonoverlapping)"])
p("C15","Streaming yields the selection's stored bytes",
  "Concatenating the items of StreamReader::stream gives the same bytes as read_to (in the dataset's own byte order - the doc comment's 'Always in Big Endian' is not what happens).",
  "every dataset, file, selection, cache state",
  "all chunkings and all selections",
  ["src/reader/stream.rs: StreamReader::stream"])
p("C16","XDR streaming yields the XDR encoding of the selection",
  "Concatenating stream_xdr gives, for every selected element in order, its XDR encoding: 8/16-bit integers widened to 32 bits, then big-endian; other supported types big-endian.",
  "every supported dtype, byte order, dataset, file, selection",
  "value- and layout-dependent over unbounded data",
  ["src/reader/stream.rs: stream_xdr","src/filters/xdr.rs: xdr, xdr_factor"])
p("C17","S3 reads agree with file reads for every completion order",
  "Against a server that serves ranges of the object correctly, S3Reader's read succeeds exactly when Direct::read_to on a file with that content does, and then gives the same number and the same destination, whatever order the concurrent requests complete in (for datasets whose chunks each take at least one byte in the file).",
  "every completion order, dataset, selection, destination",
  "completion order of concurrent requests is a schedule",
  ["src/reader/s3.rs: read_to_async, group_requests"])
p("C18","Request coalescing covers every chunk and respects its limits",
  "Coalescing yields requests in which every chunk lies inside the request range, every input slice appears exactly once and in order, consecutive chunks in one request are at most 32KiB apart, and a request exceeds 8MiB only if it holds a single chunk.",
  "every list of chunk slices (sorted by address)",
  "unbounded lists",
  ["src/reader/s3.rs: group_requests"])
p("C19","A server that ignores Range never corrupts data",
  "If the server ignores Range and answers 200 with the full object, an S3 read either fails or returns exactly the bytes of the file; an answer with any status other than 206 (or 200 to a range from byte 0), or with fewer bytes than requested, fails the read (for datasets whose chunks each take at least one byte in the file).",
  "every server behaviour (status, body) per request",
  "adversarial server responses",
  ["src/reader/s3.rs: fetch"])
p("C20","unshuffle is the inverse of shuffle",
  "For every word size and every array, unshuffle(shuffle(x)) = x and shuffle(unshuffle(y)) = y; unshuffle_structured and unshuffle compute the same permutation.",
  "every word size, every length, every content",
  "all lengths",
  ["src/filters/shuffle.rs: shuffle, unshuffle, unshuffle_structured"])
p("C21","unshuffle_sized supports exactly word sizes 1, 2, 4, 8",
  "unshuffle_sized(src, sz) is the inverse shuffle for sz in {1,2,4,8} when sz divides the length, and panics otherwise.",
  "every word size and buffer",
  "all sizes",
  ["src/filters/shuffle.rs: unshuffle_sized"])
p("C22","Values are decoded from the file's byte order to the host's",
  "Converting a slice to native order yields, for each element, the value denoted by its stored bytes in the stored byte order; conversion with a known order is an involution; unknown order leaves slices unchanged.",
  "every host endianness, element type, order, value",
  "host endianness other than the test machine's is never exercised",
  ["src/filters/byteorder.rs: ToNative, Swap"])
p("C23","XDR widening preserves the numeric value",
  "xdr() maps each 8- or 16-bit integer to the 4-byte big-endian two's-complement encoding of the same number (zero-extended if unsigned, sign-extended if signed), for either stored byte order; it fails if the buffer length is not a multiple of the element size.",
  "every value, length, order",
  "all values",
  ["src/filters/xdr.rs: xdr_cast_slice, xdr"])
p("C24","values() returns one value per selected element",
  "values::<T>(selection) with size_of T equal to the dataset's element size returns exactly product-of-counts values, the i-th being the native decoding of the i-th selected element.",
  "every dataset, selection, element type",
  "all sizes",
  ["src/reader/dataset.rs: ReaderExt::values"])
p("C25","values_to reports the number of values and leaves the rest of the buffer alone",
  "values_to 'returns values read' and only changes the part of dst it filled.",
  "every dataset, selection, destination longer than the selection, byte order",
  "frame condition; tests use exactly sized buffers",
  ["src/reader/dataset.rs: ReaderExt::values_to"])
p("C26","Range expressions denote the index sets they are written as",
  "a..b, a..=b, ..b, ..=b, a.., .., i and (start,count) select exactly the indices of the corresponding Rust range (intersected with the dimension only for the open-ended forms).",
  "every bound in u64, every dimension size",
  "64-bit boundary values",
  ["src/extent.rs: From impls for Extent, Extent::{start,count,canonicalise}"])
p("C27","A selection of the wrong rank is rejected",
  "A selection with a number of dimensions different from the dataset's is refused with an error by every read entry point.",
  "every dataset rank, every selection rank, every entry point",
  "all ranks and all entry points",
  ["src/extent.rs: Extents::canonicalise","src/reader/*.rs","src/idx/dataset/dataset.rs: chunk_slices"])
p("C28","Unsupported selection syntax is rejected, not misread",
  "ndarray slices with negative indices, steps other than 1 or new axes, and (starts, counts) pairs of different length are refused; all others select the index set ndarray's own semantics gives.",
  "every SliceInfo, every pair of lists",
  "all combinations of signs, steps and lengths",
  ["src/extent.rs: ndarray_impl, list_impl"])
p("C29","Chunks are ordered by grid position",
  "Chunk ordering is lexicographic on offsets: a total preorder, equal exactly when all offsets are equal, so sorting a dataset's chunks puts them in row-major grid order. Equality/hash of chunks compare file addresses and are thus not the ordering's equality.",
  "every pair/triple of chunks, every list of chunks",
  "laws over all triples",
  ["src/idx/chunk.rs: Ord, PartialEq, Hash for Chunk"])
p("C30","contains classifies points",
  "Chunk::contains returns Equal exactly for points in the chunk's box, Less/Greater according to the first dimension that is outside; on an aligned grid this agrees with the chunks' lexicographic order.",
  "every chunk, chunk shape, point",
  "all points",
  ["src/idx/chunk.rs: Chunk::contains"])
p("C31","The raw u64 view of chunks is lossless",
  "slice_from_u64s(slice_as_u64s(chunks)) = chunks and slice_as_u64s(slice_from_u64s(words)) = words for every word list of suitable length; other lengths panic.",
  "every rank, every chunk list, every word list",
  "all lengths and values",
  ["src/idx/chunk.rs: as_u64s, from_u64s, slice_as_u64s, slice_from_u64s"])
p("C32","A serialized index loads back unchanged",
  "Deserializing the serialization of any index (bincode, or a self-describing format such as flexbuffers that may reorder the entries of maps) gives back an equal index: lookups cannot tell them apart.",
  "every index: any nesting of groups, any datasets",
  "recursive, unbounded data",
  ["src/idx/serde.rs","src/idx/index.rs: derive(Serialize, Deserialize)","src/idx/dataset/{dataset,any,types}.rs"])
p("C33","Malformed serialized datasets are rejected",
  "Deserializing never succeeds with a dataset whose arrays had the wrong length, and never panics.",
  "every byte string",
  "adversarial inputs",
  ["src/idx/serde.rs: arr_u64, sr_u64, chunks_u64s"])
p("C34","An indexed dataset's chunks are the complete row-major grid",
  "If Dataset::index succeeds on chunk records that are distinct and aligned to the chunk shape and in range, its chunk list is the row-major list of all grid cells, so that chunk_at_coord (C04) is right.",
  "every shape, chunk shape, order in which HDF5 lists the chunks",
  "all permutations of chunk records",
  [f"{DS}: Dataset::index"])
p("C35","Partially allocated datasets are rejected at indexing",
  "If the number of stored chunks is not the number of grid cells, indexing fails with an error (sparse datasets are never misread).",
  "every shape, chunk shape, chunk record list",
  "all subsets of the grid",
  [f"{DS}: Dataset::index (expected_chunks)"])
p("C36","Dataset paths resolve through groups",
  "dataset(\"/g1/.../gn/d\") equals looking up g1, ..., gn in turn and then d; any number of leading slashes is ignored.",
  "every group tree, every path",
  "unbounded nesting",
  ["src/idx/index.rs: GroupIndex::dataset"])
p("C37","Group paths resolve consistently with dataset paths",
  "group(p) followed by dataset(d) gives the same as dataset(p/d); leading and trailing slashes are ignored; (the root itself is not reachable as \"/\").",
  "every group tree, every path",
  "unbounded nesting",
  ["src/idx/index.rs: GroupIndex::group"])
p("C38","Indexing a file finds exactly its allocated datasets",
  "After indexing succeeds, a path resolves to a dataset exactly when the file has an allocated dataset at that path, and it resolves to that dataset's index; an unsupported dataset makes indexing fail as a whole.",
  "every group tree",
  "unbounded nesting",
  ["src/idx/index.rs: GroupIndex::index_group"])
p("C39","Python indexing selects what numpy indexing would",
  "Dataset.__getitem__ with ints, step-1 slices and partial tuples selects the coordinates numpy would select, or raises.",
  "every shape, every tuple of ints and slices",
  "all sign and boundary combinations",
  ["src/python.rs: Dataset::__getitem__"])
p("C40","Python results never expose uninitialised memory",
  "Every element of the array returned by __getitem__ was written by the read.",
  "every shape and selection, including empty ones",
  "uninitialised memory is not observable deterministically",
  ["src/python.rs: read_py_array"])
p("C41","apply_fill_value replaces exactly the matching elements",
  "apply_fill_value replaces every element equal to the condition value by the fill value and leaves all others unchanged.",
  "every array and every pair of values",
  "all arrays",
  ["src/python.rs: apply_fill_value"])
p("C42","S3 reads can be started from any runtime context",
  "The blocking S3 read never panics because of the surrounding tokio context: none, multi-thread, current-thread.",
  "every runtime context, nesting",
  "depends on the caller's environment",
  ["src/reader/s3.rs: block_on"])
p("C43","valid() detects a broken chunk layout",
  "Dataset::valid() returns Ok(true) only if every chunk of the layout can be found by coordinate.",
  "every dataset",
  "all malformed layouts",
  [f"{DS}: Dataset::valid"])
p("C44","Debug and release builds behave the same",
  "Whenever all sizes involved fit in 64 bits, reading gives the same result in debug and release builds.",
  "every dataset, selection, file",
  "relational over all inputs; tests run one profile",
  [f"{DS}: ChunkSlicer::next (debug_assert!)","src/reader/*.rs"])
p("C45","The filter pipeline inverts what HDF5 wrote",
  "Decoding a chunk written by shuffle then deflate (either, both or none) gives back the chunk's bytes.",
  "every chunk content, element size 1, 2, 4, 8, filter combination",
  "all contents",
  ["src/reader/chunk.rs: decode_chunk"])
p("C46","A chunk that decompresses to the wrong size is reported",
  "If a stored chunk decompresses to fewer or more bytes than the chunk size, the read fails.",
  "every stored chunk",
  "corrupted inputs",
  ["src/reader/chunk.rs: decode_chunk","src/filters/gzip.rs: decompress"])
p("C47","Unsupported files are rejected at indexing, never misread",
  "Indexing fails for datasets with filters other than shuffle/deflate, with layouts other than contiguous/chunked, or of a rank other than the requested one; the stored filter flags are exactly whether shuffle/deflate occurs in the pipeline.",
  "every filter pipeline and layout",
  "all pipelines",
  [f"{DS}: Dataset::index","src/idx/dataset/any.rs: DatasetD::index"])
p("C48","Grouped slices tile the destination",
  "The destination ranges reported by group_chunk_slices are pairwise disjoint and their union is [0, total selected elements); they are ordered by file address.",
  "every dataset and selection",
  "all selections",
  [f"{DS}: Dataset::group_chunk_slices"])
p("C49","A truncated or unreadable file gives an error",
  "If the file is too short to contain a chunk needed by the selection, the read returns an error (never partial success). Whatever the dataset and the selection, reading a file that was cut short gives exactly what reading the whole file gives, or an I/O error: no other bytes, error or panic; a destination or stream then holds nothing that the read of the whole file would not have put there.",
  "every file length, dataset, selection",
  "all truncation points",
  ["src/reader/chunk.rs: read_chunk_to"])
p("C50","size() is the number of elements",
  "Dataset::size() equals the product of the shape; for a scalar it is 1; it equals the number of values a full read returns.",
  "every shape",
  "all shapes",
  [f"{DS}: Dataset::size"])
p("C51","hfxlst loads an index written by hfxidx in either format",
  "Loading tries every compiled-in format and succeeds with the first one that parses; it fails only if all fail.",
  "every byte string and outcome of the two parsers",
  "all inputs",
  ["src/bin/hfxlst.rs: read_index"])
p("C52","The element type survives indexing",
  "A dataset of a native number type is indexed with the class and size of that type; a dataset of numbers stored in the other byte order is XDR-encoded as the numbers it holds.",
  "every HDF5 datatype",
  "all combinations of type, size and byte order",
  ["src/idx/dataset/types.rs: From<hdf5::Datatype>", "src/filters/xdr.rs: xdr"])
p("C53","Index, then read: the values HDF5 would give",
  "For a file that stores an array in chunks as HDF5 describes them (filter pipeline, filter masks, addresses), indexing and then reading any in-bounds selection gives the array's elements in row-major order.",
  "every file, dataset, filter pipeline, order of chunk records, selection, history of reads",
  "composition over all inputs",
  [f"{DS}: Dataset::index", "src/reader/cache.rs", "src/reader/chunk.rs"])
p("C54","A truncated index file is rejected",
  "Deserializing a serialized index that was cut short after any number of bytes returns an error: it is never taken for a smaller index and never panics.",
  "every index, every crash point while its bytes are written",
  "every prefix of every serialization",
  ["src/idx/serde.rs","src/idx/index.rs: derive(Deserialize)","src/bin/hfxidx.rs: main (fs::write)"])
p("C55","Python dataset handles always resolve",
  "A handle returned by the Python Index.dataset(name, group) always resolves to the dataset of that name and group when it is used; Index.datasets lists exactly the plain names for which Index.dataset returns a handle.",
  "every index, group path and dataset name",
  "all indices and names",
  ["src/python.rs: Index::dataset, Index::datasets, Dataset::dataset"])
p("C56","Opening a reader by path",
  "GroupIndex::reader and streamer return an error (never panic) when the index has no path or the name resolves to no dataset; reader also when the file cannot be opened. Otherwise they open the dataset the name resolves to, on the file the index was made from.",
  "every index, name and state of the file system",
  "all trees and names",
  ["src/idx/index.rs: GroupIndex::reader, GroupIndex::streamer","src/idx/dataset/any.rs: DatasetD::as_reader, as_streamer"])
p("C57","The whole way: index, save, load, open by path, read",
  "For a file that stores arrays as HDF5 describes them, indexing it, serializing the index, deserializing it, opening a reader (or streamer, or parallel reader) by the path of a dataset and reading any in-bounds selection, after any history of reads, gives the array's elements in row-major order.",
  "every file, tree of groups, dataset path, selection, history of reads",
  "composition over all inputs",
  ["src/idx/index.rs","src/idx/serde.rs","src/idx/dataset/dataset.rs","src/reader/cache.rs","src/reader/stream.rs","src/reader/direct.rs"])
p("C58","hfxidx and hfxlst: a usable index file or an error",
  "When hfxidx succeeds, hfxlst on its output lists the source path and exactly the allocated datasets of the root group with their shapes; when hfxidx fails or is interrupted at any point, its output is untouched, complete, or rejected by hfxlst; no other file changes.",
  "every file, every crash point while the output is written",
  "every crash point of every run",
  ["src/bin/hfxidx.rs: main","src/bin/hfxlst.rs: main, read_index"])
p("C59","Reading values as a type of another size",
  "values, values_par and values_dyn_par with a type whose size does not divide the element size return an error without reading anything. values with a smaller type whose size divides the element size returns the bytes of the selected elements cut into pieces of that size, each converted by itself, when the reader reads the selection right (C01); values_dyn_par with a smaller type returns an error, never a partly filled array.",
  "every dataset, selection, element type and reader",
  "all element sizes, types and readers",
  ["src/reader/dataset.rs: ReaderExt::values, ParReaderExt::values_par, values_dyn_par"])
p("C60","Streaming typed values",
  "stream_values::<T> with the element type of the dataset yields vectors that, concatenated, are the native values of the selected elements in row-major order; for any T no byte of the stream is dropped: an item becomes an error unless it holds a whole number of values. A type of another size is refused.",
  "every dataset, file, selection, element type, cache state",
  "all datasets and selections",
  ["src/reader/dataset.rs: StreamerExt::stream_values","src/reader/stream.rs: StreamReader::stream"])
p("C61","Reading through the xarray backend masks the fill value",
  "Indexing a variable opened with the hidefix xarray engine gives the elements numpy's indexing selects; those equal to the variable's fill value (converted to the element type, compared as IEEE numbers) are replaced by NaN and all others are unchanged, whatever the order in which threads visit them. A variable with a fill value can always be read.",
  "every file, variable, fill value, key and schedule",
  "all element types, fill values, keys and schedules",
  ["python/hidefix/xarray.py: HidefixArray._getitem","src/python.rs: Dataset.__getitem__, apply_fill_value"])
p("C62","Opening a file with the xarray backend",
  "A valid netCDF4 file opens, and its variables are exactly the datasets of the group in the index, each once, with the fill value that its _FillValue and missing_value attributes give; each of them can be looked up when it is read.",
  "every file, group, set of variables and attributes",
  "all combinations of attributes and datasets",
  ["python/hidefix/xarray.py: get_variables, open_store_variable, HidefixArray.__init__"])
p("C63","A read depends only on the chunks it needs",
  "If two files agree on the stored bytes of every chunk that holds a selected element, then reading the selection from either gives the same result with every reader: the same outcome (also when it fails or panics), the same destination, the same stream items, the same state of a caching reader (S3: both reads succeed with the same result, or neither succeeds). Damage, truncation or different data anywhere else in the file, metadata included, has no influence.",
  "every pair of files, dataset, selection whose ends are 64-bit numbers, destination, cache state and schedule, in debug and release builds",
  "all pairs of files and all selections, including those that are read wrongly",
  ["src/idx/dataset/dataset.rs: ChunkSlicer::next, chunk_at_coord","src/reader/direct.rs","src/reader/cache.rs","src/reader/stream.rs","src/reader/s3.rs"])
p("C64","No chunk is read twice in a call, and no chunk that is not needed",
  "A direct read (sequential or parallel) reads the file at strictly increasing addresses, at most once per chunk; an S3 read requests every chunk in one request only; the caching reader and the streams do not read a chunk twice in a call when the needed chunks fit into the 32 MiB cache. Only chunks holding a selected element are read.",
  "every dataset, file, selection, destination, history of the reader, in debug and release builds, also when the call fails",
  "all selections and cache states",
  ["src/idx/dataset/dataset.rs: group_chunk_slices","src/reader/direct.rs: read_to, read_to_par","src/reader/cache.rs: read_to","src/reader/stream.rs: stream","src/reader/s3.rs: group_requests"])
p("C65","A repeated read is served from the cache",
  "After a selection whose chunks fit into the 32 MiB cache has been read through a CacheReader, reading it again does not touch the file: nothing is fetched and the result is the same whatever has happened to the file in between.",
  "every dataset, selection, history of reads before, state of the file at the second read",
  "all histories and eviction orders",
  ["src/reader/cache.rs: CacheReader::read_to, with_dataset"])
p("C66","A disturbed read returns an I/O error or the right result, never a mixture",
  "While a selection is read, operations on the file may fail at any point and the file may be written to, grow or shrink, as long as the chunks the selection needs stay as they are or are cut off by the end of the file. The call then returns an I/O error (an HTTP error for S3), or exactly what it returns on the undisturbed file. After an I/O error every byte of the destination is what it was before or what the undisturbed read puts there, the caching reader has filled it from the front, and a stream has yielded some of its first items.",
  "every dataset, selection whose ends are 64-bit numbers, destination, cache state, schedule, sequence of failures and contents of the file, in debug and release builds",
  "all points at which an operation can fail and all interleavings with writes",
  ["src/reader/direct.rs: read_to, read_to_par","src/reader/cache.rs: read_to","src/reader/stream.rs: stream, stream_xdr","src/reader/s3.rs: read_to_async, fetch","src/reader/chunk.rs: read_chunk"])
p("C67","A caching reader survives failures",
  "Whatever reads a CacheReader has done before, failed ones included, and whatever was written to the rest of the file or cut off from it meanwhile: a read that is not disturbed has the outcome and destination it has with a new reader, so that a failed read can simply be retried.",
  "every dataset, history of reads, sequences of failures and writes during each of them",
  "all histories and failure points",
  ["src/reader/cache.rs: CacheReader::read_to"])
p("C68","apply_fill_value replaces exactly the elements with the given value",
  "Dataset.apply_fill_value(cond, fv, arr) gives every element of arr that is equal to cond the value fv and leaves all others as they are bit by bit, whatever the order in which threads visit them; integers are compared as integers of the element type, floats as IEEE numbers. A scalar that is not a number of the (integer) element type is refused.",
  "all element types, scalars, arrays, hosts and schedules",
  "all values of 64-bit types and all schedules",
  ["src/python.rs: Dataset.apply_fill_value, apply_fill_value_impl"])
p("C69","A stream works as it is consumed",
 "Creating a stream does not touch the file. Every poll reads at most one chunk of the file, one that the selection needs: the i-th poll none but the chunk of the i-th item of chunk_slices, which for selections that are sliced right (see C02) is the chunk of the next element to be delivered; so a consumer who stops after k items has caused at most k chunk reads. The items delivered so far depend on nothing but the ranges read so far: chunks that were not read yet may be damaged, missing or not written yet. The polls answer with the items in order, then once with the error (if the stream fails), then that there is nothing more, however often the stream is polled.",
 "all datasets, selections, numbers of polls, contents of the file at every poll, failing operations",
 "a test consumes the stream to its end, on one file",
 ["src/reader/stream.rs: StreamReader::stream, stream_xdr"])
p("C70","The unsafe code is sound",
 "No call of the safe API is undefined behaviour: no unchecked access leaves its buffer and no two threads write to a common byte. This holds without any assumption on the dataset (it may come from a forged index), the file, the server, the selection, the destination, the order of completion and the schedule.",
 "all datasets including malformed ones, files, servers, selections, destinations, schedules, in debug and release builds",
 "undefined behaviour need not show in a test, and malformed inputs are unbounded",
 ["src/filters/shuffle.rs: shuffle, unshuffle, unshuffle_structured, unshuffle_sized","src/reader/direct.rs: read_to, read_to_par","src/reader/cache.rs: read_to","src/reader/stream.rs: stream, stream_xdr","src/reader/s3.rs: read_to_async","src/reader/dataset.rs: values, values_dyn_par","src/idx/dataset/dataset.rs: index, chunk_slices","src/idx/serde.rs","src/python.rs: __getitem__"])
p("C71","Readers in use at the same time do not disturb each other",
 "A program may hold any number of readers and streams of the same or other datasets and use them in any order, alternately or in different threads. What each of them answers is what it would answer if the calls on it were the only ones. In particular a caching reader whose chunks stay as they are in the file (or are cut off) answers every read as a new reader would (or with an I/O error), and a stream delivers its items in order, whatever happens on the other handles in between.",
 "all numbers of handles, all datasets, all interleavings of calls, all contents of the file at every operation",
 "the number of interleavings is unbounded; a test fixes one",
 ["src/idx/dataset/any.rs: as_reader, as_par_reader, as_streamer","src/reader/cache.rs: CacheReader, read_to","src/reader/direct.rs: Direct, read_to","src/reader/stream.rs: StreamReader, stream"])
p("C72","An index made in any way reads the file it was made from",
 "An index made from a path, from an open hdf5::File or netcdf::File of that path, or in Python, is the same index. The readers, parallel readers and streams obtained from it or from any of its groups read the file that was indexed, whatever the process does in between, as long as the file stays in its place; in particular if the working directory is changed.",
 "all paths, group trees, datasets, working directories before and after",
 "all paths and all changes of the environment",
 ["src/idx/index.rs: Index::index, Index::index_file, TryFrom<&Path>, TryFrom<&hdf5::File>, TryFrom<&netcdf::File>, Index::reader, Index::streamer","src/idx.rs: IntoIndex","src/python.rs: Index::new"])
p("C73","The xarray backend claims exactly the netCDF suffixes",
 "xarray is told that this backend can open a file exactly if the last component of its path ends with .nc, .nc4 or .cdf after a name that does not consist of dots alone; dots and suffixes of directories do not matter.",
 "all paths",
 "all strings",
 ["python/hidefix/xarray.py: HidefixBackendEntrypoint.guess_can_open"])
p("C74","The chunk caches hold at most 32 MiB, or one chunk",
 "The chunks kept by a caching reader, and by a stream that is being consumed, never take more than 32 MiB, or the size of one chunk if that is larger, whatever was read before, whatever failed and however far a stream was consumed.",
 "all datasets, selections, histories of reads and polls, failures and states of the file",
 "all histories; the caches count chunks and not bytes, so no single run shows the maximum",
 ["src/reader/cache.rs: CacheReader::with_dataset, CACHE_SZ","src/reader/stream.rs: CACHE_SZ, StreamReader::stream, StreamReader::stream_xdr"])
p("C75","A debug build that does not panic shows what a release build does",
 "Whatever the arguments are (malformed indexes, damaged files, selections out of bounds, destinations of any length, servers that answer anything), a call that does not panic in a debug build has the same result, the same destination and the same effect on the reader in a release build: selections, indexing and hfxidx, sizes, opening, reads by each reader, streams and their polls, typed values, the Python module. A program that uses any number of readers in any order gets the same answers up to the first panic of the debug build. For the parallel reader: if no schedule of the debug build panics, the two builds have the same possible results.",
 "all API calls, arguments, states of readers, histories, schedules",
 "all inputs in two builds; overflow shows only at sizes near 2^64",
 ["src/extent.rs","src/idx/dataset/dataset.rs","src/idx/index.rs","src/reader/cache.rs","src/reader/direct.rs","src/reader/stream.rs","src/reader/s3.rs","src/reader/dataset.rs","src/python.rs"])
p("C76","Readers that fill a destination agree",
 "For every dataset whose chunks have one size per address, every selection and every destination, the caching reader (after any history of reads), the direct reader, the parallel reader (under any schedule) and the S3 reader (for a server that serves the file, with the requests completing in any order; chunks of at least one byte) succeed together, with the same number of bytes and the same content of the destination, in debug and release builds. This includes malformed datasets and selections that the slicer gets wrong.",
 "all datasets, files, selections, destinations, histories, schedules, completion orders, builds",
 "all combinations of readers, histories and schedules",
 ["src/reader/cache.rs: read_to","src/reader/direct.rs: read_to, read_to_par","src/reader/s3.rs: read_to"])
p("C77","Common selections are read right by every reader",
 "If the selection is in bounds and is one of: anything of a dataset of rank at most 2 but several rows, some of one chunk, of a cut last column of chunks alone (C90); one element; anything that is not exactly one chunk in the last dimension; consecutive elements of one chunk (for a contiguous dataset: any number of rows, planes, ...); whole chunks (with a condition on chunks of one row); anything inside one uncut chunk but what C85 excludes; anything that meets no cut chunk but what C87 excludes: then the caching reader after any history, the direct reader, the parallel reader under any schedule, the S3 reader, streams, XDR streams, typed values, the Python module and a reader obtained from a file by indexing, saving, loading and looking up return exactly the stored elements, in row-major order.",
 "all well-formed datasets, files that store them, selections of these kinds, histories, schedules, builds",
 "all shapes, chunk shapes and selections of any rank",
 ["src/idx/dataset/dataset.rs: ChunkSlicer::next","src/reader/cache.rs","src/reader/direct.rs","src/reader/stream.rs","src/reader/s3.rs","src/reader/dataset.rs","src/python.rs"])
p("C78","A debug build never hangs",
 "In a debug build no call of the API runs forever, whatever dataset, selection, file, server and bytes it is given: slicing gives at most one slice per selected element; reads, streams poll by poll and to the end, S3 reads, typed values, the Python module, indexing (if HDF5 returns and the groups of the file form no cycle, C94) and loading an index end. A release build does not hang when it reads a common selection (C77) of a well-formed dataset, nor on any other selection unless it is pinned (C91).",
 "all API calls and arguments including malformed ones, all schedules",
 "a loop that does not end shows only for some inputs (C05), in a test as a timeout",
 ["src/idx/dataset/dataset.rs: ChunkSlicer::next","src/reader/cache.rs","src/reader/direct.rs","src/reader/stream.rs","src/reader/s3.rs","src/idx/serde.rs"])
p("C79","Nothing but a parallel read in a release build can be undefined behaviour",
 "For every dataset, also malformed ones, every file, server, selection and destination: sequential reads, streams, S3 reads, filters, typed values, indexing and loading are never undefined behaviour, in debug and release builds. The parallel reader (and Python, which uses it) is not in a debug build, under any schedule; and not in a release build that reads a common selection (C77) of a well-formed dataset.",
 "all API calls and arguments including malformed ones, all schedules, both builds",
 "undefined behaviour need not show in a test, and malformed inputs are unbounded",
 ["src/filters/shuffle.rs","src/reader/direct.rs: read_to, read_to_par","src/reader/cache.rs: read_to","src/reader/stream.rs","src/reader/s3.rs","src/idx/chunk.rs: slice_from_u64s"])
p('C80','Reads are consistent with each other','Any two successful reads of common selections (C77) of a file whose chunks decode to full blocks show the same bytes for every element that both select, whichever readers make them (caching after any history, direct, parallel, S3, streaming). A read of n + m rows returns the read of the first n followed by the read of the other m; a read returns the reads of its single elements one after the other.','every dataset, intact file, pair of common selections, pair of readers, history, schedule and completion order','A relation between all pairs of reads; no test enumerates pairs of selections times pairs of readers.',['src/idx/dataset/dataset.rs: ChunkSlicer::next','src/reader/cache.rs: CacheReader::read_to','src/reader/direct.rs: Direct::read_to, read_to_par','src/reader/stream.rs: StreamReader::stream','src/reader/s3.rs: S3Reader::read_to'])
p('C81','Over the life of a caching reader every chunk is fetched once','If the decoded chunks that the calls on a CacheReader need fit together into its cache (32 MiB), then all calls together read at most one range per chunk, plus one for each call that fails, and only ranges of those chunks; no range is read twice if no call fails.','every well-formed dataset, sequence of calls of any length, each with its own selection, destination, file contents and faults','The claim is about call sequences of unbounded length including failing calls and eviction order of the cache.',['src/reader/cache.rs: CacheReader::with_dataset, CacheReader::read_to'])

p('C82','Which Python reads have the shape numpy would give them','An array that Dataset.__getitem__ of the Python bindings returns has the shape numpy would give it exactly if that shape is (1,), or has at least one dimension and only dimensions larger than 1; otherwise the dimensions of size 0 and 1 are lost, or a scalar becomes an array of shape (1,).','every dataset, file, thread schedule and tuple of ints and slices that numpy accepts','A test sees a few shapes; which dimensions survive depends on the kind of every item, wrapped counts of empty slices and the sizes, for every rank.',['src/python.rs: Dataset::__getitem__, Dataset::read_py_array'])
p('C83','S3 requests in flight','At any time during an S3 read at most 16 range requests are outstanding, holding together at most 16 times 8 MiB (or 16 times the largest chunk); no request is sent twice or forgotten; the call ends after all of them were handled or at the first failure; its result is that of handling the responses one by one in some order; and if the future is dropped at any point, every byte of the destination is as before or as the complete read would have left it.','every dataset, selection, object store behaviour, order in which requests complete, and point at which the future is dropped','Orders of completion and points of cancellation of concurrent requests cannot be enumerated by tests, and a test server does not show how many requests are outstanding at any time.',['src/reader/s3.rs: S3Reader::read_to_async, CONCURRENT_REQUESTS, group_requests'])
p('C84','An S3 read sends as few requests as its limits allow and little more than it needs','If the chunks of a file do not overlap, the range requests of one S3 read are for increasing ranges that do not overlap; they hold only chunks with a selected element; together they ask for at most the stored bytes of these chunks plus 32 KiB per pair of neighbouring chunks in one request; and no other way of cutting the needed chunks, in file order, into requests within the limits (32 KiB gaps, 8 MiB) has fewer requests.','all datasets with chunks that do not overlap, all selections, all sorts by address, both build profiles, all other groupings of the chunks','Optimality ranges over every other grouping of every set of chunks; tests compare a few layouts with a handful of expected requests.',['src/reader/s3.rs: group_requests, read_to_async'])

p('C85','For contiguous data, and inside one chunk, exactly two kinds of selections are misread','For a selection inside one chunk that is not cut at the end of the dataset (so any selection of a contiguous dataset): every reader returns the selected elements of whatever array the file stores, if and only if the selection does not take a single index of a dimension with more than one, the dimensions inside of it (at least one) in full, and more than one index of some dimension outside of it; nor (if the chunk has one index in each of its last k dimensions) k or fewer of the next dimension, but not the chunk in full, and more than one index of some dimension outside of it - or the chunk in full there, and the same further out, with k divided by the extent, plus one, in place of k. If k is at most 1 the second kind is of the first.','all datasets, selections inside one uncut chunk, both build profiles, the direct, caching (after any history), parallel (any schedule) and S3 readers and streams','Tests can show that some selections work; which ones do not is a claim about every shape and every selection, in both directions.',['src/idx/dataset/dataset.rs: ChunkSlicer::next','src/reader/direct.rs: Direct','src/reader/cache.rs: CacheReader','src/reader/s3.rs','src/reader/stream.rs: StreamReader'])

p('C86','A byte stream is in big-endian order','As the documentation of stream says ("A stream of bytes from the variable. Always in Big Endian."): the items of a byte stream, one after the other, are the selected numbers, each with its most significant byte first, whatever the byte order in the file.','all datasets of either byte order, files, selections and runtimes','A claim about every element type, byte order and selection; the tests stream with stream_values only, which converts.',['src/reader/stream.rs: StreamReader::stream'])

p('C87','If the chunks fit the dataset, every read ends, and exactly known selections are misread','For a selection that meets no chunk cut at the end of the dataset, except in the first dimension (so any selection of a dataset whose extents are multiples of those of its chunks in the other dimensions): the iterator of slices ends in debug and release builds, after at most one slice per element, none of them empty (also if chunks are cut in the last dimension). And every reader returns the selected elements of whatever array the file stores, if and only if, (a) unless the selection takes one index of each of the two last dimensions and the chunks have extent 1 in both, there is no dimension, with exactly one chunk selected in all dimensions inside of it (at least one), such that either its chunks have more than one index, the selection takes one index of the last chunk it meets and more than one index of some dimension outside, or its chunks have one index, the selection takes several and meets chunks with more than one index in some dimension outside (instead of the latter, if it is the dimension before the last and the chunks have one index in the last too: the selection takes more than one index of some dimension outside); (b) otherwise, with c the number of last dimensions of which one index is taken and chunks have one: going outwards, past dimensions that are exactly one chunk of at most c indices, each of which makes c into c divided by their number, plus one, and past further dimensions with one index: a next dimension that is exactly one chunk has more than c indices and nothing outside of it is as in (a), or of each chunk met in this dimension, from its first selected index on, more than c selected ones and (in debug builds) at least c of the chunk are left, unless the rest of the selection is in this chunk and takes one index of each dimension outside.','all datasets whose chunks fit them, all selections, both build profiles, the direct, caching (after any history), parallel (any schedule) and S3 readers and streams','Which selections are read right, and that a read ends when it is not, are claims about every shape, chunk shape and selection; tests see some.',['src/idx/dataset/dataset.rs: ChunkSlicer::next','src/reader/direct.rs: Direct','src/reader/cache.rs: CacheReader','src/reader/s3.rs','src/reader/stream.rs: StreamReader'])
p('C88','The slices are as few as possible','If the iterator of chunk slices yields the selected elements of a well-formed dataset, in row-major order, each by the chunk and the position in the chunk that store it, and yields no slice that ends before it starts, then no list of slices that does so is shorter: a slice ends only where the next element is not stored right after the last one. (Every slice costs a reader one copy and, without the cache, one read.)','all well-formed datasets, selections inside of them and competing lists of slices; debug builds, and release builds with the number of selected elements plus any extent times the chunk size below 2^62','minimality compares the result with every other right list of slices, for every dataset and selection',['src/idx/dataset/dataset.rs: Dataset::chunk_slices, ChunkSlicer::next'])
p('C89','If the chunks fit the dataset and are not thin, no build leaves the destination','For a selection that meets no chunk cut at the end of the dataset, except in the first dimension, and that takes more than one index of no dimension but the first in which the chunks have extent 1 (unless they have extent 1 in all dimensions inside of it too) - so for any selection of a dataset whose extents are multiples of those of its chunks, these being larger than 1, in all dimensions but the first: also in a release build, where a selection may be misread, the slices are not empty and their lengths add up to the number of selected elements; grouped they tile the destination; the parallel reader never executes undefined behaviour; and no reader writes to the destination past the size of the selection.','all such well-formed datasets and selections (element count plus any extent times the chunk size below 2^62, bytes below 2^64), every file content, destination, schedule and earlier reads; debug and release builds','memory safety of the unchecked copies under every schedule and for every layout',['src/idx/dataset/dataset.rs: ChunkSlicer::next, group_chunk_slices','src/reader/direct.rs: read_to_par','src/reader/cache.rs: read_to'])
p('C90','Matrices: exactly known selections are misread','Of a dataset of rank at most 2, in debug and release builds: the iterator of slices ends, after at most one slice per element, none of them empty; and every reader returns the selected elements of whatever array the file stores, if and only if the selection is not, in a dataset of rank 2, exactly the last column of chunks, cut at the end of the dataset, with two neighbouring selected rows in one chunk. In particular all of a matrix is read right if and only if the chunks are not wider than the matrix, or have one row, or the matrix has one row.','all datasets of rank at most 2, all selections, both build profiles, the direct, caching (after any history), parallel (any schedule) and S3 readers and streams','Which selections are read right is a claim about every shape, chunk shape and selection; tests see some.',['src/idx/dataset/dataset.rs: ChunkSlicer::next','src/reader/direct.rs: Direct','src/reader/cache.rs: CacheReader','src/reader/s3.rs','src/reader/stream.rs: StreamReader'])
p("C91","Release builds end unless the selection is pinned",
 "In a release build too, slicing a well-formed dataset ends, after at most one slice per selected element and with no empty slice, and no reader hangs, even where the selection is misread: for every rank, however the chunks are cut, as long as the chunks have more than one index in the last dimension, or the selection takes more than one index of the last dimension, or it takes more than one index of the dimension before the last (or one which is not a chunk by itself there). For these selections the iterator is right exactly when the selection is sliced right in the sense of C02. Otherwise (a pinned selection) a read may never end, even if no chunk is larger than the dataset: [.., .., 6, ..] of 2x5x7x1 in chunks of 1x2x6x1.",
 "all well-formed datasets of any rank, all selections inside them (number of elements, and extent times chunk size, below 2^62)",
 "termination for all shapes and selections; a hang depends on a rare combination of extents",
 ["src/idx/dataset/dataset.rs: ChunkSlicer::next"])
p("C92","A successful read filled the destination, even where it is a misread",
 "For a selection inside a well-formed dataset that is not pinned (C91): reading it from a given file either fails whatever the destination, or there is one sequence of pieces of decoded chunks, at least as long as the number of bytes reported, that every read, cached after any history, direct or parallel under any schedule, leaves at the start of every destination with room for it, with the rest of the destination kept; with less room it fails. So a successful read returns dataset bytes only, no matter how the build slices the selection: into a result of exactly the selection's size, which values, values_par, values_dyn_par and the Python module allocate, often uninitialised, what was in that memory never shows and the outcome does not depend on it.",
 "both builds, all well-formed datasets, all selections inside them that are not pinned (sizes in bytes below 2^61), all files, destinations, histories, schedules, contents of uninitialised memory",
 "the contents of uninitialised memory cannot be enumerated, and misread selections are rare",
 ["src/reader/direct.rs: read_to, read_to_par","src/reader/cache.rs: read_to","src/reader/dataset.rs: values, values_par, values_dyn_par","src/python.rs: Dataset::__getitem__"])

p("C93","Indexing takes in everything HDF5 opens, and fails if a group cannot be listed",
 "Indexing a file, whatever its links are, either fails or makes an index in which a path names a dataset exactly if going from the root through groups of those names leads to a group with an allocated dataset of that name that HDF5 can open; and the index is that dataset's. It fails if the members or the groups of any group it gets to cannot be listed or if an allocated dataset that opens cannot be indexed, and otherwise, if there is an end to going into groups (C94), it succeeds. Members that cannot be opened, damaged datasets among them, are left out silently. A group is filed under the last part of its name; of several in one group that HDF5 reports with the same last part, the last wins.",
 "all files as graphs of groups of any shape, all answers of the HDF5 library, both builds",
 "files of all shapes and all failures of the library in the course of a walk of any length",
 ["src/idx/index.rs: Index::index_file, GroupIndex::index_group"])
p("C94","Indexing ends exactly if the links of the file form no cycle",
 "If the HDF5 library answers every call, indexing a file comes to an end if no endless chain of groups, each in the one before, starts at the root (as with a group that is, directly or through others, within itself by a hard, soft or external link); if there is such a chain indexing does not succeed, and unless something else makes it fail it never ends.",
 "all files as graphs of groups of any shape, all answers of the HDF5 library, both builds",
 "termination for all graphs of links",
 ["src/idx/index.rs: GroupIndex::index_group"])

p("C95","What the xarray backend shows of a file",
 "Opening a file, or a group of it by its path, with the xarray backend succeeds exactly if the links of the file have no cycle, all of its groups can be listed, every allocated dataset anywhere in the file that HDF5 opens can be indexed, netCDF4 opens the file and the group, and each allocated dataset of the group is a variable for netCDF4 without contradictory _FillValue and missing_value. Its variables are then exactly the allocated datasets of the group that open, each once, with the fill value of its attributes, and reading one reads that dataset. So variables that were never written, which netCDF4 shows, are missing; one dataset that cannot be indexed in another group keeps the file from opening; and with group='/' there are no variables at all.",
 "all files as graphs of groups, all answers of HDF5 and netCDF4, all group paths, both builds",
 "all files and all failures of two libraries, through three layers of code in two languages",
 ["python/hidefix/xarray.py: HidefixDataStore.open, get_variables, open_store_variable","src/python.rs: Index::new, Index::datasets, Index::dataset","src/idx/index.rs: GroupIndex::index_group, GroupIndex::group"])

p("C96","The whole way through xarray",
 "For a file that stores arrays as HDF5 describes them, opening it, or a group of it, with the xarray backend shows every written variable with the fill value of its attributes, and indexing a variable gives the numbers of the array that numpy's indexing selects, those equal to the fill value replaced by NaN.",
 "all files as graphs of groups with failing parts, all group paths, variables, attributes, keys, schedules of threads, contents of uninitialised memory, both builds, both host byte orders",
 "a composition of three libraries and four layers, for all files and keys",
 ["python/hidefix/xarray.py: open_dataset, HidefixArray._getitem","src/python.rs: Index, Dataset::__getitem__, apply_fill_value","src/idx/index.rs: GroupIndex::index_group","src/reader/direct.rs: read_to_par"])
p("C97","Indexing an xarray variable dimension by dimension",
 "Indexing a variable opened with the hidefix xarray engine with one item per dimension, integers (negative ones count from the end), slices of any step and arrays of integers, gives what numpy's outer indexing of the stored array gives: the elements at all combinations of the selected indices, in the shape of the selections with the integers' dimensions dropped, those equal to the fill value replaced by NaN.",
 "all files, variables of all shapes, keys, fill values, schedules, contents of uninitialised memory",
 "xarray splits every key into one for the backend and one for numpy, and the shapes in between must agree for all of them; the tests read a few whole variables",
 ["python/hidefix/xarray.py: HidefixArray.__getitem__, _getitem","src/python.rs: Dataset::__getitem__, read_py_array"])

p("C98","Picking points through xarray",
 "Indexing a variable opened with the hidefix xarray engine with an array of integers for every dimension, all of one shape (xarray's vectorized indexing), gives what numpy gives on the stored array: an array of that shape that has at each place the element whose index in every dimension is what the array of that dimension has there (negative integers count from the end), those equal to the fill value replaced by NaN.",
 "all files, variables of all shapes, numbers of points and their arrangement, fill values, schedules, contents of uninitialised memory",
 "xarray reads the box around the points from hidefix and picks from what comes back; whether its shape fits depends on where the points lie; no test picks points",
 ["python/hidefix/xarray.py: HidefixArray.__getitem__, _getitem","src/python.rs: Dataset::__getitem__, read_py_array"])

with open('/verif/properties.jsonl','w') as f:
    for x in P: f.write(json.dumps(x)+"\n")
print(len(P))
