{
 "claims": [
  {
   "property": "C01",
   "status": "partial",
   "theorems": [
    "Hidefix.Props.C01_cache_partial",
    "Hidefix.Props.C01_cache_open",
    "Hidefix.Props.C01_direct_partial",
    "Hidefix.Props.C01_par_partial",
    "Hidefix.Props.C01_rank_two_partial",
    "Hidefix.Props.C01_whole_partial",
    "Hidefix.Props.C01_exact_direct",
    "Hidefix.Props.C01_exact_cache",
    "Hidefix.Props.C01_exact_par",
    "Hidefix.Props.C01_exact_direct_release",
    "Hidefix.Props.C01_exact_cache_release",
    "Hidefix.Props.C01_exact_par_release",
    "Hidefix.Props.C01_exact_s3",
    "Hidefix.Props.C01_exact_s3_release",
    "Hidefix.Props.C16_partial",
    "Hidefix.Props.not_C01",
    "Hidefix.Props.not_C01_whole"
   ],
   "note": "Proved for selections of a shape that is decidable from the selection and the chunk shape (Spec.Good; good_last_dim gives the common case). The unrestricted statement is false of the code: not_C01 ([.., 0, ..] of a contiguous 2x4x2 dataset) and not_C01_whole (all of a 2x3x2 dataset in chunks of 2x2x2) return Ok with wrong bytes in debug and release. C01_rank_two_partial and C01_whole_partial restate the condition readably for rank 2 and for whole reads. C01_exact_*: the reads are right for every content of a file (filtered or not, of which each chunk has room for the contents the proof needs: Spec.Writable) exactly if the selection is Good (release: sizes below 2^57)."
  },
  {
   "property": "C02",
   "status": "partial",
   "theorems": [
    "Hidefix.Props.C02_partial",
    "Hidefix.Props.C02_exact",
    "Hidefix.Props.C02_exact_release",
    "Hidefix.Props.C91_slices",
    "Hidefix.Props.C02_bad",
    "Hidefix.Props.not_C02",
    "Hidefix.Props.C02_attainable",
    "Hidefix.Props.C02_unique"
   ],
   "note": "C02_attainable, C02_unique: for every selection there is exactly one right enumeration, up to how it is cut into slices. Proved for Spec.Good selections; not_C02 refutes the unrestricted statement (slicer bug). C02_exact, C02_exact_release: in debug and in release builds the claim holds exactly for the Good selections of that build (release: when no range ends before it starts, sizes below 2^62; C91_slices: no range does if the selection is not pinned)."
  },
  {
   "property": "C03",
   "status": "proved",
   "theorems": [
    "Hidefix.Props.C03_last_dim",
    "Hidefix.Props.C03_rank_one",
    "Hidefix.Props.C03_one_chunk",
    "Hidefix.Props.C03_rank_two",
    "Hidefix.Props.C03_whole_chunks"
   ],
   "note": ""
  },
  {
   "property": "C04",
   "status": "proved",
   "theorems": [
    "Hidefix.Props.C04"
   ],
   "note": ""
  },
  {
   "property": "C05",
   "status": "partial",
   "theorems": [
    "Hidefix.Props.C05_debug",
    "Hidefix.Props.C05_partial",
    "Hidefix.Props.C87_ends",
    "Hidefix.Props.C90_ends",
    "Hidefix.Props.C91_ends",
    "Hidefix.Props.C89_slices",
    "Hidefix.Props.not_C05_wf",
    "Hidefix.Props.not_C91_pinned",
    "Hidefix.Props.not_C05_release"
   ],
   "note": "Debug: every dataset and selection. Release: well-formed datasets with Good selections; not_C05_wf: reading all of a well-formed 2x5x1x1 dataset in chunks of 1x2x6x1 never ends in release; not_C05_release: a malformed dataset. C87_ends: release builds end on all selections, also misread ones, that meet no chunk cut in another dimension than the first and the last, so on all datasets of rank at most 2 (C90_ends). C91_ends: on all selections of well-formed datasets that are not pinned; not_C91_pinned: and not on all of those, even if the chunks fit."
  },
  {
   "property": "C06",
   "status": "proved",
   "theorems": [
    "Hidefix.Props.C06",
    "Hidefix.Props.C06_overflow",
    "Hidefix.Props.C06_debug",
    "Hidefix.Props.C06_release"
   ],
   "note": "C06_debug: in debug builds without exception, no slice but perhaps a panic. C06_release: the exception in release builds, slices outside the dataset for ever."
  },
  {
   "property": "C07",
   "status": "partial",
   "theorems": [
    "Hidefix.Props.C07_cache_partial",
    "Hidefix.Props.C07_direct_partial",
    "Hidefix.Props.C92_direct",
    "Hidefix.Props.C92_cache",
    "Hidefix.Props.not_C07",
    "Hidefix.Props.C07_outside"
   ],
   "note": "False for out-of-bounds selections (not_C07: Ok(n) with nothing written); proved for in-bounds selections that are checked. C07_outside: every reader does this for every selection that reaches past the end. Checked selections include the ones of C89. C92: also in release builds, for every selection that is not pinned."
  },
  {
   "property": "C08",
   "status": "partial",
   "theorems": [
    "Hidefix.Props.C08_cache_partial",
    "Hidefix.Props.C08_direct_partial",
    "Hidefix.Props.C08_par_partial",
    "Hidefix.Props.not_C08",
    "Hidefix.Props.C89_par",
    "Hidefix.Props.C89_direct",
    "Hidefix.Props.C89_cache"
   ],
   "note": "Cache and direct for all checked builds; not_C08: release builds overrun the reported size with a selection that is not Good. C89: also all selections of datasets whose chunks fit and are not thin, right or not."
  },
  {
   "property": "C09",
   "status": "proved",
   "theorems": [
    "Hidefix.Props.C09_cache",
    "Hidefix.Props.C09_direct",
    "Hidefix.Props.C09_par",
    "Hidefix.Props.C09_s3",
    "Hidefix.Props.C09_size",
    "Hidefix.Props.C09_bytes",
    "Hidefix.Props.C09_every"
   ],
   "note": "C09_every: all readers at once, every dataset and selection, in terms of the number of selected elements."
  },
  {
   "property": "C10",
   "status": "proved",
   "theorems": [
    "Hidefix.Props.C10"
   ],
   "note": ""
  },
  {
   "property": "C11",
   "status": "proved",
   "theorems": [
    "Hidefix.Props.C11"
   ],
   "note": ""
  },
  {
   "property": "C12",
   "status": "partial",
   "theorems": [
    "Hidefix.Props.C12_destination",
    "Hidefix.Props.C12_stream",
    "Hidefix.Props.C12_partial",
    "Hidefix.Props.C12_stream_partial",
    "Hidefix.Props.not_C12"
   ],
   "note": "The destination readers agree for every dataset, selection and destination, in debug and release builds (C12_destination); the stream agrees with them exactly when what it yields fits the destination (C12_stream). not_C12: in release builds a stream can yield more bytes than the selection has, without error, where the other readers panic. C12_partial includes the selections of C89."
  },
  {
   "property": "C13",
   "status": "proved",
   "theorems": [
    "Hidefix.Props.C13",
    "Hidefix.Props.C13_partial",
    "Hidefix.Props.not_C13"
   ],
   "note": "For every dataset, selection, destination and schedule, debug and release. not_C13 records that the kind of failure may differ (sequential panic, parallel undefined behaviour)."
  },
  {
   "property": "C14",
   "status": "partial",
   "theorems": [
    "Hidefix.Props.C14_partial",
    "Hidefix.Props.C14_ranges_partial",
    "Hidefix.Props.not_C14",
    "Hidefix.Props.C89_par"
   ],
   "note": "For checked reads; not_C14: in release an in-bounds selection makes the unchecked copy leave the destination. C89: also all selections of datasets whose chunks fit and are not thin, right or not."
  },
  {
   "property": "C15",
   "status": "partial",
   "theorems": [
    "Hidefix.Props.C15_partial",
    "Hidefix.Props.C15_prefix_partial",
    "Hidefix.Props.C15_exact",
    "Hidefix.Props.C15_exact_release",
    "Hidefix.Props.C15_current_thread",
    "Hidefix.Props.not_C12"
   ],
   "note": "For Good selections; C15_exact, C15_exact_release: exactly for those (data with or without filters, Spec.Writable; release: sizes below 2^57); not_C12: release builds stream more bytes than selected. C15_current_thread: inside a current-thread tokio runtime the stream panics."
  },
  {
   "property": "C16",
   "status": "partial",
   "theorems": [
    "Hidefix.Props.C16_partial",
    "Hidefix.Props.C23_types",
    "Hidefix.Props.not_C16",
    "Hidefix.Props.not_C16_half",
    "Hidefix.Props.C16_elements",
    "Hidefix.Props.C16_exact",
    "Hidefix.Props.C16_exact_release"
   ],
   "note": "For Good selections; not_C16: wrong elements otherwise. Element types: those indexing produces (C23_types); not_C16_half: 16-bit floats in a handmade index are misread. C16_elements: for every selection inside the dataset the XDR stream of a debug build is the XDR encoding of the plain stream. C16_exact, C16_exact_release: exactly for the Good selections (data with or without filters, Spec.Writable; release: sizes below 2^57)."
  },
  {
   "property": "C17",
   "status": "proved",
   "theorems": [
    "Hidefix.Props.C17",
    "Hidefix.Props.C17_partial",
    "Hidefix.Props.C17_stored_partial"
   ],
   "note": "For every dataset whose chunks take at least one byte, every selection, destination and completion order, debug and release."
  },
  {
   "property": "C18",
   "status": "proved",
   "theorems": [
    "Hidefix.Props.C18"
   ],
   "note": ""
  },
  {
   "property": "C19",
   "status": "proved",
   "theorems": [
    "Hidefix.Props.C19_honest",
    "Hidefix.Props.C19_usable",
    "Hidefix.Props.C19_partial",
    "Hidefix.Props.C19_usable_partial",
    "Hidefix.Props.C19_refused_partial"
   ],
   "note": "For every dataset whose chunks take at least one byte, every selection, destination and server, debug and release."
  },
  {
   "property": "C20",
   "status": "proved",
   "theorems": [
    "Hidefix.Props.C20",
    "Hidefix.Props.C20_structured",
    "Hidefix.Props.C20_positions",
    "Hidefix.Props.C20_mismatch"
   ],
   "note": ""
  },
  {
   "property": "C21",
   "status": "proved",
   "theorems": [
    "Hidefix.Props.C21",
    "Hidefix.Props.C21_rejects"
   ],
   "note": ""
  },
  {
   "property": "C22",
   "status": "partial",
   "theorems": [
    "Hidefix.Props.C22_partial",
    "Hidefix.Props.C22_integers",
    "Hidefix.Props.C22_involution",
    "Hidefix.Props.C22_one_partial",
    "Hidefix.Props.C22_exact",
    "Hidefix.Props.not_C22"
   ],
   "note": "All but little-endian floats on big-endian hosts, which are never converted (not_C22); C22_exact: that is the only exception."
  },
  {
   "property": "C23",
   "status": "proved",
   "theorems": [
    "Hidefix.Props.C23",
    "Hidefix.Props.C23_length",
    "Hidefix.Props.C23_types",
    "Hidefix.Props.C23_swap",
    "Hidefix.Props.C23_swap_else",
    "Hidefix.Props.C23_other"
   ],
   "note": "C23_swap, C23_swap_else, C23_other: all other types."
  },
  {
   "property": "C24",
   "status": "partial",
   "theorems": [
    "Hidefix.Props.C24_cache_partial",
    "Hidefix.Props.C24_direct_partial",
    "Hidefix.Props.C24_par_partial",
    "Hidefix.Props.values_right",
    "Hidefix.Props.C24_too_large",
    "Hidefix.Props.C57_values_partial",
    "Hidefix.Props.not_C24",
    "Hidefix.Props.C24_outside",
    "Hidefix.Props.C24_unstable_partial",
    "Hidefix.Props.C24_unstable_outside",
    "Hidefix.Props.C24_exact_direct",
    "Hidefix.Props.C24_exact_cache",
    "Hidefix.Props.C24_exact_par",
    "Hidefix.Props.C24_exact_dyn_par",
    "Hidefix.Props.C24_exact_direct_release",
    "Hidefix.Props.C24_exact_cache_release",
    "Hidefix.Props.C24_exact_par_release",
    "Hidefix.Props.C24_exact_dyn_par_release"
   ],
   "note": "For Good selections. not_C24: values_dyn_par returns uninitialised memory for an out-of-range selection. C24_outside: for every selection that reaches past the end values returns zeros and values_dyn_par uninitialised memory. C24_unstable_*: builds with the feature unstable, in which values too returns uninitialised memory there. C24_exact_*: in debug builds the values are right whatever the file holds exactly for the Good selections (data with or without filters, Spec.Writable); C24_exact_*_release: the same for release builds, for sizes below 2^57."
  },
  {
   "property": "C25",
   "status": "partial",
   "theorems": [
    "Hidefix.Props.C25_partial",
    "Hidefix.Props.not_C25"
   ],
   "note": "not_C25: values_to returns a number of bytes and swaps the rest of the buffer."
  },
  {
   "property": "C26",
   "status": "partial",
   "theorems": [
    "Hidefix.Props.C26_partial",
    "Hidefix.Props.C26_full",
    "Hidefix.Props.C26_single",
    "Hidefix.Props.not_C26",
    "Hidefix.Props.C26_release",
    "Hidefix.Props.C26_debug"
   ],
   "note": "All but inclusive ranges up to u64::MAX. C26_release and C26_debug say exactly what happens with those."
  },
  {
   "property": "C27",
   "status": "partial",
   "theorems": [
    "Hidefix.Props.C27_cache",
    "Hidefix.Props.C27_direct",
    "Hidefix.Props.C27_par",
    "Hidefix.Props.C27_s3",
    "Hidefix.Props.C27_values",
    "Hidefix.Props.not_C27"
   ],
   "note": "not_C27: chunk_slices and the streams panic."
  },
  {
   "property": "C28",
   "status": "proved",
   "theorems": [
    "Hidefix.Props.C28",
    "Hidefix.Props.C28_starts_counts"
   ],
   "note": ""
  },
  {
   "property": "C29",
   "status": "proved",
   "theorems": [
    "Hidefix.Props.C29",
    "Hidefix.Props.C29_laws",
    "Hidefix.Props.C29_eq",
    "Hidefix.Props.C29_eq_differs",
    "Hidefix.Proofs.sortChunks_spec"
   ],
   "note": ""
  },
  {
   "property": "C30",
   "status": "partial",
   "theorems": [
    "Hidefix.Props.C30_partial",
    "Hidefix.Props.C30_rank",
    "Hidefix.Props.C30_grid",
    "Hidefix.Props.not_C30",
    "Hidefix.Props.C30_exact"
   ],
   "note": "All chunks that end below 2^64; not_C30: overflow otherwise. C30_exact: Equal is answered exactly for the points of the box if the box ends below 2^64, and never wrongly."
  },
  {
   "property": "C31",
   "status": "proved",
   "theorems": [
    "Hidefix.Props.C31",
    "Hidefix.Props.C31_one"
   ],
   "note": ""
  },
  {
   "property": "C32",
   "status": "proved",
   "theorems": [
    "Hidefix.Props.C32",
    "Hidefix.Props.C32_paths",
    "Hidefix.Props.C32_indexed",
    "Hidefix.Props.C32_tree",
    "Hidefix.Props.C32_tree_paths",
    "Hidefix.Props.C32_order"
   ],
   "note": "bincode byte by byte; flexbuffers as a tree (C32_tree: whatever the order of the entries of maps), its bytes are not modelled. C32_order: the iteration order of hash maps cannot be observed. For all indices whose paths are UTF-8; other paths are an error"
  },
  {
   "property": "C33",
   "status": "partial",
   "theorems": [
    "Hidefix.Props.C33_partial",
    "Hidefix.Props.C33_tree_partial",
    "Hidefix.Props.C33_lengths",
    "Hidefix.Props.C33_panics",
    "Hidefix.Props.C33_lengths_tree",
    "Hidefix.Props.C33_panics_tree",
    "Hidefix.Props.not_C33_length",
    "Hidefix.Props.not_C33_panic"
   ],
   "note": "Success gives a proper index, no UB; but wrong array lengths are filled up or cut silently, and malformed chunk bytes or zero divisors panic (counterexamples); C33_lengths and C33_panics: for every dataset, exactly."
  },
  {
   "property": "C34",
   "status": "partial",
   "theorems": [
    "Hidefix.Props.C34_partial",
    "Hidefix.Props.C34_wf",
    "Hidefix.Props.C34_complete",
    "Hidefix.Props.not_C35"
   ],
   "note": "Debug: always; release: fewer than 2^64 cells."
  },
  {
   "property": "C35",
   "status": "partial",
   "theorems": [
    "Hidefix.Props.C35_partial",
    "Hidefix.Props.C35_error",
    "Hidefix.Props.not_C35",
    "Hidefix.Props.C35_release",
    "Hidefix.Props.C35_debug"
   ],
   "note": "Debug: always; release: fewer than 2^64 cells. not_C35: the product wraps. C35_release: release builds compare modulo 2^64, exactly; C35_debug: debug builds panic from 2^64 cells on."
  },
  {
   "property": "C36",
   "status": "proved",
   "theorems": [
    "Hidefix.Props.C36",
    "Hidefix.Props.C36_any"
   ],
   "note": ""
  },
  {
   "property": "C37",
   "status": "proved",
   "theorems": [
    "Hidefix.Props.C37",
    "Hidefix.Props.C37_any",
    "Hidefix.Props.C37_dataset",
    "Hidefix.Props.not_C37"
   ],
   "note": "All paths with at least one name; the root is not reachable as a path (not_C37), as the property says."
  },
  {
   "property": "C38",
   "status": "proved",
   "theorems": [
    "Hidefix.Props.C38",
    "Hidefix.Props.C38_groups",
    "Hidefix.Props.C38_fails",
    "Hidefix.Props.C38_succeeds"
   ],
   "note": ""
  },
  {
   "property": "C39",
   "status": "partial",
   "theorems": [
    "Hidefix.Props.C39_partial",
    "Hidefix.Props.C39_select_partial",
    "Hidefix.Props.C39_raises",
    "Hidefix.Props.C39_too_large",
    "Hidefix.Props.not_C39_last",
    "Hidefix.Props.not_C39_range",
    "Hidefix.Props.not_C39_rank",
    "Hidefix.Props.C39_int",
    "Hidefix.Props.C39_exact",
    "Hidefix.Props.C39_exact_release"
   ],
   "note": "Non-empty in-range selections (Good) without a literal -1. not_C39_*: -1 raises, an out-of-range int does not raise, extra items are ignored. C39_int: exactly what any integer selects. C39_exact: in debug builds, among the selections described, exactly the Good ones are read right whatever the file holds; C39_exact_release: release builds, sizes below 2^57."
  },
  {
   "property": "C40",
   "status": "partial",
   "theorems": [
    "Hidefix.Props.C40_partial",
    "Hidefix.Props.C92_python",
    "Hidefix.Props.not_C40",
    "Hidefix.Props.C40_empty"
   ],
   "note": "For the selections of C39; C92_python: for every selection inside a well-formed dataset, right or not, that is not pinned. not_C40: an empty slice returns uninitialised memory. C40_empty: every selection that is empty in some dimension returns nothing but uninitialised memory."
  },
  {
   "property": "C41",
   "status": "proved",
   "theorems": [
    "Hidefix.Props.C41"
   ],
   "note": ""
  },
  {
   "property": "C42",
   "status": "proved",
   "theorems": [
    "Hidefix.Props.C42"
   ],
   "note": ""
  },
  {
   "property": "C43",
   "status": "partial",
   "theorems": [
    "Hidefix.Props.C43_partial",
    "Hidefix.Props.not_C43_any",
    "Hidefix.Props.not_C43",
    "Hidefix.Props.C43_exact"
   ],
   "note": "valid accepts well-formed datasets; not_C43: it accepts everything else as well. C43_exact: exactly what valid() checks."
  },
  {
   "property": "C44",
   "status": "partial",
   "theorems": [
    "Hidefix.Props.C44_cache_partial",
    "Hidefix.Props.C44_open_partial",
    "Hidefix.Props.C44_direct_partial",
    "Hidefix.Props.C44_par_partial",
    "Hidefix.Props.C44_stream_partial",
    "Hidefix.Props.C44_xdr_partial",
    "Hidefix.Props.C44_values_partial",
    "Hidefix.Props.C44_good_partial",
    "Hidefix.Props.setup_release",
    "Hidefix.Props.not_C44"
   ],
   "note": "A debug success is the release result; for Good selections both succeed alike. not_C44: the slicer bug panics in debug and returns wrong bytes in release."
  },
  {
   "property": "C45",
   "status": "proved",
   "theorems": [
    "Hidefix.Props.C45",
    "Hidefix.Props.C45_shuffled",
    "Hidefix.Props.C45_unshuffled"
   ],
   "note": ""
  },
  {
   "property": "C46",
   "status": "partial",
   "theorems": [
    "Hidefix.Props.C46_partial",
    "Hidefix.Props.C46_read_partial",
    "Hidefix.Props.C46_short",
    "Hidefix.Props.not_C46"
   ],
   "note": "A chunk that decompresses to more bytes than the chunk size, or not at all, makes the read fail; not_C46: one that decompresses to fewer bytes is accepted. C46_short: exactly as if the missing bytes were zeros."
  },
  {
   "property": "C47",
   "status": "partial",
   "theorems": [
    "Hidefix.Props.C47",
    "Hidefix.Props.C47_rejects",
    "Hidefix.Props.C47_rank",
    "Hidefix.Props.not_C47"
   ],
   "note": "The statement holds; not_C47: filter order and masks are lost, so \"never misread\" does not."
  },
  {
   "property": "C48",
   "status": "partial",
   "theorems": [
    "Hidefix.Props.C48_debug",
    "Hidefix.Props.C48_partial",
    "Hidefix.Props.sortByAddr_ok",
    "Hidefix.Props.not_C48",
    "Hidefix.Props.C89_tiles"
   ],
   "note": "Debug: always. Release: Good selections; not_C48: otherwise false. C89: also all selections of datasets whose chunks fit and are not thin, right or not."
  },
  {
   "property": "C49",
   "status": "partial",
   "theorems": [
    "Hidefix.Props.C49_partial",
    "Hidefix.Props.C49_intact_partial",
    "Hidefix.Props.C49_missing",
    "Hidefix.Props.C49_missing_par",
    "Hidefix.Props.C49_outside",
    "Hidefix.Props.C49_truncated_direct",
    "Hidefix.Props.C49_truncated_direct_bytes",
    "Hidefix.Props.C49_truncated_par",
    "Hidefix.Props.C49_truncated_par_bytes",
    "Hidefix.Props.C49_truncated_cached",
    "Hidefix.Props.C49_truncated_history",
    "Hidefix.Props.C49_truncated_stream",
    "Hidefix.Props.not_C49"
   ],
   "note": "The second sentence is proved in full (C49_truncated_*: every dataset, selection and cut). C49_outside: what a chunk outside the file gives (an error, from 2^63 bytes on a panic). For Good selections; not_C49: otherwise a needed chunk may not be read at all, so its absence goes unnoticed."
  },
  {
   "property": "C50",
   "status": "proved",
   "theorems": [
    "Hidefix.Props.C50",
    "Hidefix.Props.C50_scalar",
    "Hidefix.Props.C50_any",
    "Hidefix.Props.C50_read",
    "Hidefix.Props.C50_python"
   ],
   "note": ""
  },
  {
   "property": "C51",
   "status": "proved",
   "theorems": [
    "Hidefix.Props.C51",
    "Hidefix.Props.C51_bincode"
   ],
   "note": "the parsers are parameters; bincode is modelled"
  },
  {
   "property": "C52",
   "status": "partial",
   "theorems": [
    "Hidefix.Props.C52_partial",
    "Hidefix.Props.C52_exact",
    "Hidefix.Props.C52_values",
    "Hidefix.Props.C57_values_partial",
    "Hidefix.Props.not_C52"
   ],
   "note": "not_C52: numbers in the other byte order lose their class. C52_exact: for every number type and host, the class survives exactly for the byte order of the host, and XDR is right exactly for those and for big-endian numbers of 4 or 8 bytes. C52_values: typed reads are right in either order."
  },
  {
   "property": "C53",
   "status": "partial",
   "theorems": [
    "Hidefix.Props.C53_partial",
    "Hidefix.Props.C53_exact",
    "Hidefix.Props.C53_exact_release",
    "Hidefix.Props.stores_of_index",
    "Hidefix.Props.not_C53"
   ],
   "note": "For the usual filter order, no skipped filters, and Good selections. C53_exact, C53_exact_release: for datasets with or without filters (WritableH5) exactly for those (release: sizes below 2^57)."
  },
  {
   "property": "C54",
   "status": "proved",
   "theorems": [
    "Hidefix.Props.C54"
   ],
   "note": "bincode"
  },
  {
   "property": "C55",
   "status": "proved",
   "theorems": [
    "Hidefix.Props.C55",
    "Hidefix.Props.C55_names"
   ],
   "note": ""
  },
  {
   "property": "C56",
   "status": "proved",
   "theorems": [
    "Hidefix.Props.C56",
    "Hidefix.Props.C56_opens"
   ],
   "note": ""
  },
  {
   "property": "C57",
   "status": "partial",
   "theorems": [
    "Hidefix.Props.C57_partial",
    "Hidefix.Props.C57_exact",
    "Hidefix.Props.C57_s3_partial",
    "Hidefix.Props.C57_values_partial",
    "Hidefix.Props.not_C53"
   ],
   "note": "For the usual filter order, no skipped filters, bincode, and Good selections; C57_exact: for the caching reader, exactly for those (release: sizes below 2^57) (what is missing is false: not_C53, not_C01)."
  },
  {
   "property": "C58",
   "status": "partial",
   "theorems": [
    "Hidefix.Props.C58_partial",
    "Hidefix.Props.C58_flexbuffers_partial",
    "Hidefix.Props.C58_success",
    "Hidefix.Props.C58_listing"
   ],
   "note": "bincode; if flexbuffers is compiled in too, it is assumed to reject what bincode wrote. C58_flexbuffers_partial: with flexbuffers, if it gives back the tree it was given up to the order of map entries, without the case of an interruption."
  },
  {
   "property": "C59",
   "status": "proved",
   "theorems": [
    "Hidefix.Props.C59_refused",
    "Hidefix.Props.C59_pieces",
    "Hidefix.Props.C59_dyn_refused",
    "Hidefix.Props.C09_par"
   ],
   "note": "C59_pieces is about readers that read the selection right (C01); C59_dyn_refused about readers that refuse short buffers (C09)."
  },
  {
   "property": "C60",
   "status": "partial",
   "theorems": [
    "Hidefix.Props.C60_partial",
    "Hidefix.Props.C60_items",
    "Hidefix.Props.C60_exact",
    "Hidefix.Props.C60_exact_release",
    "Hidefix.Props.not_C60_refused",
    "Hidefix.Props.not_C12"
   ],
   "note": "For Good selections; C60_exact, C60_exact_release: exactly for those (data with or without filters, Spec.Writable; release: sizes below 2^57). not_C60_refused: a larger type is not refused if the run of elements happens to have a fitting length."
  },
  {
   "property": "C61",
   "status": "partial",
   "theorems": [
    "Hidefix.Props.C61_partial",
    "Hidefix.Props.not_C61",
    "Hidefix.Props.C68_floats"
   ],
   "note": "As C39 (what is missing there is false), and not_C61: a variable of integers with a fill value can never be read."
  },
  {
   "property": "C62",
   "status": "partial",
   "theorems": [
    "Hidefix.Props.C62_partial",
    "Hidefix.Props.C62_found",
    "Hidefix.Props.not_C62",
    "Hidefix.Props.not_C62_unknown"
   ],
   "note": "C62_partial says exactly when opening succeeds and with what; not_C62: NaN as _FillValue and missing_value makes the whole file unopenable, not_C62_unknown: so does a dataset netCDF4 does not show."
  },
  {
   "property": "C63",
   "status": "proved",
   "theorems": [
    "Hidefix.Props.C63_direct",
    "Hidefix.Props.C63_par",
    "Hidefix.Props.C63_cached",
    "Hidefix.Props.C63_stream",
    "Hidefix.Props.C63_s3",
    "Hidefix.Props.slices_need"
   ],
   "note": "S3: same success and result (C63_s3); the other readers: everything observable."
  },
  {
   "property": "C64",
   "status": "proved",
   "theorems": [
    "Hidefix.Props.C64_direct",
    "Hidefix.Props.C64_direct_needed",
    "Hidefix.Props.C64_par",
    "Hidefix.Props.C64_par_needed",
    "Hidefix.Props.C64_s3",
    "Hidefix.Props.C64_cached",
    "Hidefix.Props.C64_stream",
    "Hidefix.Props.C64_direct_all_partial",
    "Hidefix.Props.C64_polls",
    "Hidefix.Props.C64_polls_xdr"
   ],
   "note": "C64_direct_all_partial adds, for Good selections, that every needed chunk is read. C64_polls: streams as they are polled, over their whole life, whatever the file holds at each poll."
  },
  {
   "property": "C65",
   "status": "proved",
   "theorems": [
    "Hidefix.Props.C65",
    "Hidefix.Props.warm_read"
   ],
   "note": ""
  },
  {
   "property": "C66",
   "status": "proved",
   "theorems": [
    "Hidefix.Props.C66_direct",
    "Hidefix.Props.C66_par",
    "Hidefix.Props.C66_par_bytes",
    "Hidefix.Props.C66_cached",
    "Hidefix.Props.C66_stream",
    "Hidefix.Props.C66_s3"
   ],
   "note": "An operation that fails fails with the I/O error; short reads that succeed are retried by read_exact."
  },
  {
   "property": "C67",
   "status": "proved",
   "theorems": [
    "Hidefix.Props.C67"
   ],
   "note": ""
  },
  {
   "property": "C68",
   "status": "proved",
   "theorems": [
    "Hidefix.Props.C68_ints",
    "Hidefix.Props.C68_floats",
    "Hidefix.Props.C68_floats_refused",
    "Hidefix.Props.C41"
   ],
   "note": "The conversion of a double to a single (Rust: as f32) is a parameter. The array is one of the element type of the dataset."
  },
  {
   "property": "C69",
   "status": "proved",
   "theorems": [
    "Hidefix.Props.C69_answers",
    "Hidefix.Props.C69_answers_xdr",
    "Hidefix.Props.C69_reads",
    "Hidefix.Props.C69_reads_xdr",
    "Hidefix.Props.C69_slice",
    "Hidefix.Props.C69_slice_xdr",
    "Hidefix.Props.C69_so_far",
    "Hidefix.Props.C69_so_far_xdr",
    "Hidefix.Props.C69_due",
    "Hidefix.Props.C69_fetches"
   ],
   "note": "C69_fetches: together the polls read what the stream consumed to its end reads."
  },
  {
   "property": "C70",
   "status": "partial",
   "theorems": [
    "Hidefix.Props.C70_local",
    "Hidefix.Props.C70_stream",
    "Hidefix.Props.C70_s3",
    "Hidefix.Props.C70_values",
    "Hidefix.Props.C70_python",
    "Hidefix.Props.C70_filters",
    "Hidefix.Props.C70_index",
    "Hidefix.Props.C70_index_file",
    "Hidefix.Props.C70_par_partial",
    "Hidefix.Props.not_C70",
    "Hidefix.Props.C89_par"
   ],
   "note": "Everything but the parallel reader is free of undefined behaviour for every input whatsoever; the parallel reader in debug builds, and in release builds for selections that are sliced right (C70_par_partial); not_C70: not otherwise. The pointer casts of chunk.rs (layout, alignment 1) are trusted; uninitialised memory is C24 and C40. C89: also all selections of datasets whose chunks fit and are not thin, right or not."
  },
  {
   "property": "C71",
   "status": "proved",
   "theorems": [
    "Hidefix.Props.C71",
    "Hidefix.Props.C71_cached",
    "Hidefix.Props.C71_stream"
   ],
   "note": "That a reader shares nothing with another is read off the types (each owns its handle and cache, the dataset is borrowed immutably); the model has one state per handle."
  },
  {
   "property": "C72",
   "status": "partial",
   "theorems": [
    "Hidefix.Props.C72_partial",
    "Hidefix.Props.C72_same",
    "Hidefix.Props.C72_opens",
    "Hidefix.Props.not_C72"
   ],
   "note": "Proved for absolute paths. False for relative ones (not_C72): the index keeps the path as it was given, and a reader made after a change of the working directory opens another file without an error. That hdf5 and netcdf report the path they were given (H5Fget_name, nc_inq_path) is an assumption of the model."
  },
  {
   "property": "C73",
   "status": "proved",
   "theorems": [
    "Hidefix.Props.C73"
   ],
   "note": "Paths are bytes on a POSIX system; os.path.splitext is modelled from its documentation and source."
  },
  {
   "property": "C74",
   "status": "partial",
   "theorems": [
    "Hidefix.Props.C74_cache",
    "Hidefix.Props.C74_stream",
    "Hidefix.Props.C74_xdr_partial",
    "Hidefix.Props.not_C74"
   ],
   "note": "The caching reader and the plain stream: always, if chunks stored without compression are not larger than a chunk. XDR: within the factor of the widening; not_C74: a stream of 8-bit numbers in chunks of 16 MiB holds 128 MiB. Counted are the bytes of the chunks, not the tables of the lru crate."
  },
  {
   "property": "C75",
   "status": "proved",
   "theorems": [
    "Hidefix.Props.C75_selection",
    "Hidefix.Props.C75_index",
    "Hidefix.Props.C75_dataset",
    "Hidefix.Props.C75_open",
    "Hidefix.Props.C75_read",
    "Hidefix.Props.C75_par",
    "Hidefix.Props.C75_stream",
    "Hidefix.Props.C75_values",
    "Hidefix.Props.C75_python",
    "Hidefix.Props.C75_session",
    "Hidefix.Props.C75_poll"
   ],
   "note": "No assumption on the arguments. C44 asks for more (that release builds fail where debug builds panic), which is false."
  },
  {
   "property": "C76",
   "status": "proved",
   "theorems": [
    "Hidefix.Props.C76"
   ],
   "note": "The part of C12 (with C13, C17) that is true."
  },
  {
   "property": "C77",
   "status": "proved",
   "theorems": [
    "Hidefix.Props.C77_read",
    "Hidefix.Props.C77_stream",
    "Hidefix.Props.C77_xdr",
    "Hidefix.Props.C77_values",
    "Hidefix.Props.C77_file",
    "Hidefix.Props.C77_python",
    "Hidefix.Props.common_good"
   ],
   "note": "Spec/Common.lean defines the selections. Hypotheses of the single theorems: streams not on a current-thread runtime (C15_current_thread); XDR of the types that indexing produces; typed values: integers, or a little-endian host (not_C22); Python: no item -1 (not_C39); a file: filters in the usual order and no filter masks (C53)."
  },
  {
   "property": "C78",
   "status": "proved",
   "theorems": [
    "Hidefix.Props.C78_slices",
    "Hidefix.Props.C78_read",
    "Hidefix.Props.C78_stream",
    "Hidefix.Props.C78_values",
    "Hidefix.Props.C78_values_par",
    "Hidefix.Props.C78_index"
   ],
   "note": "The part of C05 that is true, carried through the API."
  },
  {
   "property": "C79",
   "status": "proved",
   "theorems": [
    "Hidefix.Props.C79_sequential",
    "Hidefix.Props.C79_index",
    "Hidefix.Props.C79_parallel",
    "Hidefix.Props.C79_parallel_values"
   ],
   "note": "The part of C70 that is true."
  },
  {
   "property": "C80",
   "status": "proved",
   "theorems": [
    "Hidefix.Props.C80_overlap",
    "Hidefix.Props.C80_same",
    "Hidefix.Props.C80_split",
    "Hidefix.Props.C80_elements"
   ],
   "note": "For the selections of C77 and files whose chunks decode to full blocks (Spec/Returned.lean: Intact). Nothing is assumed about what the right bytes are: the array is constructed from the chunks."
  },
  {
   "property": "C81",
   "status": "proved",
   "theorems": [
    "Hidefix.Props.C81",
    "Hidefix.Props.C81_once",
    "Hidefix.Props.C81_count"
   ],
   "note": "Every call has its own file contents, faults and decompressor; also calls that fail are counted. Strengthens C64/C65 from one call to the whole life of a reader."
  },
  {
   "property": "C82",
   "status": "proved",
   "theorems": [
    "Hidefix.Props.C82",
    "Hidefix.Props.C82_kept",
    "Hidefix.Props.C82_values",
    "Hidefix.Props.C82_lost"
   ],
   "note": "Every profile, file, schedule, and selection numpy accepts, also empty ones and a literal -1. C82_lost: concrete reads which lose or gain a dimension. The values are those of C39."
  },
  {
   "property": "C83",
   "status": "proved",
   "theorems": [
    "Hidefix.Props.C83",
    "Hidefix.Props.C83_ends",
    "Hidefix.Props.C83_order",
    "Hidefix.Props.C83_some",
    "Hidefix.Props.C83_memory",
    "Hidefix.Props.C83_dropped",
    "Hidefix.Props.C83_stored"
   ],
   "note": "Events: starting a request, handling a response; the order of completion is up to the network. C83_order: every call of this model is a call of the model with a given order, so C17, C19, C66 and C76 hold for it. C83_memory counts the answers of servers that send no more than asked for, not what is decoded. The semantics of buffer_unordered (futures crate) is taken from its documentation."
  },
  {
   "property": "C84",
   "status": "proved",
   "theorems": [
    "Hidefix.Props.C84",
    "Hidefix.Props.C84_all_partial"
   ],
   "note": "Chunks of the file that do not overlap. C84_all_partial adds, for Good selections, that requests are sent and every needed chunk is in one."
  },
  {
   "property": "C85",
   "status": "proved",
   "theorems": [
    "Hidefix.Props.C85_slices",
    "Hidefix.Props.C85_direct",
    "Hidefix.Props.C85_cache",
    "Hidefix.Props.C85_par",
    "Hidefix.Props.C85_s3",
    "Hidefix.Props.C85_stream",
    "Hidefix.Props.C85_contiguous",
    "Hidefix.Props.C85_thick",
    "Hidefix.Props.C85_whole_rows"
   ],
   "note": "Both build profiles. No shape is excluded. The common selections of C77 (whose theorems cover XDR, typed values, files and Python) now contain the right ones of these as a seventh kind. C85_thick: if the last two dimensions of the chunk are not both 1 the second kind of misread selection (`Overdrawn`) is of the first kind (`SingledOut`). C85_whole_rows: whole rows (planes, ...) are of neither kind. not_C01_channels: part of the second dimension of a contiguous 4x3x1x1 dataset is misread."
  },
  {
   "property": "C86",
   "status": "partial",
   "theorems": [
    "Hidefix.Props.C86_partial",
    "Hidefix.Props.C86_exact",
    "Hidefix.Props.not_C86"
   ],
   "note": "True of datasets in big-endian order and of single bytes; not_C86: false of numbers of several bytes in little-endian order. C86_exact: exactly there (unfiltered data, Good selections)."
  },
  {
   "property": "C87",
   "status": "proved",
   "theorems": [
    "Hidefix.Props.C87_ends",
    "Hidefix.Props.C87_slices",
    "Hidefix.Props.C87_direct",
    "Hidefix.Props.C87_cache",
    "Hidefix.Props.C87_par",
    "Hidefix.Props.C87_s3",
    "Hidefix.Props.C87_stream",
    "Hidefix.Props.C87_lost",
    "Hidefix.Props.C87_lost_debug",
    "Hidefix.Props.uncut_of_dvd",
    "Hidefix.Props.not_thinPair_of",
    "Hidefix.Props.not_C01_grains"
   ],
   "note": "Both build profiles. uncut_of_dvd: every selection is of this kind if the extents of the dataset are multiples of those of its chunks in all dimensions but the first. C87_ends is carried through the API by C78, and the right ones of these selections are one kind of the common selections of C77. Lost is part (a) (Astray) or part (b) (Derailed) of the property; C87_lost: it is part (a), independently of the build, unless one index is taken of each of the two last dimensions and the chunks have extent 1 in both (ThinPair; not_thinPair_of: simple conditions). C87_lost_debug: a release build misreads nothing that a debug build reads right. not_C01_grains: all of a 2x3x1 dataset in chunks of one element cannot be read. Sizes are below 2^57 (2^62 for C87_ends)."
  },
  {
   "property": "C88",
   "status": "proved",
   "theorems": [
    "Hidefix.Props.C88_fewest",
    "Hidefix.Props.C88_fewest_release",
    "Hidefix.Props.C88_fewest_unpinned",
    "Hidefix.Props.C88_good"
   ],
   "note": "C88_good: both profiles, for Good selections, without a size limit. C88_fewest_release: the ranges must not end before they start (a debug build asserts so), which C88_fewest_unpinned shows of all selections that are not pinned (C91)."
  },
  {
   "property": "C89",
   "status": "proved",
   "theorems": [
    "Hidefix.Props.C89_slices",
    "Hidefix.Props.C89_tiles",
    "Hidefix.Props.C89_par",
    "Hidefix.Props.C89_direct",
    "Hidefix.Props.C89_cache",
    "Hidefix.Props.snug_of_dvd",
    "Hidefix.Props.not_C89_thin"
   ],
   "note": "snug_of_dvd: the simple sufficient condition. not_C89_thin: with thin chunks the lengths can add up to more, also if the chunks fit."
  },
  {
   "property": "C90",
   "status": "proved",
   "theorems": [
    "Hidefix.Props.C90_ends",
    "Hidefix.Props.C90_slices",
    "Hidefix.Props.C90_direct",
    "Hidefix.Props.C90_cache",
    "Hidefix.Props.C90_par",
    "Hidefix.Props.C90_s3",
    "Hidefix.Props.C90_stream",
    "Hidefix.Props.C90_whole",
    "Hidefix.Props.not_C90_silent",
    "Hidefix.Proofs.good_matrix_iff"
   ],
   "note": "Both build profiles, chunks cut anywhere. not_C90_silent: reading all of a 3x1 dataset in chunks of 2x2 returns filler in place of values, without error or panic, in debug and release. Sizes are below 2^57 (2^62 for C90_ends). The right ones of these selections are a kind of common selections of C77."
  },
  {
   "property": "C91",
   "status": "proved",
   "theorems": [
    "Hidefix.Props.C91_ends",
    "Hidefix.Props.C91_slices",
    "Hidefix.Props.not_pinned_of",
    "Hidefix.Props.C78_read",
    "Hidefix.Props.C78_stream",
    "Hidefix.Props.not_C91_pinned"
   ],
   "note": "C91_ends is carried through the API by C78 (MustEnd). not_pinned_of: the simple sufficient conditions. not_C91_pinned: the condition is needed."
  },
  {
   "property": "C92",
   "status": "proved",
   "theorems": [
    "Hidefix.Props.C92_direct",
    "Hidefix.Props.C92_cache",
    "Hidefix.Props.C92_values",
    "Hidefix.Props.C92_python"
   ],
   "note": "Spec.Fills, Spec.Tried. In both builds, also for selections that are misread (fits342) or whose slices are longer than they are (cut2015: then a read into memory of exactly its size never succeeds; in the parallel reader that failure may be undefined behaviour, C14). Pinned selections are excluded, in the statement too."
  },
  {
   "property": "C93",
   "status": "proved",
   "theorems": [
    "Hidefix.Props.C93_find",
    "Hidefix.Props.C93_fails",
    "Hidefix.Props.C93_succeeds",
    "Hidefix.Props.C93_unopened",
    "Hidefix.Props.C93_same_name",
    "Hidefix.Props.C93_tree",
    "Hidefix.Props.not_C93"
   ],
   "note": "C93_find is if and only if; with C93_fails and C93_succeeds the outcome is determined. C93_unopened, not_C93: what cannot be opened is left out without an error. C93_same_name: the case Named excludes. C93_tree: for files whose groups form a tree this model is that of the other properties (C38)."
  },
  {
   "property": "C94",
   "status": "proved",
   "theorems": [
    "Hidefix.Props.C94_ends",
    "Hidefix.Props.C94_endless",
    "Hidefix.Props.C94_cycle",
    "Hidefix.Props.not_C94"
   ],
   "note": "Ends exactly if there is no endless chain of groups (given that the HDF5 library answers). not_C94: a group with a link to its parent: the recursion of the code, without end, overflows the stack."
  },
  {
   "property": "C95",
   "status": "proved",
   "theorems": [
    "Hidefix.Props.C95_shown",
    "Hidefix.Props.C95_opens",
    "Hidefix.Props.C95_elsewhere",
    "Hidefix.Props.not_C95_root",
    "Hidefix.Props.not_C95_unwritten"
   ],
   "note": "The answers of HDF5 and netCDF4 are parameters; C62 is the same from the index on. not_C95_root: with group=\"/\" a file opens without any variable. not_C95_unwritten: a variable that was never written to is missing."
  },
  {
   "property": "C96",
   "status": "partial",
   "theorems": [
    "Hidefix.Props.C96_partial",
    "Hidefix.Props.C96_keys_partial",
    "Hidefix.Props.C96_points_partial",
    "Hidefix.Props.C96_foreign"
   ],
   "note": "C96_keys_partial and C96_points_partial are the same for the keys xarray hands to a variable (C97, C98). The usual filter order, no skipped filters, good selections, numbers in the byte order of the host, keys as in C39; what is missing is false: not_C53, not_C01, not_C39_last, not_C61, and numbers in the other byte order cannot be read from Python (not_C52, C96_foreign)."
  },
  {
   "property": "C97",
   "status": "partial",
   "theorems": [
    "Hidefix.Props.C97_partial",
    "Hidefix.Props.C97_scalar",
    "Hidefix.Props.C97_fails",
    "Hidefix.Props.not_C97",
    "Hidefix.Props.C97_steps",
    "Hidefix.Props.C97_empty"
   ],
   "note": "Steps of 1 and -1, nothing selected empty, keys that keep their dimensions, and good selections as in C39 and C61; what is missing is false: C97_fails and not_C97 (a dimension of size 1 next to another one: the read raises), C97_steps (other steps raise), C97_scalar (integers only: an array of shape (1,)), C97_empty (uninitialised memory), not_C61, not_C01. What xarray does with a key is modelled from its documented behaviour; keys with two or more arrays that do not fit are left open (a parameter). Vectorized keys: C98."
  },
  {
   "property": "C98",
   "status": "partial",
   "theorems": [
    "Hidefix.Props.C98_partial",
    "Hidefix.Props.C98_fails",
    "Hidefix.Props.not_C98",
    "Hidefix.Props.C98_none"
   ],
   "note": "Points spread over every dimension (or one dimension only), and good selections as in C39 and C61 from the first to the last index of every dimension; what is missing is false: C98_fails (points that share their index in one of two or more dimensions, so every single point, not_C98: the read raises), C98_none (no points: it raises), not_C61, not_C01. What xarray does with a key is modelled from its documented behaviour; keys with slices next to arrays are not modelled."
  }
 ]
}