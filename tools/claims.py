c('C01','partial','C01_cache_partial C01_cache_open C01_direct_partial C01_par_partial C01_rank_two_partial C01_whole_partial C01_exact_direct C01_exact_cache C01_exact_par C01_exact_direct_release C01_exact_cache_release C01_exact_par_release C01_exact_s3 C01_exact_s3_release C16_partial not_C01 not_C01_whole',
  'Proved for selections of a shape that is decidable from the selection and the chunk shape (Spec.Good; good_last_dim gives the common case). The unrestricted statement is false of the code: not_C01 ([.., 0, ..] of a contiguous 2x4x2 dataset) and not_C01_whole (all of a 2x3x2 dataset in chunks of 2x2x2) return Ok with wrong bytes in debug and release. C01_rank_two_partial and C01_whole_partial restate the condition readably for rank 2 and for whole reads. C01_exact_*: the reads are right for every content of a file (filtered or not, of which each chunk has room for the contents the proof needs: Spec.Writable) exactly if the selection is Good (release: sizes below 2^57).')
c('C02','partial','C02_partial C02_exact C02_exact_release C91_slices C02_bad not_C02 C02_attainable C02_unique','C02_attainable, C02_unique: for every selection there is exactly one right enumeration, up to how it is cut into slices. Proved for Spec.Good selections; not_C02 refutes the unrestricted statement (slicer bug). C02_exact, C02_exact_release: in debug and in release builds the claim holds exactly for the Good selections of that build (release: when no range ends before it starts, sizes below 2^62; C91_slices: no range does if the selection is not pinned).')
c('C03','proved','C03_last_dim C03_rank_one C03_one_chunk C03_rank_two C03_whole_chunks','')
c('C04','proved','C04','')
c('C05','partial','C05_debug C05_partial C87_ends C90_ends C91_ends C89_slices not_C05_wf not_C91_pinned not_C05_release','Debug: every dataset and selection. Release: well-formed datasets with Good selections; not_C05_wf: reading all of a well-formed 2x5x1x1 dataset in chunks of 1x2x6x1 never ends in release; not_C05_release: a malformed dataset. C87_ends: release builds end on all selections, also misread ones, that meet no chunk cut in another dimension than the first and the last, so on all datasets of rank at most 2 (C90_ends). C91_ends: on all selections of well-formed datasets that are not pinned; not_C91_pinned: and not on all of those, even if the chunks fit.')
c('C06','proved','C06 C06_overflow C06_debug C06_release','C06_debug: in debug builds without exception, no slice but perhaps a panic. C06_release: the exception in release builds, slices outside the dataset for ever.')
c('C07','partial','C07_cache_partial C07_direct_partial C92_direct C92_cache not_C07 C07_outside','False for out-of-bounds selections (not_C07: Ok(n) with nothing written); proved for in-bounds selections that are checked. C07_outside: every reader does this for every selection that reaches past the end. Checked selections include the ones of C89. C92: also in release builds, for every selection that is not pinned.')
c('C08','partial','C08_cache_partial C08_direct_partial C08_par_partial not_C08 C89_par C89_direct C89_cache','Cache and direct for all checked builds; not_C08: release builds overrun the reported size with a selection that is not Good. C89: also all selections of datasets whose chunks fit and are not thin, right or not.')
c('C09','proved','C09_cache C09_direct C09_par C09_s3 C09_size C09_bytes C09_every','C09_every: all readers at once, every dataset and selection, in terms of the number of selected elements.')
c('C10','proved','C10','')
c('C11','proved','C11','')
c('C12','partial','C12_destination C12_stream C12_partial C12_stream_partial not_C12','The destination readers agree for every dataset, selection and destination, in debug and release builds (C12_destination); the stream agrees with them exactly when what it yields fits the destination (C12_stream). not_C12: in release builds a stream can yield more bytes than the selection has, without error, where the other readers panic. C12_partial includes the selections of C89.')
c('C13','proved','C13 C13_partial not_C13','For every dataset, selection, destination and schedule, debug and release. not_C13 records that the kind of failure may differ (sequential panic, parallel undefined behaviour).')
c('C14','partial','C14_partial C14_ranges_partial not_C14 C89_par','For checked reads; not_C14: in release an in-bounds selection makes the unchecked copy leave the destination. C89: also all selections of datasets whose chunks fit and are not thin, right or not.')
c('C15','partial','C15_partial C15_prefix_partial C15_exact C15_exact_release C15_current_thread not_C12','For Good selections; C15_exact, C15_exact_release: exactly for those (data with or without filters, Spec.Writable; release: sizes below 2^57); not_C12: release builds stream more bytes than selected. C15_current_thread: inside a current-thread tokio runtime the stream panics.')
c('C16','partial','C16_partial C23_types not_C16 not_C16_half C16_elements C16_exact C16_exact_release','For Good selections; not_C16: wrong elements otherwise. Element types: those indexing produces (C23_types); not_C16_half: 16-bit floats in a handmade index are misread. C16_elements: for every selection inside the dataset the XDR stream of a debug build is the XDR encoding of the plain stream. C16_exact, C16_exact_release: exactly for the Good selections (data with or without filters, Spec.Writable; release: sizes below 2^57).')
c('C17','proved','C17 C17_partial C17_stored_partial','For every dataset whose chunks take at least one byte, every selection, destination and completion order, debug and release.')
c('C18','proved','C18','')
c('C19','proved','C19_honest C19_usable C19_partial C19_usable_partial C19_refused_partial','For every dataset whose chunks take at least one byte, every selection, destination and server, debug and release.')
c('C23','proved','C23 C23_length C23_types C23_swap C23_swap_else C23_other','C23_swap, C23_swap_else, C23_other: all other types.')
c('C42','proved','C42','')
c('C44','partial','C44_cache_partial C44_open_partial C44_direct_partial C44_par_partial C44_stream_partial C44_xdr_partial C44_values_partial C44_good_partial setup_release not_C44','A debug success is the release result; for Good selections both succeed alike. not_C44: the slicer bug panics in debug and returns wrong bytes in release.')
c('C45','proved','C45 C45_shuffled C45_unshuffled','')
c('C46','partial','C46_partial C46_read_partial C46_short not_C46','A chunk that decompresses to more bytes than the chunk size, or not at all, makes the read fail; not_C46: one that decompresses to fewer bytes is accepted. C46_short: exactly as if the missing bytes were zeros.')
c('C48','partial','C48_debug C48_partial sortByAddr_ok not_C48 C89_tiles','Debug: always. Release: Good selections; not_C48: otherwise false. C89: also all selections of datasets whose chunks fit and are not thin, right or not.')
c('C49','partial','C49_partial C49_intact_partial C49_missing C49_missing_par C49_outside C49_truncated_direct C49_truncated_direct_bytes C49_truncated_par C49_truncated_par_bytes C49_truncated_cached C49_truncated_history C49_truncated_stream not_C49','The second sentence is proved in full (C49_truncated_*: every dataset, selection and cut). C49_outside: what a chunk outside the file gives (an error, from 2^63 bytes on a panic). For Good selections; not_C49: otherwise a needed chunk may not be read at all, so its absence goes unnoticed.')
c('C50','proved','C50 C50_scalar C50_any C50_read C50_python','')
c('C20','proved','C20 C20_structured C20_positions C20_mismatch','')
c('C21','proved','C21 C21_rejects','')
c('C22','partial','C22_partial C22_integers C22_involution C22_one_partial C22_exact not_C22','All but little-endian floats on big-endian hosts, which are never converted (not_C22); C22_exact: that is the only exception.')
c('C24','partial','C24_cache_partial C24_direct_partial C24_par_partial values_right C24_too_large C57_values_partial not_C24 C24_outside C24_unstable_partial C24_unstable_outside C24_exact_direct C24_exact_cache C24_exact_par C24_exact_dyn_par C24_exact_direct_release C24_exact_cache_release C24_exact_par_release C24_exact_dyn_par_release','For Good selections. not_C24: values_dyn_par returns uninitialised memory for an out-of-range selection. C24_outside: for every selection that reaches past the end values returns zeros and values_dyn_par uninitialised memory. C24_unstable_*: builds with the feature unstable, in which values too returns uninitialised memory there. C24_exact_*: in debug builds the values are right whatever the file holds exactly for the Good selections (data with or without filters, Spec.Writable); C24_exact_*_release: the same for release builds, for sizes below 2^57.')
c('C25','partial','C25_partial not_C25','not_C25: values_to returns a number of bytes and swaps the rest of the buffer.')
c('C26','partial','C26_partial C26_full C26_single not_C26 C26_release C26_debug','All but inclusive ranges up to u64::MAX. C26_release and C26_debug say exactly what happens with those.')
c('C27','partial','C27_cache C27_direct C27_par C27_s3 C27_values not_C27','not_C27: chunk_slices and the streams panic.')
c('C28','proved','C28 C28_starts_counts','')
c('C29','proved','C29 C29_laws C29_eq C29_eq_differs sortChunks_spec','')
c('C30','partial','C30_partial C30_rank C30_grid not_C30 C30_exact','All chunks that end below 2^64; not_C30: overflow otherwise. C30_exact: Equal is answered exactly for the points of the box if the box ends below 2^64, and never wrongly.')
c('C31','proved','C31 C31_one','')
c('C34','partial','C34_partial C34_wf C34_complete not_C35','Debug: always; release: fewer than 2^64 cells.')
c('C35','partial','C35_partial C35_error not_C35 C35_release C35_debug','Debug: always; release: fewer than 2^64 cells. not_C35: the product wraps. C35_release: release builds compare modulo 2^64, exactly; C35_debug: debug builds panic from 2^64 cells on.')
c('C36','proved','C36 C36_any','')
c('C37','proved','C37 C37_any C37_dataset not_C37','All paths with at least one name; the root is not reachable as a path (not_C37), as the property says.')
c('C38','proved','C38 C38_groups C38_fails C38_succeeds','')
c('C43','partial','C43_partial not_C43_any not_C43 C43_exact','valid accepts well-formed datasets; not_C43: it accepts everything else as well. C43_exact: exactly what valid() checks.')
c('C47','partial','C47 C47_rejects C47_rank not_C47','The statement holds; not_C47: filter order and masks are lost, so "never misread" does not.')
c('C52','partial','C52_partial C52_exact C52_values C57_values_partial not_C52','not_C52: numbers in the other byte order lose their class. C52_exact: for every number type and host, the class survives exactly for the byte order of the host, and XDR is right exactly for those and for big-endian numbers of 4 or 8 bytes. C52_values: typed reads are right in either order.')
c('C53','partial','C53_partial C53_exact C53_exact_release stores_of_index not_C53','For the usual filter order, no skipped filters, and Good selections. C53_exact, C53_exact_release: for datasets with or without filters (WritableH5) exactly for those (release: sizes below 2^57).')

c('C32','proved','C32 C32_paths C32_indexed C32_tree C32_tree_paths C32_order','bincode byte by byte; flexbuffers as a tree (C32_tree: whatever the order of the entries of maps), its bytes are not modelled. C32_order: the iteration order of hash maps cannot be observed. For all indices whose paths are UTF-8; other paths are an error')
c('C33','partial','C33_partial C33_tree_partial C33_lengths C33_panics C33_lengths_tree C33_panics_tree not_C33_length not_C33_panic','Success gives a proper index, no UB; but wrong array lengths are filled up or cut silently, and malformed chunk bytes or zero divisors panic (counterexamples); C33_lengths and C33_panics: for every dataset, exactly.')
c('C51','proved','C51 C51_bincode','the parsers are parameters; bincode is modelled')
c('C54','proved','C54','bincode')

c('C39','partial','C39_partial C39_select_partial C39_raises C39_too_large not_C39_last not_C39_range not_C39_rank C39_int C39_exact C39_exact_release','Non-empty in-range selections (Good) without a literal -1. not_C39_*: -1 raises, an out-of-range int does not raise, extra items are ignored. C39_int: exactly what any integer selects. C39_exact: in debug builds, among the selections described, exactly the Good ones are read right whatever the file holds; C39_exact_release: release builds, sizes below 2^57.')
c('C40','partial','C40_partial C92_python not_C40 C40_empty','For the selections of C39; C92_python: for every selection inside a well-formed dataset, right or not, that is not pinned. not_C40: an empty slice returns uninitialised memory. C40_empty: every selection that is empty in some dimension returns nothing but uninitialised memory.')
c('C41','proved','C41','')
c('C55','proved','C55 C55_names','')

c('C56','proved','C56 C56_opens','')
c('C57','partial','C57_partial C57_exact C57_s3_partial C57_values_partial not_C53','For the usual filter order, no skipped filters, bincode, and Good selections; C57_exact: for the caching reader, exactly for those (release: sizes below 2^57) (what is missing is false: not_C53, not_C01).')
c('C58','partial','C58_partial C58_flexbuffers_partial C58_success C58_listing','bincode; if flexbuffers is compiled in too, it is assumed to reject what bincode wrote. C58_flexbuffers_partial: with flexbuffers, if it gives back the tree it was given up to the order of map entries, without the case of an interruption.')
c('C59','proved','C59_refused C59_pieces C59_dyn_refused C09_par','C59_pieces is about readers that read the selection right (C01); C59_dyn_refused about readers that refuse short buffers (C09).')
c('C60','partial','C60_partial C60_items C60_exact C60_exact_release not_C60_refused not_C12','For Good selections; C60_exact, C60_exact_release: exactly for those (data with or without filters, Spec.Writable; release: sizes below 2^57). not_C60_refused: a larger type is not refused if the run of elements happens to have a fitting length.')
c('C61','partial','C61_partial not_C61 C68_floats','As C39 (what is missing there is false), and not_C61: a variable of integers with a fill value can never be read.')
c('C62','partial','C62_partial C62_found not_C62 not_C62_unknown','C62_partial says exactly when opening succeeds and with what; not_C62: NaN as _FillValue and missing_value makes the whole file unopenable, not_C62_unknown: so does a dataset netCDF4 does not show.')
c('C63','proved','C63_direct C63_par C63_cached C63_stream C63_s3 slices_need','S3: same success and result (C63_s3); the other readers: everything observable.')
c('C64','proved','C64_direct C64_direct_needed C64_par C64_par_needed C64_s3 C64_cached C64_stream C64_direct_all_partial C64_polls C64_polls_xdr','C64_direct_all_partial adds, for Good selections, that every needed chunk is read. C64_polls: streams as they are polled, over their whole life, whatever the file holds at each poll.')
c('C65','proved','C65 warm_read','')
c('C66','proved','C66_direct C66_par C66_par_bytes C66_cached C66_stream C66_s3','An operation that fails fails with the I/O error; short reads that succeed are retried by read_exact.')
c('C67','proved','C67','')
c('C68','proved','C68_ints C68_floats C68_floats_refused C41','The conversion of a double to a single (Rust: as f32) is a parameter. The array is one of the element type of the dataset.')
c('C69','proved','C69_answers C69_answers_xdr C69_reads C69_reads_xdr C69_slice C69_slice_xdr C69_so_far C69_so_far_xdr C69_due C69_fetches','C69_fetches: together the polls read what the stream consumed to its end reads.')
c('C70','partial','C70_local C70_stream C70_s3 C70_values C70_python C70_filters C70_index C70_index_file C70_par_partial not_C70 C89_par','Everything but the parallel reader is free of undefined behaviour for every input whatsoever; the parallel reader in debug builds, and in release builds for selections that are sliced right (C70_par_partial); not_C70: not otherwise. The pointer casts of chunk.rs (layout, alignment 1) are trusted; uninitialised memory is C24 and C40. C89: also all selections of datasets whose chunks fit and are not thin, right or not.')
c('C71','proved','C71 C71_cached C71_stream','That a reader shares nothing with another is read off the types (each owns its handle and cache, the dataset is borrowed immutably); the model has one state per handle.')
c('C72','partial','C72_partial C72_same C72_opens not_C72','Proved for absolute paths. False for relative ones (not_C72): the index keeps the path as it was given, and a reader made after a change of the working directory opens another file without an error. That hdf5 and netcdf report the path they were given (H5Fget_name, nc_inq_path) is an assumption of the model.')
c('C73','proved','C73','Paths are bytes on a POSIX system; os.path.splitext is modelled from its documentation and source.')
c('C74','partial','C74_cache C74_stream C74_xdr_partial not_C74','The caching reader and the plain stream: always, if chunks stored without compression are not larger than a chunk. XDR: within the factor of the widening; not_C74: a stream of 8-bit numbers in chunks of 16 MiB holds 128 MiB. Counted are the bytes of the chunks, not the tables of the lru crate.')
c('C75','proved','C75_selection C75_index C75_dataset C75_open C75_read C75_par C75_stream C75_values C75_python C75_session C75_poll','No assumption on the arguments. C44 asks for more (that release builds fail where debug builds panic), which is false.')
c('C76','proved','C76','The part of C12 (with C13, C17) that is true.')
c('C77','proved','C77_read C77_stream C77_xdr C77_values C77_file C77_python common_good','Spec/Common.lean defines the selections. Hypotheses of the single theorems: streams not on a current-thread runtime (C15_current_thread); XDR of the types that indexing produces; typed values: integers, or a little-endian host (not_C22); Python: no item -1 (not_C39); a file: filters in the usual order and no filter masks (C53).')
c('C78','proved','C78_slices C78_read C78_stream C78_values C78_values_par C78_index','The part of C05 that is true, carried through the API.')
c('C79','proved','C79_sequential C79_index C79_parallel C79_parallel_values','The part of C70 that is true.')
c('C80','proved','C80_overlap C80_same C80_split C80_elements','For the selections of C77 and files whose chunks decode to full blocks (Spec/Returned.lean: Intact). Nothing is assumed about what the right bytes are: the array is constructed from the chunks.')
c('C81','proved','C81 C81_once C81_count','Every call has its own file contents, faults and decompressor; also calls that fail are counted. Strengthens C64/C65 from one call to the whole life of a reader.')
c('C82','proved','C82 C82_kept C82_values C82_lost','Every profile, file, schedule, and selection numpy accepts, also empty ones and a literal -1. C82_lost: concrete reads which lose or gain a dimension. The values are those of C39.')
c('C83','proved','C83 C83_ends C83_order C83_some C83_memory C83_dropped C83_stored','Events: starting a request, handling a response; the order of completion is up to the network. C83_order: every call of this model is a call of the model with a given order, so C17, C19, C66 and C76 hold for it. C83_memory counts the answers of servers that send no more than asked for, not what is decoded. The semantics of buffer_unordered (futures crate) is taken from its documentation.')
c('C84','proved','C84 C84_all_partial','Chunks of the file that do not overlap. C84_all_partial adds, for Good selections, that requests are sent and every needed chunk is in one.')
c('C85','proved','C85_slices C85_direct C85_cache C85_par C85_s3 C85_stream C85_contiguous C85_thick C85_whole_rows','Both build profiles. No shape is excluded. The common selections of C77 (whose theorems cover XDR, typed values, files and Python) now contain the right ones of these as a seventh kind. C85_thick: if the last two dimensions of the chunk are not both 1 the second kind of misread selection (`Overdrawn`) is of the first kind (`SingledOut`). C85_whole_rows: whole rows (planes, ...) are of neither kind. not_C01_channels: part of the second dimension of a contiguous 4x3x1x1 dataset is misread.')
c('C86','partial','C86_partial C86_exact not_C86','True of datasets in big-endian order and of single bytes; not_C86: false of numbers of several bytes in little-endian order. C86_exact: exactly there (unfiltered data, Good selections).')
c('C87','proved','C87_ends C87_slices C87_direct C87_cache C87_par C87_s3 C87_stream C87_lost C87_lost_debug uncut_of_dvd not_thinPair_of not_C01_grains','Both build profiles. uncut_of_dvd: every selection is of this kind if the extents of the dataset are multiples of those of its chunks in all dimensions but the first. C87_ends is carried through the API by C78, and the right ones of these selections are one kind of the common selections of C77. Lost is part (a) (Astray) or part (b) (Derailed) of the property; C87_lost: it is part (a), independently of the build, unless one index is taken of each of the two last dimensions and the chunks have extent 1 in both (ThinPair; not_thinPair_of: simple conditions). C87_lost_debug: a release build misreads nothing that a debug build reads right. not_C01_grains: all of a 2x3x1 dataset in chunks of one element cannot be read. Sizes are below 2^57 (2^62 for C87_ends).')
c('C88','proved','C88_fewest C88_fewest_release C88_fewest_unpinned C88_good','C88_good: both profiles, for Good selections, without a size limit. C88_fewest_release: the ranges must not end before they start (a debug build asserts so), which C88_fewest_unpinned shows of all selections that are not pinned (C91).')
c('C89','proved','C89_slices C89_tiles C89_par C89_direct C89_cache snug_of_dvd not_C89_thin','snug_of_dvd: the simple sufficient condition. not_C89_thin: with thin chunks the lengths can add up to more, also if the chunks fit.')
c('C90','proved','C90_ends C90_slices C90_direct C90_cache C90_par C90_s3 C90_stream C90_whole not_C90_silent good_matrix_iff','Both build profiles, chunks cut anywhere. not_C90_silent: reading all of a 3x1 dataset in chunks of 2x2 returns filler in place of values, without error or panic, in debug and release. Sizes are below 2^57 (2^62 for C90_ends). The right ones of these selections are a kind of common selections of C77.')
c('C91','proved','C91_ends C91_slices not_pinned_of C78_read C78_stream not_C91_pinned','C91_ends is carried through the API by C78 (MustEnd). not_pinned_of: the simple sufficient conditions. not_C91_pinned: the condition is needed.')
c('C92','proved','C92_direct C92_cache C92_values C92_python','Spec.Fills, Spec.Tried. In both builds, also for selections that are misread (fits342) or whose slices are longer than they are (cut2015: then a read into memory of exactly its size never succeeds; in the parallel reader that failure may be undefined behaviour, C14). Pinned selections are excluded, in the statement too.')
c('C93','proved','C93_find C93_fails C93_succeeds C93_unopened C93_same_name C93_tree not_C93','C93_find is if and only if; with C93_fails and C93_succeeds the outcome is determined. C93_unopened, not_C93: what cannot be opened is left out without an error. C93_same_name: the case Named excludes. C93_tree: for files whose groups form a tree this model is that of the other properties (C38).')
c('C94','proved','C94_ends C94_endless C94_cycle not_C94','Ends exactly if there is no endless chain of groups (given that the HDF5 library answers). not_C94: a group with a link to its parent: the recursion of the code, without end, overflows the stack.')
c('C95','proved','C95_shown C95_opens C95_elsewhere not_C95_root not_C95_unwritten','The answers of HDF5 and netCDF4 are parameters; C62 is the same from the index on. not_C95_root: with group="/" a file opens without any variable. not_C95_unwritten: a variable that was never written to is missing.')
c('C96','partial','C96_partial C96_keys_partial C96_points_partial C96_foreign','C96_keys_partial and C96_points_partial are the same for the keys xarray hands to a variable (C97, C98). The usual filter order, no skipped filters, good selections, numbers in the byte order of the host, keys as in C39; what is missing is false: not_C53, not_C01, not_C39_last, not_C61, and numbers in the other byte order cannot be read from Python (not_C52, C96_foreign).')
c('C97','partial','C97_partial C97_scalar C97_fails not_C97 C97_steps C97_empty','Steps of 1 and -1, nothing selected empty, keys that keep their dimensions, and good selections as in C39 and C61; what is missing is false: C97_fails and not_C97 (a dimension of size 1 next to another one: the read raises), C97_steps (other steps raise), C97_scalar (integers only: an array of shape (1,)), C97_empty (uninitialised memory), not_C61, not_C01. What xarray does with a key is modelled from its documented behaviour; keys with two or more arrays that do not fit are left open (a parameter). Vectorized keys: C98.')
c('C98','partial','C98_partial C98_fails not_C98 C98_none','Points spread over every dimension (or one dimension only), and good selections as in C39 and C61 from the first to the last index of every dimension; what is missing is false: C98_fails (points that share their index in one of two or more dimensions, so every single point, not_C98: the read raises), C98_none (no points: it raises), not_C61, not_C01. What xarray does with a key is modelled from its documented behaviour; keys with slices next to arrays are not modelled.')
