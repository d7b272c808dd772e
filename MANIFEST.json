{
 "claims": [
  {
   "property": "C01",
   "status": "partial",
   "theorems": [
    "Verif.Cdf.C01_close_succeeds",
    "Verif.Cdf.C01_variable_round_trip_partial",
    "Verif.Cdf.C01_negation_duplicate_names",
    "Verif.Cdf.C01_negation_zero_length",
    "Verif.Cdf.C01_negation_signalling_nan",
    "Verif.Cdf.C01_negation_char",
    "Verif.Cdf.C01_negation_string_rows",
    "Verif.Cdf.C01_negation_dim_name"
   ],
   "note": "Proved for every sequence of supported calls (any rank, lengths, bit patterns) with distinct names. The negation theorems show what the code does outside that: duplicate names, empty slices, signalling NaN scalars, non-ASCII characters, string rows longer than the first row, NUL in dimension names."
  },
  {
   "property": "C02",
   "status": "partial",
   "theorems": [
    "Verif.Cdf.C02_attribute_round_trip_partial",
    "Verif.Cdf.C02_negation_v5_globals"
   ],
   "note": "Proved for every ordered map of supported values, global and of variables. Global attributes of version-5 types in a file whose variables do not need version 5 make the file unreadable (negation)."
  },
  {
   "property": "C03",
   "status": "partial",
   "theorems": [
    "Verif.Cdf.C03_data_areas_partial",
    "Verif.Cdf.C03_negation_zero_length"
   ],
   "note": "Areas tile the file from the end of the header to its end and hold the value's bytes. Empty slices break it (negation)."
  },
  {
   "property": "C04",
   "status": "partial",
   "theorems": [
    "Verif.Cdf.C04_version_byte_partial",
    "Verif.Cdf.C04_negation"
   ],
   "note": "Exact for supported sessions; negation: version-5 global attributes in a version-2 file."
  },
  {
   "property": "C05",
   "status": "partial",
   "theorems": [
    "Verif.Cdf.C05_one_length",
    "Verif.Cdf.C05_mismatch_refused",
    "Verif.Cdf.C05_dimensions_resolve_partial",
    "Verif.Cdf.C05_negation"
   ],
   "note": "C05_one_length and C05_mismatch_refused hold for any calls; resolution in the file is shown for supported sessions. Negation: names that differ behind a NUL byte are one name in the file, with the length of the first."
  },
  {
   "property": "C06",
   "status": "partial",
   "theorems": [
    "Verif.Cdf.C06_addAttributes",
    "Verif.Cdf.C06_addVar_partial",
    "Verif.Cdf.C06_negation"
   ],
   "note": "AddAttributes and AddVar refused for a name or attribute leave the writer unchanged; other refusals keep variables and attributes but can leave dimensions behind (negation)."
  },
  {
   "property": "C07",
   "status": "proved",
   "theorems": [
    "Verif.C07_accepted_is_safe",
    "Verif.C07_plain_names_accepted",
    "Verif.C07_rejected_trailing_space",
    "Verif.C07_rejected_empty",
    "Verif.C07_rejected_underscore"
   ],
   "note": "Names as byte strings; Unicode letter tables beyond ASCII are parameters."
  },
  {
   "property": "C08",
   "status": "proved",
   "theorems": [
    "Verif.C08_le_digits",
    "Verif.C08_be_digits",
    "Verif.C08_codec",
    "Verif.C08_stream"
   ],
   "note": ""
  },
  {
   "property": "C09",
   "status": "partial",
   "theorems": [
    "Verif.Cdf.C09_getSlice_partial",
    "Verif.Cdf.C09_negation_record",
    "Verif.Cdf.C09_negation_truncated",
    "Verif.Cdf.C09_negation_empty"
   ],
   "note": "Holds for plain variables whose bytes are in the file; the negation theorems show the code violating it for record variables, truncated files and variables whose data are missing."
  },
  {
   "property": "C10",
   "status": "partial",
   "theorems": [
    "Verif.Cdf.C10_getSliceMD_partial",
    "Verif.Cdf.C10_negation"
   ],
   "note": "Numeric variables with all bytes in the file; negated for character variables of rank >= 2 (the string dimension is not cut)."
  },
  {
   "property": "C11",
   "status": "partial",
   "theorems": [
    "Verif.Cdf.C11_reversed_partial",
    "Verif.Cdf.C11_negation",
    "Verif.Cdf.C11_negation_md",
    "Verif.H5.C11_negation_hdf5",
    "Verif.H5.C11_negation_hdf5_outside",
    "Verif.H5.C11_reversed_hdf5_partial"
   ],
   "note": "Reversed bounds are refused by both readers; end > Len() and begin < 0 are not (negation theorems for both)."
  },
  {
   "property": "C12",
   "status": "partial",
   "theorems": [
    "Verif.Cdf.C12_records_partial",
    "Verif.Cdf.C12_record_size",
    "Verif.Cdf.C09_negation_record"
   ],
   "note": "Whole variable and slices from record 0; GetSlice from record >= 1 panics (C09_negation_record). The record size is tied to the stored sizes (C12_record_size)."
  },
  {
   "property": "C13",
   "status": "partial",
   "theorems": [
    "Verif.Cdf.C13_fill_partial",
    "Verif.Cdf.C13_negation_record"
   ],
   "note": "Fixed-size variables cut at an element boundary; record variables give EOF instead (negation)."
  },
  {
   "property": "C14",
   "status": "proved",
   "theorems": [
    "Verif.C14_fill_chunking",
    "Verif.C14_fillStream",
    "Verif.C14_empty_pattern"
   ],
   "note": ""
  },
  {
   "property": "C15",
   "status": "partial",
   "theorems": [
    "Verif.Cdf.C15_no_panic_partial",
    "Verif.Cdf.C15_negation"
   ],
   "note": "No panic for headers without out-of-range dimension ids and absurd name lengths; negated in general."
  },
  {
   "property": "C16",
   "status": "proved",
   "theorems": [
    "Verif.Cdf.C16_sane"
   ],
   "note": ""
  },
  {
   "property": "C17",
   "status": "proved",
   "theorems": [
    "Verif.Cdf.C17_truncated"
   ],
   "note": "For every file the reader accepts, not only written ones."
  },
  {
   "property": "C18",
   "status": "proved",
   "theorems": [
    "Verif.C18_dispatch",
    "Verif.C18_writer"
   ],
   "note": ""
  },
  {
   "property": "C19",
   "status": "proved",
   "theorems": [
    "Verif.C19_closed_exactly_once",
    "Verif.C19_use_after_close_panics"
   ],
   "note": ""
  },
  {
   "property": "C20",
   "status": "partial",
   "theorems": [
    "Verif.C20_run",
    "Verif.C20_keys_nodup_partial",
    "Verif.C20_negation"
   ],
   "note": "Negated for Add of an existing key, which duplicates it in Keys()."
  },
  {
   "property": "C21",
   "status": "proved",
   "theorems": [
    "Verif.C21_new_ok_iff",
    "Verif.C21_new_keys_get"
   ],
   "note": ""
  },
  {
   "property": "C22",
   "status": "partial",
   "theorems": [
    "Verif.Cdf.C22_history_independent",
    "Verif.Cdf.C22_repeatable",
    "Verif.H5.C22_hdf5_partial",
    "Verif.H5.C22_negation_hdf5"
   ],
   "note": "CDF: any history on the shared handle with arbitrary read-ahead. HDF5: any history of whole reads, slices and boxes through getters of written files, as long as no slice is followed by GetVariable of the same variable; negation for that case, and for a scalar after GetSlice with bounds it does not have."
  },
  {
   "property": "C23",
   "status": "partial",
   "theorems": [
    "Verif.Cdf.C23_type_names_partial",
    "Verif.Cdf.C23_negation_empty_char"
   ],
   "note": "GoType and Type against the type of every value GetSlice/Values returns, all types and ranks. Negation: a character variable of rank three or more without elements comes back as bytes."
  },
  {
   "property": "C24",
   "status": "proved",
   "theorems": [
    "Verif.C24_go_type",
    "Verif.C24_go_type_exact",
    "Verif.C24_cdl_type",
    "Verif.C24_absent"
   ],
   "note": "Go and CDL names for well-typed values of numbers and strings of any depth; exactness of the Go name. Structs and Go arrays (user-defined HDF5 types) and the callbacks of the HDF5 reader are not modelled."
  },
  {
   "property": "C25",
   "status": "proved",
   "theorems": [
    "Verif.H5.C25_writer_and_reader_checksum_agree",
    "Verif.H5.C25_checksum_is_lookup3"
   ],
   "note": "Writer and reader compute the same value on every byte string, and it is Jenkins' lookup3 written separately over bit vectors."
  },
  {
   "property": "C26",
   "status": "proved",
   "theorems": [
    "Verif.H5.C26_superblock_round_trip",
    "Verif.H5.C26_truncation_refused",
    "Verif.H5.C26_bad_signature_refused",
    "Verif.H5.C26_wrong_checksum_refused"
   ],
   "note": "Version 2 superblock as written, followed by any bytes; other superblock versions of the reader are modelled but not in the theorem."
  },
  {
   "property": "C27",
   "status": "partial",
   "theorems": [
    "Verif.H5.C27_unshuffle_inverse_partial",
    "Verif.H5.C27_whole_elements_partial",
    "Verif.H5.C27_reader_partial",
    "Verif.H5.C27_negation"
   ],
   "note": "Whole elements and any buffer sizes; a chunk whose size is not a multiple of the element size loses its trailing bytes (negation)."
  },
  {
   "property": "C28",
   "status": "partial",
   "theorems": [
    "Verif.H5.C28_fletcher_partial",
    "Verif.H5.C28_only_data",
    "Verif.H5.C28_negation_sum",
    "Verif.H5.C28_negation_reread"
   ],
   "note": "Even sizes with non-zero sums; negated for the residue 0 against 0xFFFF convention and for odd sizes read to the end with a zero-length read."
  },
  {
   "property": "C29",
   "status": "partial",
   "theorems": [
    "Verif.H5.C29_chunked_values_partial",
    "Verif.H5.C29_rank_two_partial",
    "Verif.H5.C29_negation"
   ],
   "note": "Every shape, element type (numbers, fixed and variable-length strings, sequences of numbers), fill value, filter pipeline, index tree and set of missing chunks, for chunk shapes whose stripes are in order: all with at most two dimensions, and with more those that are 1 along a dimension or cover the later ones. Negation: chunks of 2x1x1 in 2x2x1 give the elements in the wrong order. Compound, enum, opaque, reference and array elements: C55. Reading through the API (GetVariable) is not part of this theorem."
  },
  {
   "property": "C30",
   "status": "proved",
   "theorems": [
    "Verif.H5.C30_pruning_keeps_overlapping"
   ],
   "note": "Every index tree whose inner keys are ordered, every shape, chunk shape and slice; stated on the object without cached chunks. What happens with chunks cached from an earlier slice is part of C44."
  },
  {
   "property": "C31",
   "status": "partial",
   "theorems": [
    "Verif.H5.C31_stream",
    "Verif.H5.C31_order_independent",
    "Verif.H5.C31_slice_partial",
    "Verif.H5.C31_negation_slice"
   ],
   "note": "Whole variables: every set of disjoint blocks in any order. Slices: only when no block behind the slice is listed before one that is not; negation for the other orders."
  },
  {
   "property": "C32",
   "status": "partial",
   "theorems": [
    "Verif.H5.C32_heap_round_trip_partial",
    "Verif.H5.C32_heap_no_other_index",
    "Verif.H5.C32_cache_transparent",
    "Verif.H5.C32_negation_65536_objects",
    "Verif.H5.C32_negation_dimref_string",
    "Verif.H5.C32_negation_cache_after_error"
   ],
   "note": "All sequences of heap calls with at most 65535 objects and no string of the reserved form; negated for the 65536th object, for a string '__dimref:x', and for lookups after a failed parse."
  },
  {
   "property": "C33",
   "status": "proved",
   "theorems": [
    "Verif.H5.C33_dataspace_round_trip",
    "Verif.H5.C33_rank_256_is_scalar"
   ],
   "note": "Ranks 0 to 255; C33_rank_256_is_scalar shows the rank byte wrapping."
  },
  {
   "property": "C34",
   "status": "partial",
   "theorems": [
    "Verif.H5.C34_datatype_round_trip_partial",
    "Verif.H5.C34_datatype_stops_at_end_partial",
    "Verif.H5.C34_members_consecutive",
    "Verif.H5.C34_negation_big_endian_host",
    "Verif.H5.C34_negation_opaque_not_last",
    "Verif.H5.C34_negation_offset_width",
    "Verif.H5.C34_negation_256_members"
   ],
   "note": "All types nested without bound on a little-endian host, except those the code fails on: opaque before the end, compounds of 65536..16777215 bytes or without 1..255 members, NUL in names, big-endian hosts (negations for each but the NUL)."
  },
  {
   "property": "C35",
   "status": "partial",
   "theorems": [
    "Verif.H5.C35_attribute_message_partial",
    "Verif.H5.C35_negation_nul_in_name",
    "Verif.H5.C35_attribute_round_trip_partial",
    "Verif.H5.C35_negation_one_element",
    "Verif.H5.C35_negation_empty_floats",
    "Verif.H5.C35_negation_empty_rows",
    "Verif.H5.C35_negation_late_ragged",
    "Verif.H5.C35_negation_nul_in_string"
   ],
   "note": "From collecting strings and sequences to reading the value, for numbers, strings, their arrays and arrays of sequences of different lengths; one-element slices come back unwrapped. Negated for one-element slices, empty float slices, empty [][]T, late ragged arrays, NUL in names or strings."
  },
  {
   "property": "C36",
   "status": "partial",
   "theorems": [
    "Verif.H5.C36_link_round_trip_partial",
    "Verif.H5.C36_negation_256_bytes"
   ],
   "note": "Names of 1 to 255 bytes; negated for 256 bytes (length byte truncated)."
  },
  {
   "property": "C37",
   "status": "partial",
   "theorems": [
    "Verif.H5.C37_messages_in_order_partial",
    "Verif.H5.C37_negation_long_message"
   ],
   "note": "Messages of at most 65535 bytes, headers below 4 GiB; the negation theorem shows a longer message being lost (its length is stored in two bytes)."
  },
  {
   "property": "C38",
   "status": "partial",
   "theorems": [
    "Verif.H5.C38_round_trip_partial",
    "Verif.H5.C38_added_variable_partial",
    "Verif.H5.C38_added_attributes_partial",
    "Verif.H5.C38_layout_message_partial",
    "Verif.H5.C38_negation_nul",
    "Verif.H5.C38_negation_empty",
    "Verif.H5.C38_negation_panic",
    "Verif.H5.C38_negation_class"
   ],
   "note": "Every history of calls on the writer that leaves contents within FileAllowed (Spec/H5File): numbers and strings of any rank, sequences, attributes of strings and numbers, nested groups, dimensions; every map order; every absolute path and every sequence of reads. Compound, opaque and enum values: C61. Missing: contents outside FileAllowed, several of which Close writes although they cannot be read back (negations in Props/H5*). Negations: strings with a NUL byte are cut there, empty arrays with several dimensions come back with one, empty arrays of sequences and such attributes panic, a variable with an attribute CLASS disappears."
  },
  {
   "property": "C39",
   "status": "partial",
   "theorems": [
    "Verif.H5.C39_absolute",
    "Verif.H5.C39_relative_partial",
    "Verif.H5.C39_every_path",
    "Verif.H5.C39_slashes_do_not_matter",
    "Verif.H5.C39_negation_empty"
   ],
   "note": "Every tree of groups and every path of non-empty names: absolute and relative paths lead to the group one finds by following the names, repeated and trailing slashes do not matter. The empty relative path is not found (C39_negation_empty), so the relative theorem asks for at least one name."
  },
  {
   "property": "C40",
   "status": "partial",
   "theorems": [
    "Verif.H5.C40_isolation",
    "Verif.H5.C40_no_deadlock",
    "Verif.H5.C40_closed_with_the_last_group_partial",
    "Verif.H5.C40_no_crash_partial",
    "Verif.H5.C40_negation"
   ],
   "note": "All interleavings of the accesses of any number of readers (Read, ReadAt, GetGroup, Close) are covered for the bytes read and for the absence of deadlocks. The reference count is right only when no other group is opened or closed while GetGroup runs (C40_negation: the increment at readers.go:262 is not under the lock), hence partial."
  },
  {
   "property": "C41",
   "status": "partial",
   "theorems": [
    "Verif.H5.C41_map_order_partial",
    "Verif.H5.C41_map_order_types_partial"
   ],
   "note": "Same contents as C38 and, with values of user-defined types, those of C61, for every two orders of every map iteration of the writer (and of the reader). Missing: contents outside FileAllowed and FileStored; attributes that are compounds with one member."
  },
  {
   "property": "C42",
   "status": "partial",
   "theorems": [
    "Verif.H5.C42_dimension_names_partial",
    "Verif.H5.C42_dimension_names_types_partial",
    "Verif.H5.C42_negation_coordinate",
    "Verif.H5.C42_negation_empty_name"
   ],
   "note": "Same contents as C38 and C61. Negations: an empty dimension name loses all of them; a root variable with the name of a dimension but other dimensions loses them."
  },
  {
   "property": "C43",
   "status": "proved",
   "theorems": [
    "Verif.H5.C43_unique_names",
    "Verif.H5.C43_create_existing",
    "Verif.H5.C43_create_new",
    "Verif.H5.C43_add_var"
   ],
   "note": "All histories of CreateGroup, AddVar and AddAttributes."
  },
  {
   "property": "C44",
   "status": "partial",
   "theorems": [
    "Verif.H5.C44_chunked_partial",
    "Verif.H5.C44_flat_partial",
    "Verif.H5.C44_negation",
    "Verif.H5.C44_written_partial",
    "Verif.H5.C44_negation_empty_sequences"
   ],
   "note": "Written files, after any history of reads; variables without chunks, and chunked variables whose chunks are runs of elements. Negations: other chunk shapes start at row 0; an empty slice of a variable of sequences panics."
  },
  {
   "property": "C45",
   "status": "partial",
   "theorems": [
    "Verif.H5.C45_hdf5_second_close",
    "Verif.H5.C45_hdf5_first_close",
    "Verif.H5.C45_negation_hdf5_failed_close",
    "Verif.Cdf.C45_cdf_second_close"
   ],
   "note": "Second Close of both writers in every state. Negation: after a failed Close of the HDF5 writer the second one reports success although no file was written. For the CDF writer the second Close reports an error (C45_cdf_second_close); a failed first Close of the CDF writer is not followed further."
  },
  {
   "property": "C46",
   "status": "proved",
   "theorems": [
    "Verif.H5.C46_header_v2",
    "Verif.H5.C46_header_v1",
    "Verif.H5.C46_continuation_v2",
    "Verif.H5.C46_continuation_v1",
    "Verif.H5.C46_seen_object_skipped",
    "Verif.H5.C46_new_object_added"
   ],
   "note": "Headers, continuation blocks, and every message of Spec/H5Header at every position; whole files, symbol tables and dense storage are C52 to C54. Not covered: shared messages (the reader ignores that flag); in version 1 headers, attributes have to fill their padded message."
  },
  {
   "property": "C47",
   "status": "partial",
   "theorems": [
    "Verif.H5.C47_flat_values_partial",
    "Verif.H5.C47_negation_empty"
   ],
   "note": "Numbers, fixed and variable-length strings and sequences of numbers. Negation: sequences with a dimension of length zero. Compound, enum, opaque, reference and array elements: C55."
  },
  {
   "property": "C48",
   "status": "partial",
   "theorems": [
    "Verif.H5.C48_filters_undone_partial",
    "Verif.H5.C48_negation"
   ],
   "note": "Decompression is a parameter. Negation: shuffling after compression fails when compression makes the data longer. Not covered otherwise: shuffling or compressing what is already compressed."
  },
  {
   "property": "C49",
   "status": "partial",
   "theorems": [
    "Verif.H5.C49_dimensions_partial",
    "Verif.H5.C49_negation_scalar",
    "Verif.H5.C49_negation_lengths"
   ],
   "note": "Files inside FileStored (values of all types); dimensions on whose length the variables agree. Negations: a scalar variable with the name of a dimension makes GetDimension panic; different lengths are accepted."
  },
  {
   "property": "C50",
   "status": "partial",
   "theorems": [
    "Verif.H5.C50_box_partial",
    "Verif.H5.C50_negation_scalar"
   ],
   "note": "Written files of rank at least 1, after any history of reads; negation: a scalar panics."
  },
  {
   "property": "C51",
   "status": "partial",
   "theorems": [
    "Verif.H5.C51_datatype_partial",
    "Verif.H5.C51_attribute_partial",
    "Verif.H5.C51_negation_wide",
    "Verif.H5.C51_negation_time"
   ],
   "note": "All classes but time, any nesting. Negations: a compound of version 3 with a size of three bytes is refused; the time class ends the process. Excluded as well: more than 255 members, an opaque type that is not last in its message, floats and strings of versions above 1, committed (shared) types."
  },
  {
   "property": "C52",
   "status": "partial",
   "theorems": [
    "Verif.H5.C52_open_partial",
    "Verif.H5.C52_groups_partial",
    "Verif.H5.C52_values_partial",
    "Verif.H5.C52_negation_two_links",
    "Verif.H5.C52_negation_link_to_root"
   ],
   "note": "All files of Spec/H5Others. Excluded: objects with several links (negations: only the first name is seen; a link to the root hides other members), soft and external links, shared messages, members in the superblock extension, free-space index or another group leaf size in old superblocks. Values are those of variables in one piece; C29 gives chunked ones."
  },
  {
   "property": "C53",
   "status": "partial",
   "theorems": [
    "Verif.H5.C53_members_partial",
    "Verif.H5.C53_negation_twice",
    "Verif.H5.C53_negation_two_levels"
   ],
   "note": "Symbol tables whose B-tree is one node, any number of leaves and entries. Negations: a second name for an object ends the node; a tree of two levels is refused."
  },
  {
   "property": "C54",
   "status": "partial",
   "theorems": [
    "Verif.H5.C54_links_partial",
    "Verif.H5.C54_attributes_partial",
    "Verif.H5.C54_negation_wide"
   ],
   "note": "Heaps of any depth of tables, B-trees of any depth with the field widths the reader assumes (one byte for records, two for totals). Excluded: shared attributes, huge and tiny objects, filtered heaps, a doubling table of a width other than four. The order of the index is the one in which the reader visits it: the records of a node before those of its children. Negation: with nodes of 4096 bytes, whose counts take two bytes, a tree of two levels cannot be opened; the same tree with nodes of 512 bytes can."
  },
  {
   "property": "C55",
   "status": "partial",
   "theorems": [
    "Verif.H5.C55_flat_partial",
    "Verif.H5.C55_chunked_partial",
    "Verif.H5.C55_elements_partial",
    "Verif.H5.C55_slice_partial",
    "Verif.H5.C55_slices_partial",
    "Verif.H5.C55_chunked_slice_partial",
    "Verif.H5.C55_chunked_slices_partial",
    "Verif.H5.C55_attribute_partial",
    "Verif.H5.C55_negation_again",
    "Verif.H5.C55_negation_order",
    "Verif.H5.C55_negation_empty",
    "Verif.H5.C55_negation_member",
    "Verif.H5.C55_negation_untagged",
    "Verif.H5.C55_negation_strings"
   ],
   "note": "All types of Spec/H5Typed.Shown that are Legible: members listed in the order of their offsets, names of types computable (the parameter cast). Negations: a second read of a variable of arrays fails; members out of order; empty sequences of blobs have the wrong Go type; attributes that are compounds with one member, opaque without a tag, or arrays of fixed-length strings."
  },
  {
   "property": "C56",
   "status": "partial",
   "theorems": [
    "Verif.H5.C56_flat_partial",
    "Verif.H5.C56_chunked_partial",
    "Verif.H5.C56_group_attributes_partial",
    "Verif.H5.C56_negation_coordinate",
    "Verif.H5.C56_negation_scales"
   ],
   "note": "All files of C52 and all types of C55. Negations: a coordinate variable with several dimensions gets one name only; two scales on one dimension give too many names."
  },
  {
   "property": "C57",
   "status": "partial",
   "theorems": [
    "Verif.H5.C57_type_partial",
    "Verif.H5.C57_go_type_partial",
    "Verif.H5.C57_declared_partial",
    "Verif.H5.C57_global_attribute_partial",
    "Verif.H5.C57_values_partial",
    "Verif.H5.C57_negation_twins",
    "Verif.H5.C57_negation_vague",
    "Verif.H5.C57_negation_attributes",
    "Verif.H5.C57_negation_member_dims",
    "Verif.H5.C57_negation_read_array",
    "Verif.H5.C57_negation_variable_attribute"
   ],
   "note": "For all types and all orders of map iteration: the texts can be read back, so different types have different texts and the search by text finds the right name (CDL: always; Go: unless arrays of bytes meet opaque types). C57_values_partial is C56 with the real names instead of the parameter `cast`. Negations: declared types of the same structure; Go names with opaque types make variables unreadable; declared types with attributes; members with dimensions in the old encoding; the type after reading a variable of an array type; attributes of variables. Fixed strings and single characters are both called string, references uint64, and dimensions stand behind the type of a member, not behind its name: this is what the texts are specified to be."
  },
  {
   "property": "C58",
   "status": "partial",
   "theorems": [
    "Verif.Cdf.C58_cdf_slices_partial",
    "Verif.Cdf.C58_cdf_boxes_partial",
    "Verif.Cdf.C58_cdf_before_partial",
    "Verif.Cdf.C58_cdf_records_partial",
    "Verif.Cdf.C58_cdf_record_boxes_partial",
    "Verif.Cdf.C58_negation_record",
    "Verif.Cdf.C58_negation_record_any",
    "Verif.Cdf.C58_negation_record_cut",
    "Verif.Cdf.C58_negation_huge",
    "Verif.Cdf.C58_negation_box",
    "Verif.Cdf.C58_negation_scalar",
    "Verif.H5.C58_hdf5_reversed_partial",
    "Verif.H5.C58_hdf5_slices_partial",
    "Verif.H5.C58_hdf5_boxes_partial",
    "Verif.H5.C58_negation_hdf5",
    "Verif.H5.C58_negation_hdf5_box"
   ],
   "note": "GetSlice, GetSliceMD and Values recover thrown errors (internal/slicer.go), but not run-time panics, so it is false in both formats. CDF: proved for GetSlice of variables stored in one piece with any bounds (below zero, reversed, behind the end, overflowing offsets) that ask for an amount that can be allocated; bounds before the beginning of the file give an error. The same for GetSliceMD, with any such bounds of the first dimension and bounds of the others inside them. GetSlice of a record variable whose records are all in the file, from record 0 or before to any end, and GetSliceMD of it with bounds of the other dimensions inside them. Negations: an end too far behind the variable (whatever the file and the variable), GetSlice from record 1 on (in every file) or in a file that ends inside of a record (nil reader), GetSliceMD of a scalar and with bounds outside a later dimension. HDF5: reversed bounds and a wrong number of bounds are returned errors in every file; GetSlice of variables of numbers, fixed strings and references that are not in chunks returns a value or an error for any bounds, after any calls of it, and GetSliceMD for any first bounds and later bounds inside the dimensions. Negations: an empty slice of a variable of sequences, GetSliceMD of a scalar and with bounds outside a later dimension. Missing: other bounds of HDF5 variables in chunks or of other types; HDF5 amounts that do not fit into memory (unlimited in the HDF5 model)."
  },
  {
   "property": "C59",
   "status": "partial",
   "theorems": [
    "Verif.H5.C59_written_format_partial",
    "Verif.H5.C59_heap",
    "Verif.H5.C59_heap_unique",
    "Verif.H5.C59_negation_reference_list",
    "Verif.H5.C59_negation_reference_count"
   ],
   "note": "Every history of calls that leaves contents within FileStored (Spec/H5File), values of user-defined types included, and every map order: the bytes satisfy the format specification of C52 (FileHolds: superblock, headers with checksums, messages, links), and the objects hold what was added (Spec/H5Written, written without the writer and the reader). Strings are found with any function that finds the objects of the global heaps in the file; the reader's is one (C59_heap), for any heap of the format with reference counts of zero. Missing: contents outside FileStored. Not written although the specifications ask for it: REFERENCE_LIST of dimension scales (negation) and fill value messages."
  },
  {
   "property": "C60",
   "status": "partial",
   "theorems": [
    "Verif.H5.C60_variable_partial",
    "Verif.H5.C60_attribute_partial",
    "Verif.H5.C60_integer_enums",
    "Verif.H5.C60_negation_member",
    "Verif.H5.C60_negation_string",
    "Verif.H5.C60_negation_nested",
    "Verif.H5.C60_negation_opaque",
    "Verif.H5.C60_negation_empty",
    "Verif.H5.C60_negation_enum",
    "Verif.H5.C60_negation_lengths",
    "Verif.H5.C60_negation_room"
   ],
   "note": "The writer's functions on values of any type (Model/H5TypedWriter): supported types, strings and sequences into the heap, type, dimensions, data, attribute message. For the values of Spec/H5UserTypes the data mean the value (Shown of C55) with the heap found in the file; attribute messages are those of the format and are read back. Whole files with such values: C59, C61. Missing: variables of compounds with sequences, sequences of compounds with strings or sequences, opaque attributes, empty slices of compounds and enumerations, opaque values of different lengths and enumerated arrays inside compounds fail (negations)."
  },
  {
   "property": "C61",
   "status": "partial",
   "theorems": [
    "Verif.H5.C61_round_trip_partial",
    "Verif.H5.C61_added_variable_partial",
    "Verif.H5.C61_negation_opaque",
    "Verif.H5.C61_negation_names",
    "Verif.H5.C61_negation_sizes",
    "Verif.H5.C61_negation_strings"
   ],
   "note": "Every history of calls that leaves contents within FileStored (Spec/H5File: those of C38 and those of C60), every order of the writer's maps and of the reader's maps of types; every absolute path, every sequence of GetVariable calls before, every sequence of slices that are not empty, with the model of the reader for all types (C55). Missing: contents outside FileStored (negations of C60); attributes that are compounds with one member (C55_negation_member); dimension names as in C42; empty slices; GetVariable after slices (C22). Negations, all accepted by AddVar and Close: opaque attributes come back as zeros, compounds of one array with different member names get those of the first, shorter opaque values get zeros, sequences of compounds with strings cannot be read."
  },
  {
   "property": "C62",
   "status": "partial",
   "theorems": [
    "Verif.H5.C62_names",
    "Verif.H5.C62_addresses",
    "Verif.H5.C62_dimensions",
    "Verif.H5.C62_lists_partial",
    "Verif.H5.C62_negation_slash",
    "Verif.H5.C62_negation_empty"
   ],
   "note": "For every file and without hypotheses: names of members, addresses, ListDimensions and GetDimension. The lists of variables and subgroups: for files whose names are not empty and have no slash; with other names the claim is false (ListSubgroups panics for a group named a/b, a variable with an empty name is found but not listed)."
  },
  {
   "property": "C63",
   "status": "proved",
   "theorems": [
    "Verif.H5.C63_headers",
    "Verif.H5.C63_continuations",
    "Verif.H5.C63_heaps",
    "Verif.H5.C63_superblock",
    "Verif.H5.C63_damaged_superblock"
   ],
   "note": "For files of less than 4 GiB, because the model of the checksum keeps lengths in 32 bits there. Version 1 object headers and raw data have no checksum. The checksum is the one of Spec/Lookup3, and where headers end is specified in Spec/H5Sane from the format. A leaf of a B-tree is covered up to 2^40 records and an indirect block up to 2047 rows, beyond which the code computes lengths in too few bits."
  },
  {
   "property": "C64",
   "status": "proved",
   "theorems": [
    "Verif.H5.C64_truncated",
    "Verif.H5.C64_written"
   ],
   "note": "All versions of the superblock; written files without any hypothesis about their contents except a length below 2^63."
  },
  {
   "property": "C65",
   "status": "partial",
   "theorems": [
    "Verif.H5.C65_superblock_partial",
    "Verif.H5.C65_negation_loop",
    "Verif.H5.C65_negation_padding"
   ],
   "note": "The superblock is read without a crash whatever the bytes are. The whole claim is false: a continuation block that continues at itself exhausts the stack, and padding that is not zero ends the program (logger.Fatal)."
  },
  {
   "property": "C66",
   "status": "partial",
   "theorems": [
    "Verif.Cdf.Classic.C66_classic_partial",
    "Verif.Cdf.Classic.C66_negation_char_fill",
    "Verif.Cdf.Classic.C66_negation_unlimited",
    "Verif.Cdf.Classic.C66_negation_char",
    "Verif.Cdf.Classic.C66_negation_no_records"
   ],
   "note": "For every file by the independent specification Spec/CdfFormat, with enough memory. False, as shown by concrete files: GetVariable of a character variable with a text _FillValue panics; GetDimension gives 0 for the unlimited dimension; a scalar non-ASCII character is changed; without records, arrays of strings get another Go type. Values are for the other variables; everything else (names, shapes, attributes, lists) for all."
  },
  {
   "property": "C67",
   "status": "partial",
   "theorems": [
    "Verif.Cdf.Classic.C67_written_format_partial",
    "Verif.Cdf.Classic.C67_negation_v5_attribute",
    "Verif.Cdf.Classic.C67_negation_zero_length"
   ],
   "note": "The same sessions as C01 (supported values; version 5 types in attributes only when a variable needs version 5 as well), but independent of the reader. False beyond: a uint8 attribute in a version 2 file is not a file of the format; empty slices make a dimension unlimited."
  },
  {
   "property": "C68",
   "status": "partial",
   "theorems": [
    "Verif.H5.C68_written_types_partial",
    "Verif.H5.C68_negation_names"
   ],
   "note": "Contents within FileStored, every variable of every group, after any sequence of GetVariable calls. Missing: contents outside FileStored; compounds and enumerations without members or whose members have names that netCDF-4 does not allow (C68_negation_names: AddVar takes them, and then two types have the same text); after slices (C57 has them for files that are described)."
  },
  {
   "property": "C69",
   "status": "partial",
   "theorems": [
    "Verif.H5.C69_formats_agree_partial",
    "Verif.H5.C69_negation_nul"
   ],
   "note": "Calls of C01 (Session) whose contents are those of C38 (FileAllowed). Missing: contents outside these, for which the formats do differ (C01_negation_…, C38 and C42 say how); dimension names of a variable with the name of a dimension but other dimensions (C42_negation_…)."
  },
  {
   "property": "C70",
   "status": "proved",
   "theorems": [
    "Verif.H5.C70_declared",
    "Verif.H5.C70_attributes",
    "Verif.H5.C70_numbers",
    "Verif.H5.C70_strings"
   ],
   "note": "For types inside of which array types have no dimensions of their own (Keeps), as in all netCDF-4 files. C70_numbers and C70_strings say what Declared means for numbers and strings in terms of Go arrays. An attribute that is a fixed string is one Go string, whatever dimensions it has. A call that fails leaves nothing behind in the model, so the calls before are successful ones."
  },
  {
   "property": "C71",
   "status": "proved",
   "theorems": [
    "Verif.H5.C71_whole",
    "Verif.H5.C71_part"
   ],
   "note": "The exceptions are real: C22_negation_hdf5 (after GetSlice), C55_negation_again (array types). A call that fails leaves nothing behind in the model, so the calls before are successful ones."
  },
  {
   "property": "C72",
   "status": "proved",
   "theorems": [
    "Verif.Cdf.C72_variable",
    "Verif.Cdf.C72_slice"
   ],
   "note": "Exceptions as in the statement; the one for empty character arrays is real (C23_negation_empty_char)."
  },
  {
   "property": "C73",
   "status": "partial",
   "theorems": [
    "Verif.H5.C73_rows_partial",
    "Verif.H5.C73_bytes",
    "Verif.H5.C73_negation_chars",
    "Verif.H5.C73_negation_region",
    "Verif.H5.C73_negation_sequences"
   ],
   "note": "Proved for numbers, strings (not single characters), blobs, compounds with any members, object references, enumerations, strings of variable length, sequences of numbers, strings, references and enumerations, and arrays of these, if the bytes of the variable are there (C73_bytes: in one piece in the file, in the header, or never written; or in chunks that are runs of elements). False for characters (C73_negation_chars), references to regions (C73_negation_region) and empty slices of sequences, which panic (C73_negation_sequences), for chunks that are not runs (C44) and after GetVariable of a chunked variable (C22). Missing: sequences of other types."
  },
  {
   "property": "C74",
   "status": "partial",
   "theorems": [
    "Verif.H5.C74_box_partial",
    "Verif.H5.C74_refused",
    "Verif.H5.C74_negation_enum",
    "Verif.H5.C74_negation_scalar"
   ],
   "note": "Proved for the types and variables of C73 (sequences if the box is not empty in the first dimension) except enumerations, for which only the first dimension is cut (C74_negation_enum), and with at least one dimension: a scalar panics (C74_negation_scalar). Refusals (C74_refused) for all files, types and histories. Missing: as for C73."
  },
  {
   "property": "C75",
   "status": "partial",
   "theorems": [
    "Verif.H5.C75_values_partial",
    "Verif.H5.C75_negation_scalar"
   ],
   "note": "All types, for scalars and for variables in one piece, in the header or never written; the types of C73 also in chunks that are runs of elements. After other calls with the exceptions of C71. Negation: after GetSlice of a scalar with bounds that it does not have, Values fails. Missing: characters in chunks, and in chunks the sequences that C73 leaves out; Values of a scalar before."
  }
 ]
}
