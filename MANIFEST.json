{
 "claims": [
  {
   "property": "C01",
   "status": "partial",
   "theorems": [
    "Verif.Props.C01_readback_partial",
    "Verif.Props.C01_readback_block",
    "Verif.Props.C01_readback_ifok",
    "Verif.Props.C01_addresses_violated"
   ],
   "note": "All histories of any number of processes, both indexes, any metadata buffer size. Missing: requests whose blocks interleave in the file (the code builds a non-monotone file view, C44), bounded loading of an empty log, and log datasets placed below earlier ones."
  },
  {
   "property": "C02",
   "status": "partial",
   "theorems": [
    "Verif.Props.C02_readback_partial",
    "Verif.Props.C02_repeated_partial",
    "Verif.Props.C02_repeated_ifok",
    "Verif.Props.C02_readback_violated"
   ],
   "note": "All histories in which the log can be indexed and the datasets read are legible (condition Served; necessary by C77 and C06_sharing_list_violated), for disjoint blocks and for blocks requested several times (a cell requested several times must have been written at most once); a record written twice under the default configuration makes every read undefined (violated witness)."
  },
  {
   "property": "C03",
   "status": "proved",
   "theorems": [
    "Verif.Props.C03_entry_roundtrip",
    "Verif.Props.C03_entry_datasize_partial",
    "Verif.Props.C03_entry_datasize_violated"
   ],
   "note": "Id, offset, size, blocks and data offsets round-trip for all plain entries. Beyond the statement: the unfiltered size recovered for record entries is wrong (witness proved)."
  },
  {
   "property": "C04",
   "status": "partial",
   "theorems": [
    "Verif.Props.C04_code_roundtrip_iff",
    "Verif.Props.C04_encoding_partial",
    "Verif.Props.C04_encoding_violated",
    "Verif.Props.C04_encoding_exact",
    "Verif.Props.C04_rows_violated"
   ],
   "note": "C04_encoding_exact: the entry always decodes, and to the written blocks iff they are not encoded or none spans a whole dimension. C04_rows_violated: block by block, for every write of several blocks together: starts are kept; counts are kept exactly for blocks that span no whole dimension (the first not counted), any other block is recorded with no cells, and the data of later blocks are looked for as if those blocks had none. C04_encoding_violated: one witness."
  },
  {
   "property": "C05",
   "status": "proved",
   "theorems": [
    "Verif.Props.C05_parse_list",
    "Verif.Props.C05_parse_compact"
   ],
   "note": "Both indexes, any number of processes and writes, any surroundings; selection encoding allowed for encodable blocks (C04). Removed datasets are skipped."
  },
  {
   "property": "C06",
   "status": "partial",
   "theorems": [
    "Verif.Props.C06_sharing_list_partial",
    "Verif.Props.C06_sharing_compact_partial",
    "Verif.Props.C06_sharing_compact_violated",
    "Verif.Props.C06_sharing_list_violated",
    "Verif.Props.C06_sharing_compare_violated"
   ],
   "note": "Holds under stated conditions on repeated selections; three concrete violations of the code are proved."
  },
  {
   "property": "C07",
   "status": "partial",
   "theorems": [
    "Verif.Props.C07_indexes_partial",
    "Verif.Props.C07_indexes_violated"
   ],
   "note": "Holds for all logs without sharing and for logs with sharing under the conditions of C06; violated by the default configuration when a record is rewritten."
  },
  {
   "property": "C08",
   "status": "partial",
   "theorems": [
    "Verif.Props.C08_pieces_partial",
    "Verif.Props.C08_maximal",
    "Verif.Props.C08_matches_partial",
    "Verif.Props.C08_empty_violated"
   ],
   "note": "All metadata datasets, section sizes and limits, provided there is at least one metadata dataset; with none, the bounded read fails (violated)."
  },
  {
   "property": "C09",
   "status": "proved",
   "theorems": [
    "Verif.Props.C09_flush_tiles",
    "Verif.Props.C09_disjoint",
    "Verif.Props.C09_flush_nothing"
   ],
   "note": "For every state; block lengths at or above 2^31 are an undefined outcome of the model (int truncation in the code)."
  },
  {
   "property": "C10",
   "status": "proved",
   "theorems": [
    "Verif.Props.C10_placed_once",
    "Verif.Props.C10_flush_again",
    "Verif.Props.C10_metaflush_once"
   ],
   "note": "All histories."
  },
  {
   "property": "C11",
   "status": "proved",
   "theorems": [
    "Verif.Props.C11_section_map",
    "Verif.Props.C11_offsets"
   ],
   "note": "All states with at least one process and a metadata dataset below 2^64 bytes."
  },
  {
   "property": "C12",
   "status": "proved",
   "theorems": [
    "Verif.Props.C12_intersect_exact"
   ],
   "note": "Any number of dimensions."
  },
  {
   "property": "C13",
   "status": "partial",
   "theorems": [
    "Verif.Props.C13_blocks_partial",
    "Verif.Props.C13_ordered_partial",
    "Verif.Props.C13_points_partial",
    "Verif.Props.C14_exact_partial",
    "Verif.Props.C13_blocks_violated",
    "Verif.Props.C13_plane_violated",
    "Verif.Props.C13_regular_violated"
   ],
   "note": "Proved for every block list in which no rows are merged in a group of interleaved blocks other than the last, for every block list in row-major order and for all point lists. For regular hyperslabs of any number of dimensions the condition (Spec.Safe, on stride, count and block only) is exact: C14_exact_partial, and every hyperslab outside it loses a selected cell although constructor and destructor succeed (C13_regular_violated). Violated also for an irregular 2-D union of hyperslabs. All for every behaviour of std::sort. Missing: an exact condition for irregular hyperslabs."
  },
  {
   "property": "C14",
   "status": "partial",
   "theorems": [
    "Verif.Props.C14_hyperslab_partial",
    "Verif.Props.C14_ordered_partial",
    "Verif.Props.C14_line_partial",
    "Verif.Props.C14_exact_partial",
    "Verif.Props.C14_cube_partial",
    "Verif.Props.C14_regular_partial",
    "Verif.Props.C14_strided_partial",
    "Verif.Props.C14_plane_partial",
    "Verif.Props.C14_points_partial",
    "Verif.Props.C14_all_partial",
    "Verif.Props.C14_hyperslab_violated",
    "Verif.Props.C14_points_violated"
   ],
   "note": "For regular hyperslabs of any number of dimensions, C14 holds if and only if stride, count and block are Safe (C14_exact_partial; C14_cube_partial spells this out for 3-D; all 1-D and 2-D hyperslabs are Safe). Proved also for irregular 1-D hyperslabs, span trees in row-major order, H5S_ALL, increasing points. Violated for every other regular hyperslab and for points not in row-major order (order lost, destructor frees an interior pointer). Missing: an exact condition for irregular hyperslabs."
  },
  {
   "property": "C15",
   "status": "proved",
   "theorems": [
    "Verif.Props.C15_sortoffsets"
   ],
   "note": "Both branches of the hand-written sort, any length."
  },
  {
   "property": "C16",
   "status": "partial",
   "theorems": [
    "Verif.Props.C16_together_partial",
    "Verif.Props.C16_repeated_partial",
    "Verif.Props.C16_nested_violated",
    "Verif.Props.C16_crossing_violated",
    "Verif.Props.C16_newest_violated",
    "Verif.Props.C16_equal_violated",
    "Verif.Props.C16_scalar_violated"
   ],
   "note": "Proved for blocks that are pairwise disjoint or equal (cells requested several times written at most once). For other overlapping blocks the code violates the property: nested or crossing blocks get wrong bytes, the newest data can be lost (even for equal blocks, depending on the order std::sort chooses), two reads of a scalar dataset are undefined; proved with witnesses."
  },
  {
   "property": "C17",
   "status": "partial",
   "theorems": [
    "Verif.Props.C17_write_n_partial",
    "Verif.Props.C17_later_block_wins",
    "Verif.Props.C17_write_n_violated",
    "Verif.Props.C17_wrong_cell_violated"
   ],
   "note": "Same conditions as C02 on the history. C17_write_n_violated: with selection encoding (the default) H5Dwrite_n of two whole rows succeeds and its data is lost, whereas the two writes of its blocks are read back. C17_wrong_cell_violated: H5Dwrite_n of a row and a part of another row succeeds and the part reads as values written to the row."
  },
  {
   "property": "C18",
   "status": "partial",
   "theorems": [
    "Verif.Props.C18_records_partial",
    "Verif.Props.C02_readback_violated"
   ],
   "note": "Records read back when no record repeats the exact blocks of an earlier one of its section (compact index with sharing); violated otherwise."
  },
  {
   "property": "C19",
   "status": "partial",
   "theorems": [
    "Verif.Props.C19_independent_partial",
    "Verif.Props.C19_independent_violated"
   ],
   "note": "Holds when nothing flushed awaits its metadata flush or nothing is queued; otherwise the independent read drops queued writes (violated witness)."
  },
  {
   "property": "C20",
   "status": "partial",
   "theorems": [
    "Verif.Props.C20_life_partial",
    "Verif.Props.C20_closed_partial",
    "Verif.Props.C20_crash_violated",
    "Verif.Props.C20_crash_lost"
   ],
   "note": "Violated: nothing written since the file was created survives a crash, flushed or not. Proved: through any number of sessions, each closing the file or dying at any point (also in the middle of a flush), reads return exactly the writes of the sessions that closed the file and those flushed in the present session. Missing: flushed writes of a dead session (violated), sessions that create a dataset and die (violated, C39)."
  },
  {
   "property": "C21",
   "status": "partial",
   "theorems": [
    "Verif.Props.C21_close_partial",
    "Verif.Props.C21_close_violated"
   ],
   "note": "Same conditions as C02 on the history. C21_close_violated: the same write, closed and opened again, is not read back."
  },
  {
   "property": "C22",
   "status": "partial",
   "theorems": [
    "Verif.Props.C22_budget_partial",
    "Verif.Props.C22_limit_partial",
    "Verif.Props.C22_failed",
    "Verif.Props.C22_release",
    "Verif.Props.C22_budget_violated"
   ],
   "note": "Proved for bused = 0 at first; the code never initialises bused (witness C22_budget_violated)."
  },
  {
   "property": "C23",
   "status": "partial",
   "theorems": [
    "Verif.Props.C23_stored_partial",
    "Verif.Props.C23_unsupported_partial",
    "Verif.Props.C23_unfilter_violated",
    "Verif.Props.C23_read_violated",
    "Verif.Props.C23_overrun_violated"
   ],
   "note": "For every lossless compressor a write stores a block that decompresses to the data; unsupported filters make writes and reads fail. Reading back is violated: unfiltering compresses again, packing uses a buffer size of one byte, and the copy may overrun."
  },
  {
   "property": "C24",
   "status": "partial",
   "theorems": [
    "Verif.Props.C24_data_partial",
    "Verif.Props.C24_single_partial",
    "Verif.Props.C24_append_violated",
    "Verif.Props.C24_encode_violated",
    "Verif.Props.C24_deflate_violated",
    "Verif.Props.C24_alone_violated"
   ],
   "note": "One merged write decodes right without encoding and compression, and the data is always complete and in order. For two or more writes, and for every entry of a dataset of two or more dimensions with selection encoding (the default), the recovered blocks are proved wrong."
  },
  {
   "property": "C25",
   "status": "proved",
   "theorems": [
    "Verif.Props.C25_transparent",
    "Verif.Props.C25_succeeds",
    "Verif.Props.C25_never_compressed"
   ],
   "note": "For every library and every sequence of writes the metadata bytes are the same with and without the option; the option never takes effect because the result of the compression is tested with the wrong sense."
  },
  {
   "property": "C26",
   "status": "partial",
   "theorems": [
    "Verif.Props.C26_isolated_partial",
    "Verif.Props.C26_same_data",
    "Verif.Props.C26_buffered_violated"
   ],
   "note": "Isolation holds in all cases except buffered writes of a whole buffer without conversion and filters, where every change of the buffer reaches the file."
  },
  {
   "property": "C27",
   "status": "partial",
   "theorems": [
    "Verif.Props.C27_failed_partial",
    "Verif.Props.C27_failed_violated"
   ],
   "note": "Holds for every sequence of calls unless (with sharing on) a call repeats the selection of an earlier failed call; that case is violated."
  },
  {
   "property": "C28",
   "status": "partial",
   "theorems": [
    "Verif.Props.C28_success_partial",
    "Verif.Props.C28_failure_partial",
    "Verif.Props.C28_extent_violated",
    "Verif.Props.C28_scalar_violated"
   ],
   "note": "Success and failure are characterised exactly; a failing call changes the dimensions before the offending one."
  },
  {
   "property": "C29",
   "status": "partial",
   "theorems": [
    "Verif.Props.C29_groups",
    "Verif.Props.C29_split_partial",
    "Verif.Props.C29_split_violated"
   ],
   "note": "C29_groups holds for any grouping (agreement, range, same communicator, onto); contiguity and the number of groups for a requested number of subfiles hold unless rank*nsubfiles overflows int, which is exhibited"
  },
  {
   "property": "C30",
   "status": "partial",
   "theorems": [
    "Verif.Props.C30_opens",
    "Verif.Props.C30_single_partial",
    "Verif.Props.C30_read_violated",
    "Verif.Props.C30_ngroup_violated"
   ],
   "note": "all subfiles are opened once, but none is read in the subfiling loop and the number of groups is taken from the wrong attribute slot"
  },
  {
   "property": "C31",
   "status": "partial",
   "theorems": [
    "Verif.Props.C31_injective",
    "Verif.Props.C31_reported",
    "Verif.Props.C31_hidden",
    "Verif.Props.C31_internal_partial",
    "Verif.Props.C31_path_partial",
    "Verif.Props.C31_path_violated",
    "Verif.Props.C31_unmapped_violated",
    "Verif.Props.C31_attribute_violated"
   ],
   "note": "Proved for single names; for paths exactly when no later component starts with an underscore. Paths, link create/copy, attribute rename and attribute names violate it."
  },
  {
   "property": "C32",
   "status": "partial",
   "theorems": [
    "Verif.Props.C32_wait",
    "Verif.Props.C32_notify_once",
    "Verif.Props.C32_notify_progress",
    "Verif.Props.C32_notify_partial",
    "Verif.Props.C32_notify_violated",
    "Verif.Props.C32_release_violated"
   ],
   "note": "waiting is exact for all parts; the callback fires exactly once after the last part in every interleaving; the status told is right when status updates are not interrupted, and a lost failure is exhibited when they are"
  },
  {
   "property": "C33",
   "status": "partial",
   "theorems": [
    "Verif.Props.C33_property_partial",
    "Verif.Props.C33_class_partial",
    "Verif.Props.C33_create_partial",
    "Verif.Props.C33_open_partial",
    "Verif.Props.C33_setter_violated",
    "Verif.Props.C33_encoding_violated",
    "Verif.Props.C33_layout_violated",
    "Verif.Props.C33_single_violated",
    "Verif.Props.C33_single_never",
    "Verif.Props.C33_open_violated",
    "Verif.Props.C33_word",
    "Verif.Props.C33_documented_partial",
    "Verif.Props.C33_documented_violated"
   ],
   "note": "set/get and environment precedence hold for the listed options; three setters do nothing, one is undefined, the layout variable is inverted, single-subfile-read is looked up on the wrong list, and options given when opening are replaced by the stored ones; the index size is documented for transfer lists, where it is never looked at"
  },
  {
   "property": "C34",
   "status": "partial",
   "theorems": [
    "Verif.Props.C34_increasing_partial",
    "Verif.Props.C34_decreasing_partial",
    "Verif.Props.C34_iterate_partial",
    "Verif.Props.C34_open_violated",
    "Verif.Props.C34_name_violated",
    "Verif.Props.C34_root_violated",
    "Verif.Props.C34_plain_violated",
    "Verif.Props.C34_start_violated"
   ],
   "note": "Index arithmetic shows exactly the user attributes in both orders for the operations named in the partial theorems; opening, naming and starting positions that skip the translation are proved wrong."
  },
  {
   "property": "C35",
   "status": "partial",
   "theorems": [
    "Verif.Props.C35_sections_partial",
    "Verif.Props.C35_entries_partial",
    "Verif.Props.C35_terminates",
    "Verif.Props.C35_entries_violated",
    "Verif.Props.C35_lost_violated",
    "Verif.Props.C35_large_violated"
   ],
   "note": "exact partition of sections when there are at least as many sections as processes and less than 2 GiB of metadata; the loops terminate; with fewer sections than processes entries are replayed more than once, or lost, because the share of a process is overwritten; offsets of 2 GiB and more are truncated"
  },
  {
   "property": "C36",
   "status": "proved",
   "theorems": [
    "Verif.Props.C36_bounds"
   ],
   "note": "for every section map and whatever the memory contained; the memory dataspace H5S_ALL takes the selection of the file (contract of HDF5)"
  },
  {
   "property": "C37",
   "status": "proved",
   "theorems": [
    "Verif.Props.C37_lookup"
   ],
   "note": "for every list of log datasets in file order; C37_order_needed shows the order is required"
  },
  {
   "property": "C38",
   "status": "partial",
   "theorems": [
    "Verif.Props.C38_select_partial",
    "Verif.Props.C38_select_violated",
    "Verif.Props.C38_block_partial",
    "Verif.Props.C38_block_violated"
   ],
   "note": "Proved for shapes that one stride can describe; for three and more dimensions the selection is proved wrong."
  },
  {
   "property": "C39",
   "status": "partial",
   "theorems": [
    "Verif.Props.C39_unique_partial",
    "Verif.Props.C39_stable_partial",
    "Verif.Props.C39_crash_violated",
    "Verif.Props.C39_crash_same",
    "Verif.Props.C39_failed_violated"
   ],
   "note": "Proved for every history without crash and failed create; both exceptions are proved to break it."
  },
  {
   "property": "C40",
   "status": "partial",
   "theorems": [
    "Verif.Props.C40_swap_involution",
    "Verif.Props.C40_buffer_involution",
    "Verif.Props.C40_selection_file",
    "Verif.Props.C40_header_partial",
    "Verif.Props.C40_header_violated",
    "Verif.Props.C40_reader_violated"
   ],
   "note": "Swaps are involutions; selection words and 32-bit header fields are host independent. The 64-bit header fields are not, and the big-endian reader uses the dataset number before swapping and swaps too much."
  },
  {
   "property": "C41",
   "status": "partial",
   "theorems": [
    "Verif.Props.C41_registry_partial",
    "Verif.Props.C41_registry_violated"
   ],
   "note": "Proved for files whose inode numbers identify them; the registry ignores the device (witness C41_registry_violated). A second open is refused by the code."
  },
  {
   "property": "C42",
   "status": "partial",
   "theorems": [
    "Verif.Props.C42_refcount_partial",
    "Verif.Props.C42_refcount_violated"
   ],
   "note": "Proved for all histories without file handles obtained from objects; those are not counted (witness C42_refcount_violated)."
  },
  {
   "property": "C43",
   "status": "partial",
   "theorems": [
    "Verif.Props.C43_collective_partial",
    "Verif.Props.C43_single_partial",
    "Verif.Props.C43_collective_violated"
   ],
   "note": "calls match exactly if all groups or no group has metadata; violated otherwise"
  },
  {
   "property": "C44",
   "status": "partial",
   "theorems": [
    "Verif.Props.C44_view_partial",
    "Verif.Props.C44_line_partial",
    "Verif.Props.C44_view_violated"
   ],
   "note": "Proved over all histories for blocks that are pairwise comparable (regular grids, disjoint rows) or have their ends in order (one block ends no later than the other in every dimension, as for nested and equal blocks), and for all blocks, overlapping or not, of one-dimensional datasets; the code violates the property for other disjoint blocks (operator> compares dimensions wrongly), proved with a concrete witness."
  },
  {
   "property": "C45",
   "status": "partial",
   "theorems": [
    "Verif.Props.C45_unlink_partial",
    "Verif.Props.C45_unlink_violated"
   ],
   "note": "Holds without sharing and when no remaining write repeats a selection of a removed dataset; violated otherwise (witness)."
  },
  {
   "property": "C46",
   "status": "partial",
   "theorems": [
    "Verif.Props.C46_roundtrip_partial",
    "Verif.Props.C46_buffer_violated",
    "Verif.Props.C46_text_violated",
    "Verif.Props.C46_negative_violated"
   ],
   "note": "Round trip proved for identifiers the buffer has room for; the overrun is proved for every larger identifier. Negative numbers are accepted and name another connector."
  },
  {
   "property": "C47",
   "status": "partial",
   "theorems": [
    "Verif.Props.C47_gather_partial",
    "Verif.Props.C47_scatter_partial",
    "Verif.Props.C47_roundtrip_partial",
    "Verif.Props.C47_convert_violated",
    "Verif.Props.C47_size_violated",
    "Verif.Props.C47_larger"
   ],
   "note": "Proved for every shape, block list and element size; reads into a wider memory type are proved to fail and writes from a smaller memory selection to store uninitialised bytes."
  },
  {
   "property": "C48",
   "status": "partial",
   "theorems": [
    "Verif.Props.C48_pool_partial",
    "Verif.Props.C48_zero_violated"
   ],
   "note": "Proved for every pool of non-zero size; a pool of size 0 dereferences null."
  },
  {
   "property": "C49",
   "status": "partial",
   "theorems": [
    "Verif.Props.C49_visit_partial",
    "Verif.Props.C49_visit_violated"
   ],
   "note": "Names that start with a dot are skipped."
  },
  {
   "property": "C50",
   "status": "partial",
   "theorems": [
    "Verif.Props.C50_write_partial",
    "Verif.Props.C50_read_partial",
    "Verif.Props.C50_shared_partial",
    "Verif.Props.C50_reopen_partial",
    "Verif.Props.C50_lost_violated"
   ],
   "note": "Proved for all 1-D hyperslabs, all regular hyperslabs of any number of dimensions that the connector normalises without loss (Spec.Safe, exact by C14_exact_partial; all 2-D ones), row-major span trees, H5S_ALL, none, and increasing point lists, for every history; with sharing or encoding for histories that can be indexed. Violated by every other regular hyperslab (C50_lost_violated: the write succeeds and a selected cell keeps its old value, in any history), by irregular hyperslabs (C13_plane_violated) and by unordered points (C14_points_violated)."
  },
  {
   "property": "C51",
   "status": "partial",
   "theorems": [
    "Verif.Props.C51_single_partial",
    "Verif.Props.C51_replay_partial",
    "Verif.Props.C51_order_violated",
    "Verif.Props.C51_lost_violated",
    "Verif.Props.C51_race_violated",
    "Verif.Props.C51_removed_violated",
    "Verif.Props.C51_shrunk_violated",
    "Verif.Props.C51_filter_violated"
   ],
   "note": "Violated. Proved for all histories and configurations: one process applies the writes in the order of the metadata; any number of processes up to the number of sections and any schedule give the value of the last write if writes of different processes or epochs have no common cell; written datasets present, extents containing the blocks, less than 2 GiB of metadata. Counterexamples for the order of overlapping writes (one process and two), more processes than sections, removed datasets, reduced extents, filtered datasets. Not modelled: subfiling, names and attributes of the output."
  },
  {
   "property": "C52",
   "status": "partial",
   "theorems": [
    "Verif.Props.C52_report_partial",
    "Verif.Props.C52_encoding_violated",
    "Verif.Props.C52_off_violated",
    "Verif.Props.C52_below",
    "Verif.Props.C52_plain_violated"
   ],
   "note": "Without selection encoding the lists are returned and report compression, subfiling, sharing if on, and merging, passthru, layout, single-subfile reads if off. Violated otherwise: with the default encoding the getter calls the setter with too small an argument (undefined behaviour), and options that are off or not rebuilt are reported at their defaults. For ordinary files H5Fget_access_plist always fails (the list is asked from a file that was never set)."
  },
  {
   "property": "C53",
   "status": "proved",
   "theorems": [
    "Verif.Props.C53_again",
    "Verif.Props.C53_processes",
    "Verif.Props.C53_prepare"
   ],
   "note": "For all reachable states of the file model (Model/File.lean). 'Results' are the set of outcomes that the order chosen by std::sort allows. Not covered: subfiling, where processes read other subfiles."
  },
  {
   "property": "C54",
   "status": "partial",
   "theorems": [
    "Verif.Props.C54_copy_partial",
    "Verif.Props.C54_underscore_violated",
    "Verif.Props.C54_names_violated"
   ],
   "note": "Proved for every well-formed file whose names cause no trouble (no user name with a leading underscore, dot or slash in the places listed in Plain, fixed sizes, one link per object). For other names the code violates the property: a top-level _x makes every replay fail, and seven witnesses show lost or renamed objects and attributes."
  },
  {
   "property": "C55",
   "status": "partial",
   "theorems": [
    "Verif.Props.C55_subfiles",
    "Verif.Props.C55_paths",
    "Verif.Props.C55_replay_partial",
    "Verif.Props.C55_order_violated"
   ],
   "note": "C55_subfiles and C55_paths hold for any numbers and any split. The data is reproduced (C55_replay_partial) for all histories without races between processes, epochs and subfiles, if no group is larger than the group that wrote the subfile. Violated if subfiles overwrite each other: they are applied in the order of their numbers."
  },
  {
   "property": "C56",
   "status": "partial",
   "theorems": [
    "Verif.Props.C56_write_partial",
    "Verif.Props.C56_config",
    "Verif.Props.C56_read_violated",
    "Verif.Props.C56_reopen_violated",
    "Verif.Props.C56_path_violated",
    "Verif.Props.C56_config_violated"
   ],
   "note": "Holds for sessions that create a file, flush in any order and close it (C56_write_partial, C56_config). Violated by every read in that session, by every reopening, for every path with a slash, and for the options of a subfile that has not been closed. The effect of H5F_ACC_TRUNC and H5F_ACC_EXCL on the open of an existing file is the contract of the native VOL."
  },
  {
   "property": "C57",
   "status": "partial",
   "theorems": [
    "Verif.Props.C57_place_partial",
    "Verif.Props.C57_streams_partial",
    "Verif.Props.C57_neighbours",
    "Verif.Props.C57_place_violated",
    "Verif.Props.C57_collide_violated",
    "Verif.Props.C57_bounds_violated",
    "Verif.Props.C57_align_violated",
    "Verif.Props.C57_meta_violated",
    "Verif.Props.C57_merged_violated",
    "Verif.Props.C57_streams_violated",
    "Verif.Props.C57_create_violated",
    "Verif.Props.C57_aligned_partial",
    "Verif.Props.C57_room_partial"
   ],
   "note": "Holds for data within one stripe (C57_place_partial), at most two groups per target (C57_streams_partial) and the matching of sends and receives (C57_neighbours). Violated otherwise: creation of a file with this layout is undefined, later stripes are misplaced and overwrite data of others or leave the dataset, the third group of a target overlaps the second, recorded offsets are never file positions, merged requests overrun the arrays."
  },
  {
   "property": "C58",
   "status": "partial",
   "theorems": [
    "Verif.Props.C58_write_partial",
    "Verif.Props.C58_write_violated"
   ],
   "note": "Violated: once a log dataset of a dead session is in the file, every later flush of data fails, for ever. Proved for histories in which dead sessions leave no log dataset."
  },
  {
   "property": "C59",
   "status": "partial",
   "theorems": [
    "Verif.Props.C59_same_partial",
    "Verif.Props.C59_log_safe_partial",
    "Verif.Props.C59_visit_partial",
    "Verif.Props.C59_count_violated",
    "Verif.Props.C59_inner_violated",
    "Verif.Props.C59_delete_log_violated",
    "Verif.Props.C59_same_loc_violated",
    "Verif.Props.C59_link_violated",
    "Verif.Props.C59_order"
   ],
   "note": "Refinement proved for every sequence of operations in which only the first component of a path starts with an underscore and link copying/creation uses no such name; counting the links of the root group, inner underscores, absolute paths into the log, H5L_SAME_LOC moves and link creation/copying are proved wrong. Listings by name are always in order."
  },
  {
   "property": "C60",
   "status": "partial",
   "theorems": [
    "Verif.Props.C60_info_partial",
    "Verif.Props.C60_self_partial",
    "Verif.Props.C60_by_name_violated",
    "Verif.Props.C60_root_violated",
    "Verif.Props.C60_plain_violated",
    "Verif.Props.C60_visit_violated"
   ],
   "note": "The number is right exactly when the deduction for the type of the handle equals what the connector added to the object; objects given by name, the root group opened as a group, ordinary files and visits are proved wrong."
  },
  {
   "property": "C61",
   "status": "partial",
   "theorems": [
    "Verif.Props.C61_order",
    "Verif.Props.C61_flush_partial",
    "Verif.Props.C61_close_partial",
    "Verif.Props.C61_close_one",
    "Verif.Props.C61_close_state",
    "Verif.Props.C61_read_partial",
    "Verif.Props.C61_run_partial",
    "Verif.Props.C61_prepare_partial",
    "Verif.Props.C61_close_violated",
    "Verif.Props.C61_alone_violated",
    "Verif.Props.C61_view_violated"
   ],
   "note": "Fails: with subfiling the close hangs unless all groups have written something or none has; a blocking read hangs unless all processes find something in the log, or none, or all selections are empty. Proved: the order of the processes never matters (any programs); the data flush always completes and is one step of every group; exactly when close and read complete; runs of writes, flushes, even reads and the close equal the steps of the file. Collective calls are taken to wait for all processes. Not in this model: merged and aligned flushes, loading of metadata, other collective HDF5 calls."
  },
  {
   "property": "C62",
   "status": "partial",
   "theorems": [
    "Verif.Props.C62_class_violated",
    "Verif.Props.C62_wait_violated",
    "Verif.Props.C62_exact_partial",
    "Verif.Props.C62_all_violated",
    "Verif.Props.C62_parts_partial",
    "Verif.Props.C62_now_violated",
    "Verif.Props.C62_create_violated",
    "Verif.Props.C62_lost_violated",
    "Verif.Props.C62_unpublished_violated",
    "Verif.Props.C62_leak_violated",
    "Verif.Props.C62_foreign_violated"
   ],
   "note": "The code violates it. The class of the connector has no request callbacks at all (src/H5VL_log_main.cpp L42-50), so no request can be waited for; the further theorems hold whether or not they are installed. Proved for every callback and all answers: an operation is waitable exactly if it hands out nothing and the under VOL has nothing left to do; every request handed out is useless since its connector id is never set. For callbacks of the common form the id is all that is missing if the under VOL returns a request for each call; further defects are proved separately."
  },
  {
   "property": "C63",
   "status": "partial",
   "theorems": [
    "Verif.Props.C63_app_partial",
    "Verif.Props.C63_first_partial",
    "Verif.Props.C63_reload_violated",
    "Verif.Props.C63_finalize_violated",
    "Verif.Props.C63_retry_violated",
    "Verif.Props.C63_late_violated"
   ],
   "note": "The code violates it. Proved for any number of cycles when the application owns MPI, and for the first use otherwise; reloading after the connector has finalised MPI, finalising by the application and a failed registration are proved to go wrong."
  },
  {
   "property": "C64",
   "status": "partial",
   "theorems": [
    "Verif.Props.C64_write_partial",
    "Verif.Props.C64_error_violated",
    "Verif.Props.C64_read_partial",
    "Verif.Props.C64_count_violated"
   ],
   "note": "The code violates it. Writes: equal to one call per dataset if each may be issued; any failure ends in an exception thrown into the library with the earlier writes queued. Reads: exactly when the processes complete, for any lists of reads, without subfiling."
  },
  {
   "property": "C65",
   "status": "proved",
   "theorems": [
    "Verif.Props.C65_unchanged"
   ],
   "note": "By induction over the session; the under VOL refuses every change of a file opened for reading only (assumption of the model)."
  },
  {
   "property": "C66",
   "status": "partial",
   "theorems": [
    "Verif.Props.C66_read_partial",
    "Verif.Props.C66_write_violated",
    "Verif.Props.C66_open_violated",
    "Verif.Props.C66_swmr_violated"
   ],
   "note": "Independent reads, and all reads while nothing is queued, return the writes of the earlier sessions. Violated: a write is accepted, makes every later flush fail, and with one process every later read, and is lost; a file without write permission cannot be opened; with H5F_ACC_SWMR_READ the file cannot be closed."
  },
  {
   "property": "C67",
   "status": "partial",
   "theorems": [
    "Verif.Props.C67_one_partial",
    "Verif.Props.C67_flush_partial",
    "Verif.Props.C67_collective_violated"
   ],
   "note": "Holds with one process, and after H5Fflush, for histories that can be indexed. Fails in general: with several processes the code looks at the transfer list of the file, which is independent whatever the caller asks for, so a collective read returns no queued write (C67_collective_violated, for every history in which the metadata of all flushed writes is in the file)."
  },
  {
   "property": "C68",
   "status": "proved",
   "theorems": [
    "Verif.Props.C68_write",
    "Verif.Props.C68_write_none",
    "Verif.Props.C68_read",
    "Verif.Props.C68_flush",
    "Verif.Props.C68_reopen"
   ],
   "note": "Over all sequences of calls (Calls) and all configurations; with sharing or encoding under the conditions named in the quantifier (Allows, Indexed), which are empty without them and whose necessity is shown by C02_readback_violated, C04_encoding_violated, C06_sharing_*_violated, C45_unlink_violated. Joins selections (C14), gather and scatter of memory (C47), metadata, flush and search (C01, C02). The dataspaces named in the quantifier are those of Supported; others are known to go wrong (C14_hyperslab_violated, C14_points_violated). fuel only bounds a loop."
  },
  {
   "property": "C69",
   "status": "proved",
   "theorems": [
    "Verif.Props.C69_same"
   ],
   "note": "From C68, also between two different configurations: both reads succeed and return the same bytes for every cell that was written, and for all others if there is a fill value. SameWrites compares the writes to the dataset only."
  },
  {
   "property": "C70",
   "status": "partial",
   "theorems": [
    "Verif.Props.C70_open_partial",
    "Verif.Props.C70_create_partial",
    "Verif.Props.C70_open_violated",
    "Verif.Props.C70_create_violated",
    "Verif.Props.C70_limit_violated",
    "Verif.Props.C70_session_partial",
    "Verif.Props.C70_session_violated",
    "Verif.Props.C70_stuck_violated",
    "Verif.Props.C70_align_violated",
    "Verif.Props.C70_post_create_violated",
    "Verif.Props.C70_retry_violated",
    "Verif.Props.C70_abort_violated",
    "Verif.Props.C70_dset_open_partial",
    "Verif.Props.C70_dset_open_violated",
    "Verif.Props.C70_dset_open_ub_violated",
    "Verif.Props.C70_dset_open_leak_violated",
    "Verif.Props.C70_dset_create_partial",
    "Verif.Props.C70_dset_create_violated",
    "Verif.Props.C70_start",
    "Verif.Props.C70_dxpl_violated",
    "Verif.Props.C70_post_open_violated"
   ],
   "note": "Over all combinations of failing calls. Holds: no undefined behaviour when files are opened or created without aligned data, the object, the block of the info and what came from the driver are released; a session without datasets and with the default property list leaves nothing, and exactly what other sessions leave is stated. Fails otherwise: see the theorems named violated and DESIGN items 105-113, 123."
  },
  {
   "property": "C71",
   "status": "partial",
   "theorems": [
    "Verif.Props.C71_dump_partial",
    "Verif.Props.C71_names_partial",
    "Verif.Props.C71_text_partial",
    "Verif.Props.C71_decimal_partial",
    "Verif.Props.C71_kind_partial",
    "Verif.Props.C71_share_violated",
    "Verif.Props.C71_removed_violated",
    "Verif.Props.C71_dot_violated",
    "Verif.Props.C71_string_violated",
    "Verif.Props.C71_half_violated",
    "Verif.Props.C71_hex_violated",
    "Verif.Props.C71_kind_violated",
    "Verif.Props.C71_behind_violated",
    "Verif.Props.C71_foreign_violated",
    "Verif.Props.C71_bytes",
    "Verif.Props.C71_rows_violated"
   ],
   "note": "complete for files without filters and subfiles whose written datasets are present under names not beginning with a dot whose writes have one element per recorded cell (C71_rows_violated: h5ldump aborts on a file with whole rows written together) and, with shared metadata, where equal selections of several blocks have equal element sizes; violated otherwise, for strings, half precision, opaque types, and for the kinds of NetCDF files"
  },
  {
   "property": "C72",
   "status": "partial",
   "theorems": [
    "Verif.Props.C72_refs_partial",
    "Verif.Props.C72_unwrap",
    "Verif.Props.C72_file_violated",
    "Verif.Props.C72_dset_violated",
    "Verif.Props.C72_context_violated",
    "Verif.Props.C72_null_violated",
    "Verif.Props.C72_unset_violated",
    "Verif.Props.C72_context",
    "Verif.Props.C72_dangling_violated"
   ],
   "note": "Proved for all sequences in which no file handle is got from a wrap context, with exact counts of what failing calls leave behind. Violated: a file handle got from an object of an ordinary file is an object structure used as a file; a failed H5Dopen in an ordinary file keeps the file open for ever; failures to get or free a context leak a reference to the connector below; wrapping in ordinary files ignores failure. Contexts do not keep their file. One connector below for all files."
  },
  {
   "property": "C73",
   "status": "partial",
   "theorems": [
    "Verif.Props.C73_safe_partial",
    "Verif.Props.C73_owned",
    "Verif.Props.C73_bill_partial",
    "Verif.Props.C73_clean_partial",
    "Verif.Props.C73_writes",
    "Verif.Props.C73_update_violated",
    "Verif.Props.C73_parts_violated",
    "Verif.Props.C73_empty_violated",
    "Verif.Props.C73_write_fails_violated",
    "Verif.Props.C73_queue_violated",
    "Verif.Props.C73_merge_violated",
    "Verif.Props.C73_independent_violated",
    "Verif.Props.C73_safe_violated",
    "Verif.Props.C73_once"
   ],
   "note": "Any history with any failing calls: nothing is used or released twice unless a read with conversion is queued (then it can be: C73_safe_violated); everything with an owner is released by the close; the exact bill of histories of successful calls. Missing: the property is false (the violated theorems give what is lost). Nothing is ever held twice (C73_once)."
  },
  {
   "property": "C74",
   "status": "partial",
   "theorems": [
    "Verif.Props.C74_same",
    "Verif.Props.C74_readback_partial",
    "Verif.Props.C74_close_partial",
    "Verif.Props.C74_data_lost",
    "Verif.Props.C74_data_violated",
    "Verif.Props.C74_meta_lost",
    "Verif.Props.C74_meta_violated",
    "Verif.Props.C70_retry_violated"
   ],
   "note": "Proved for any number of failures before the log or metadata dataset exists, in any history. Violated for failures afterwards: data flushes fail for ever; after a failed metadata flush nothing can be read any more."
  },
  {
   "property": "C75",
   "status": "partial",
   "theorems": [
    "Verif.Props.C75_same",
    "Verif.Props.C75_absent_partial",
    "Verif.Props.C75_write",
    "Verif.Props.C75_readback_partial",
    "Verif.Props.C75_close_partial",
    "Verif.Props.C75_defined",
    "Verif.Props.C75_retry_violated",
    "Verif.Props.C75_mixup_violated",
    "Verif.Props.C75_other_violated"
   ],
   "note": "Proved for every history in which any writes fail, without metadata sharing always, with it as long as no write repeats the selection of a failed one before the next flush of the metadata. Otherwise violated: a failed write leaves its selection in the table of shared selections, the repetition refers to an entry that does not exist; reads are then undefined or return data at the wrong place."
  },
  {
   "property": "C76",
   "status": "partial",
   "theorems": [
    "Verif.Props.C76_flush_partial",
    "Verif.Props.C76_queue",
    "Verif.Props.C76_idle",
    "Verif.Props.C76_close_violated",
    "Verif.Props.C76_twice_violated"
   ],
   "note": "H5Fflush completes all queued reads of all processes, for requests whose file view is valid and where cells read twice were written at most once. False for H5Fclose (never completes them) and for cells read twice and written twice. Conversions and memory selections: C83. Missing: subfiles."
  },
  {
   "property": "C77",
   "status": "proved",
   "theorems": [
    "Verif.Props.C77_compact",
    "Verif.Props.C77_list",
    "Verif.Props.C77_reopen_compact",
    "Verif.Props.C77_reopen_list",
    "Verif.Props.C77_indexable"
   ],
   "note": "Dichotomies: the condition decides between the values expected and undefined behaviour, for all requests that a file view can serve (Viewable, Repeats) and record numbers below 2^31 (compact index). The conditions (Legible, Buildable, Measured) speak only about the writes of the history. C77_indexable: the simpler condition Indexable implies it; the example shows a file that Indexable excludes."
  },
  {
   "property": "C78",
   "status": "partial",
   "theorems": [
    "Verif.Props.C78_answers_partial",
    "Verif.Props.C78_layout_violated",
    "Verif.Props.C78_plist_violated",
    "Verif.Props.C78_filters_violated",
    "Verif.Props.C78_filters_gone",
    "Verif.Props.C78_data_violated",
    "Verif.Props.C78_null_violated",
    "Verif.Props.C78_scalar_violated",
    "Verif.Props.C78_storage_violated",
    "Verif.Props.C78_extent_violated"
   ],
   "note": "Holds for any sequence of calls over any number of sessions whose dataspaces are simple (without encoding also scalar) and whose H5Dset_extent calls do not fail; queries of layout and property list need contiguous lists without filters, those of filters such lists or a single session. Everything excluded is shown to fail: the application's list and the dataset's list become contiguous, filters vanish with the session and the compressed bytes are read as data, null dataspaces become scalar, scalar ones are undefined with encoding, two queries always fail, a failed H5Dset_extent changes H5Dget_space."
  },
  {
   "property": "C79",
   "status": "partial",
   "theorems": [
    "Verif.Props.C79_same_partial",
    "Verif.Props.C79_index_violated",
    "Verif.Props.C79_decreasing_violated",
    "Verif.Props.C79_order_violated",
    "Verif.Props.C79_arguments_violated",
    "Verif.Props.C79_strings_violated",
    "Verif.Props.C79_oopen_violated",
    "Verif.Props.C79_close_violated",
    "Verif.Props.C79_lost_violated",
    "Verif.Props.C79_count_violated",
    "Verif.Props.C79_move_violated",
    "Verif.Props.C79_mount_violated"
   ],
   "note": "For any connector below whose attribute queries change nothing, sessions of harmless calls are the direct sessions. The excluded calls are violations: shown here, and the access property list in C52_plain_violated."
  },
  {
   "property": "C80",
   "status": "partial",
   "theorems": [
    "Verif.Props.C80_calls",
    "Verif.Props.C80_flush_partial",
    "Verif.Props.C80_freed_violated",
    "Verif.Props.C80_changed_violated"
   ],
   "note": "Writes take their blocks at the call, for all sequences; queued reads stand for the blocks of their calls exactly if the arrays hold them again at the flush; arrays freed before it are accessed, for all states."
  },
  {
   "property": "C81",
   "status": "partial",
   "theorems": [
    "Verif.Props.C81_readback_partial",
    "Verif.Props.C81_accepted_violated",
    "Verif.Props.C81_outside_violated",
    "Verif.Props.C81_shrink_violated",
    "Verif.Props.C81_alias_violated"
   ],
   "note": "Proved for histories with writes inside extents that do not shrink; no write outside is refused, for all states; data outside the extent and data cut off come back; with selection encoding writes outside change other cells."
  },
  {
   "property": "C82",
   "status": "partial",
   "theorems": [
    "Verif.Props.C82_log",
    "Verif.Props.C82_other_partial",
    "Verif.Props.C82_unloaded_violated",
    "Verif.Props.C82_query_violated",
    "Verif.Props.C82_class",
    "Verif.Props.C82_caps_violated",
    "Verif.Props.C82_passed",
    "Verif.Props.C82_load"
   ],
   "note": "Log files and classes: always. Other datasets: once the connector has been loaded, also after it has been unloaded. Before, the calls have the number 0, which is an operation of the native connector: they succeed, transfer nothing and convert the dataset. Queries about the two operations are answered by the connector below, which does not know them; the query of the capability flags is undefined after H5Pset_vol with NULL, the documented way."
  },
  {
   "property": "C83",
   "status": "partial",
   "theorems": [
    "Verif.Props.C83_flush_partial",
    "Verif.Props.C83_call",
    "Verif.Props.C83_queue",
    "Verif.Props.C83_wide_violated"
   ],
   "note": "All calls, selections of the file and of memory, conversions and configurations; the cells of two calls of a process on one dataset must not interleave in row-major order (otherwise see C16 and C76). False for memory selections with a memory type wider than that of the dataset: the call is accepted and from then on every H5Fflush fails. Missing: interleaving calls, subfiles."
  },
  {
   "property": "C84",
   "status": "partial",
   "theorems": [
    "Verif.Props.C84_files_partial",
    "Verif.Props.C84_excl",
    "Verif.Props.C84_delete_violated",
    "Verif.Props.C84_native",
    "Verif.Props.C84_stack_violated",
    "Verif.Props.C84_leak_violated",
    "Verif.Props.C84_stack_partial"
   ],
   "note": "Any sequence of calls over the native connector, also with subfiles, except H5Fcreate with H5F_ACC_EXCL and subfiling, whose outcome is stated exactly. Violated: H5Fdelete leaves all subfiles, so that the file cannot be created with H5F_ACC_EXCL again; with another connector below H5Fdelete and H5Fis_accessible never answer; every call leaks. Over other connectors C84_stack_partial gives the exact condition under which the file system calls answer."
  },
  {
   "property": "C85",
   "status": "partial",
   "theorems": [
    "Verif.Props.C85_flat_partial",
    "Verif.Props.C85_refused",
    "Verif.Props.C85_pointers_violated"
   ],
   "note": "Holds for types without pointers inside; only the top-level variable-length string is refused. Every other type with a string or sequence of variable length inside is accepted and its pointers are stored, so that the values are lost with the memory (C85_pointers_violated)."
  },
  {
   "property": "C86",
   "status": "partial",
   "theorems": [
    "Verif.Props.C86_name",
    "Verif.Props.C86_file_partial",
    "Verif.Props.C86_flush_violated",
    "Verif.Props.C86_object_violated",
    "Verif.Props.C86_objects",
    "Verif.Props.C86_ordinary_partial"
   ],
   "note": "Names: always. H5Fflush: with a handle of the file, for histories that can be indexed. Violated: with any other object H5Fflush takes its structure for that of a file (undefined, in ordinary files as well); flush calls on objects succeed and write nothing out, for every history. What such calls do answer, and that they change nothing, is stated exactly (C86_objects); H5Fflush of an ordinary file is that of the connector below (C86_ordinary_partial)."
  },
  {
   "property": "C87",
   "status": "partial",
   "theorems": [
    "Verif.Props.C87_balance_partial",
    "Verif.Props.C87_free_partial",
    "Verif.Props.C87_inuse_partial",
    "Verif.Props.C87_over_partial",
    "Verif.Props.C87_log_violated",
    "Verif.Props.C87_again_violated",
    "Verif.Props.C87_twice_violated"
   ],
   "note": "All sequences of calls of an application that counts the first H5VL_log_register only: everything in use is valid, and the references are exactly those in use, given out, and lost in H5Pset_vol_log, H5VLconnector_str_to_info and H5Fopen. Violated by the documented use: the identifier is stale after the first complete use, and a second H5VL_log_register gives no reference of its own."
  },
  {
   "property": "C88",
   "status": "partial",
   "theorems": [
    "Verif.Props.C88_write_partial",
    "Verif.Props.C88_read_partial",
    "Verif.Props.C88_same",
    "Verif.Props.C88_back_partial",
    "Verif.Props.C88_members_violated",
    "Verif.Props.C88_silent_violated",
    "Verif.Props.C88_compound_violated"
   ],
   "note": "Any number of elements and any conversions: writes are right if the library has the conversion and the memory type names all members of the dataset; reads if no compound type is involved; equal types always. Violated otherwise: members that are not named are stored from uninitialised memory; without a conversion H5Dwrite stores the bytes as they are and succeeds; reading into another compound type passes no background buffer to H5Tconvert, which is undefined."
  },
  {
   "property": "C89",
   "status": "partial",
   "theorems": [
    "Verif.Props.C89_same",
    "Verif.Props.C89_flush",
    "Verif.Props.C89_close",
    "Verif.Props.C89_readback_partial",
    "Verif.Props.C89_agree",
    "Verif.Props.C89_big_violated",
    "Verif.Props.C89_filter_violated",
    "Verif.Props.C89_fail_violated",
    "Verif.Props.C89_order_violated",
    "Verif.Props.C89_block_violated"
   ],
   "note": "Proved: same stored bytes for all histories; a flush works exactly if no process queued 2 GiB, then as with passthru mode off; closing likewise; every read of flat blocks succeeds and returns the data last written, even where MPI-IO reads are undefined; what a read returns with passthru mode off it can return with it on. Violated: 2 GiB queued, blocks of three dimensions, filtered datasets, log datasets with descending addresses, log datasets that cannot be opened."
  },
  {
   "property": "C90",
   "status": "partial",
   "theorems": [
    "Verif.Props.C90_equal",
    "Verif.Props.C90_swap",
    "Verif.Props.C90_trans",
    "Verif.Props.C90_copy",
    "Verif.Props.C90_text_partial",
    "Verif.Props.C90_text_violated",
    "Verif.Props.C90_stale_violated",
    "Verif.Props.C90_foreign_partial"
   ],
   "note": "Comparison and copies: all stacks whose identifiers are valid. Text: printing is undefined exactly if a class in the stack has a value of eight digits or more or an identifier is not valid any more; otherwise the text is read back as equal information if the lowest connector reads its own text. Violated also: information with an invalid identifier compares equal to everything. C90_foreign_partial: read in an application without the connector below, the text is refused; if that connector does not read its part, the information is without it."
  },
  {
   "property": "C91",
   "status": "partial",
   "theorems": [
    "Verif.Props.C91_written",
    "Verif.Props.C91_readable",
    "Verif.Props.C91_meaning",
    "Verif.Props.C91_recover",
    "Verif.Props.C91_entry_partial",
    "Verif.Props.C91_header_violated",
    "Verif.Props.C91_ends_violated",
    "Verif.Props.C91_order_violated",
    "Verif.Props.C91_record_violated",
    "Verif.Props.C91_code_violated"
   ],
   "note": "Proved for the format as written (Spec/Format, dialect actual), for all histories: every metadata dataset is a text of it that describes the writes, and a text can be read in one way only. The documented format differs in five points, each shown: width of nproc (no file follows the document), end offset of process 0, order of starts and counts, nsel of record entries, encoded ends. Merged flushes and compressed entries are not covered."
  },
  {
   "property": "C92",
   "status": "partial",
   "theorems": [
    "Verif.Props.C92_replay",
    "Verif.Props.C92_others",
    "Verif.Props.C92_lost_violated",
    "Verif.Props.C92_incomplete_violated",
    "Verif.Props.C92_block_violated",
    "Verif.Props.C92_dump",
    "Verif.Props.C92_several_violated",
    "Verif.Props.C92_missing_violated",
    "Verif.Props.C92_dump_block_violated"
   ],
   "note": "Status 0 is proved to mean what it should, exactly, for h5lreplay and for h5ldump with one process, and h5lreplay touches no file but its output. Violated: a failing h5lreplay has already replaced the output (the check after opening the input looks at another identifier), files with a user block are replayed or dumped but reported as failures, h5ldump with several processes and h5ldump -k of a missing file end with status 0. What the tools do with open files is a parameter (see C35, C36, C51, C54, C71)."
  },
  {
   "property": "C93",
   "status": "partial",
   "theorems": [
    "Verif.Props.C93_record",
    "Verif.Props.C93_reference",
    "Verif.Props.C93_negative",
    "Verif.Props.C93_negative_violated",
    "Verif.Props.C93_scalar_violated",
    "Verif.Props.C93_overflow_violated"
   ],
   "note": "Memory of requests and of references proved for all selections with fewer than 2^30 coordinates; negative numbers of blocks are shown to fail except for -1 block of a one-dimensional dataset (store behind the allocation) and for scalar datasets (an entry without data), and the overflow from 2^30 coordinates on is shown."
  },
  {
   "property": "C94",
   "status": "partial",
   "theorems": [
    "Verif.Props.C94_cancel",
    "Verif.Props.C94_free",
    "Verif.Props.C94_once",
    "Verif.Props.C94_status_violated",
    "Verif.Props.C94_nothing_violated",
    "Verif.Props.C94_retry_violated",
    "Verif.Props.C94_silent_violated"
   ],
   "note": "Proved: when cancelling and releasing succeed, exactly; that they then release everything and that the request remains otherwise; that a released request cannot be used again. Shown to fail: the status is that of the last part, requests without parts, repeating a call that failed, watching a request without parts."
  },
  {
   "property": "C95",
   "status": "partial",
   "theorems": [
    "Verif.Props.C95_write",
    "Verif.Props.C95_effect",
    "Verif.Props.C95_read_partial",
    "Verif.Props.C95_history",
    "Verif.Props.C95_readback_partial"
   ],
   "note": "C95_write and C95_effect hold for every history and every write of several non-empty blocks inside the extent (number of dimensions times the size of the dataset below 2^63): the file is as after the write of the recorded blocks, and the recorded blocks leave in each cell what the blocks without whole dimensions leave. C95_history: so for histories in which any number of writes are such writes; every theorem about histories applies to the recorded ones. C95_read_partial, C95_readback_partial: reads after one such write and after any number of them, under the conditions of C02 on the recorded history."
  },
  {
   "property": "C96",
   "status": "partial",
   "theorems": [
    "Verif.Props.C96_short_violated",
    "Verif.Props.C96_number_violated",
    "Verif.Props.C96_endless_violated",
    "Verif.Props.C96_size_partial",
    "Verif.Props.C96_blocks_violated",
    "Verif.Props.C96_zeros",
    "Verif.Props.C96_reads",
    "Verif.Props.C96_dump",
    "Verif.Props.C96_written",
    "Verif.Props.C96_ref_violated",
    "Verif.Props.C96_null_violated",
    "Verif.Props.C96_parts",
    "Verif.Props.C96_anywhere"
   ],
   "note": "Violated: an incomplete header, a foreign dataset number, a size that is not positive in an entry of a removed dataset, a number of blocks that does not fit, and a reference to a place where no entry is are not checked. Shown: sizes that are not positive are refused in entries of datasets that are there (unless the entry refers to another and the index is the compact one); zeros are refused exactly when dataset 0 is there and 28 of them are there; the outcome for one metadata dataset is the outcome for every first read of every process, and for h5ldump -H if no dataset was removed; all histories write whole entries. With a limited metadata buffer (C96_parts) so for the first part of a damaged dataset, and for every read. Damage in any later part decides in the same way (C96_anywhere). Damaged tables of sections: C99."
  },
  {
   "property": "C97",
   "status": "partial",
   "theorems": [
    "Verif.Props.C97_token_partial",
    "Verif.Props.C97_reached",
    "Verif.Props.C97_hidden_violated",
    "Verif.Props.C97_index_partial",
    "Verif.Props.C97_index_violated",
    "Verif.Props.C97_refused_violated",
    "Verif.Props.C97_group_violated",
    "Verif.Props.C97_name_violated"
   ],
   "note": "What a name opens its token opens too. Tokens and indexes in groups other than the root group behave as in ordinary files; the index of the log in the root group and everything behind it is determined exactly; calls by index refused; names of groups not mapped; exact condition for H5Iget_name. Paths with an underscore after a slash (C59) are left out."
  },
  {
   "property": "C98",
   "status": "partial",
   "theorems": [
    "Verif.Props.C98_open",
    "Verif.Props.C98_number",
    "Verif.Props.C98_absent",
    "Verif.Props.C98_twins_violated",
    "Verif.Props.C98_id_violated",
    "Verif.Props.C98_foreign_violated",
    "Verif.Props.C98_sizes_violated",
    "Verif.Props.C98_values_violated",
    "Verif.Props.C98_query_violated",
    "Verif.Props.C98_count_violated"
   ],
   "note": "Holds for files in which every attribute is as the connector writes it (C98_open: the table of datasets is exactly the first dataset of every number; C98_number). Every kind of damage stated is shown to be accepted, to access memory outside, or to make the whole file unusable. Not covered: attributes with several dimensions, property lists, subfiles."
  },
  {
   "property": "C99",
   "status": "partial",
   "theorems": [
    "Verif.Props.C99_whole",
    "Verif.Props.C99_inner",
    "Verif.Props.C99_behind_violated",
    "Verif.Props.C99_last_violated",
    "Verif.Props.C99_none_violated",
    "Verif.Props.C99_inside_violated",
    "Verif.Props.C99_lost_violated"
   ],
   "note": "Violated. For every state and table: reads that load the metadata as a whole depend on the number of sections only; reads that load it in parts do not look at anything behind the ends the table says, so those writes are silently lost; ends before the table and inside an entry (where a part ends) are undefined; ends behind the dataset and tables without sections are refused by reads in parts only; when all sections fit into one part only the last end matters. Left out: numbers of sections of 2^60 and more (the sizes computed from them wrap around). That tables written by the connector are right is C11."
  },
  {
   "property": "C100",
   "status": "partial",
   "theorems": [
    "Verif.Props.C100_exact",
    "Verif.Props.C100_compress_partial",
    "Verif.Props.C100_decompress_partial",
    "Verif.Props.C100_roundtrip_partial",
    "Verif.Props.C100_into",
    "Verif.Props.C100_damaged_violated",
    "Verif.Props.C100_large_violated",
    "Verif.Props.C100_cut_violated"
   ],
   "note": "Proved for every input, every first buffer and every moment at which zlib tells the end: exactly which results are returned and which overflow (C100_exact); results below 1 GiB are returned exactly, in a buffer at most twice as large as needed, and come back unchanged; a buffer of a given size gives the complete content or an error. Violated: damaged or incomplete input is never refused (the size overflows), results of 2 GiB and more overflow, and H5VL_logi_filter_deflate may return a part of the stream as success."
  },
  {
   "property": "C101",
   "status": "partial",
   "theorems": [
    "Verif.Props.C101_shown",
    "Verif.Props.C101_refused",
    "Verif.Props.C101_replay",
    "Verif.Props.C101_processes",
    "Verif.Props.C101_together",
    "Verif.Props.C101_share_violated",
    "Verif.Props.C101_none_violated",
    "Verif.Props.C101_behind_violated",
    "Verif.Props.C101_inside_violated",
    "Verif.Props.C101_wrap_violated",
    "Verif.Props.C101_lost_violated"
   ],
   "note": "What h5ldump makes of a metadata dataset is stated exactly for every table and any uninitialised memory (C101_shown), as is what each of any number of processes of h5lreplay takes from it (C101_replay, C101_processes: at least as many sections as processes, tables that fit, datasets below 2 GiB; together they take every byte up to the last end once, C101_together): the tools fail for sections outside of the dataset. Violated: entries behind the last end and tables without sections are silently left out, an end inside an entry makes h5ldump, and h5lreplay if a share ends there, read beyond its buffer, and h5lreplay looks at four bytes of the last end only. Left out: more processes of h5lreplay than sections (wrong already for intact tables, C35), numbers of sections of 2^60 and more."
  },
  {
   "property": "C102",
   "status": "partial",
   "theorems": [
    "Verif.Props.C102_equal",
    "Verif.Props.C102_destroy",
    "Verif.Props.C102_assign_partial",
    "Verif.Props.C102_lifetimes_partial",
    "Verif.Props.C102_deep",
    "Verif.Props.C102_programs_partial",
    "Verif.Props.C102_copy_violated",
    "Verif.Props.C102_self_violated",
    "Verif.Props.C102_null_violated",
    "Verif.Props.C102_leak_violated"
   ],
   "note": "C102_programs_partial: every program that makes, assigns, converts and destroys any number of selections runs without undefined behaviour and gives what it gives if selections are values; assignment, comparison, conversion and destruction are also stated one by one for every state of memory. Refuted: the copy constructor (members never set, for every selection with dimension sizes), assignment of an object that owns its blocks to itself, destinations without dimension sizes of at least the same rank, and the release of the destination's sizes if the source has none. The functions are not called by the connector itself; the pointers of an array are taken in the order in which alloc set them."
  },
  {
   "property": "C103",
   "status": "partial",
   "theorems": [
    "Verif.Props.C103_usual",
    "Verif.Props.C103_refused",
    "Verif.Props.C103_negative",
    "Verif.Props.C103_reads",
    "Verif.Props.C103_reads_usual",
    "Verif.Props.C103_bits_violated",
    "Verif.Props.C103_minus_violated",
    "Verif.Props.C103_overrun_violated",
    "Verif.Props.C103_last_violated",
    "Verif.Props.C103_hidden_violated",
    "Verif.Props.C103_dump_violated",
    "Verif.Props.C103_runs_violated",
    "Verif.Props.C103_replay_usual",
    "Verif.Props.C103_replay_none_violated",
    "Verif.Props.C103_replay_bits_violated",
    "Verif.Props.C103_replay_overflow_violated",
    "Verif.Props.C103_replay_runs_violated"
   ],
   "note": "Violated. The number is multiplied by 8 without sign, so the three highest bits are lost. Below 2^61 - 1 the functions are those of C99 and C101 (C103_usual). Loads in parts and h5ldump refuse numbers whose 61 lowest bits tell a table that does not fit (C103_refused, h5ldump except for 2^63 - 1), and loads in parts refuse all negative numbers (C103_negative); no read that loads the metadata in parts succeeds if any dataset has a number of 2^61 or more (C103_reads; C103_reads_usual: otherwise they are those of C99). Violated: loads of the whole metadata ignore the three highest bits (C103_bits_violated) and take the table for entries with -1 (C103_minus_violated); loads in parts read behind the table with bit 61 or 62 set (C103_overrun_violated), namely with the last part of the dataset, the others being those of the number without the bits (C103_last_violated); h5ldump silently shows nothing for negative numbers (C103_hidden_violated) and reads behind its table with bit 61 or 62 set (C103_dump_violated). h5lreplay reads single words and is that of C101 if the table fits (C103_replay_usual); violated: it silently takes nothing for negative numbers (C103_replay_none_violated), one process does not notice bits 61 and 62 (C103_replay_bits_violated), and with several the product of process and number overflows (C103_replay_overflow_violated)."
  },
  {
   "property": "C104",
   "status": "partial",
   "theorems": [
    "Verif.Props.C104_lines",
    "Verif.Props.C104_format",
    "Verif.Props.C104_faithful",
    "Verif.Props.C104_empty_violated",
    "Verif.Props.C104_file_violated",
    "Verif.Props.C104_desc_violated"
   ],
   "note": "Proved for all non-empty sequences of bytes and any contents of the buffer: the text is exactly the lines of the specification (C104_lines), whose columns, characters and offsets are right for all bytes and offsets (C104_format), and determines the bytes (C104_faithful). Violated: without bytes the buffer is printed although it was never set, a file that cannot be opened is closed, and the description goes to stdout."
  }
 ]
}