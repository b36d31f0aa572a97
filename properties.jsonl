{"id": "C01", "title": "Reads return the last logged write (plain metadata format)", "statement": "With the plain metadata format (no selection encoding, no sharing, no merging, unfiltered datasets) and file space allocated at increasing addresses, after any history of H5Dwrite calls issued by any ranks, flushes and metadata flushes, a collective read of pairwise disjoint blocks returns, for every selected element, the bytes of the last write covering it in log order (flush number, then rank, then program order), and leaves the fill value where no write covers it.", "quantifier": "every number of ranks, every history of writes/flushes/reads, every dataset shape, element size, selection, requested block list, and every order in which the unstable sort may leave equal keys", "why_tests_cant": "the state space (histories x ranks x shapes x selections) is unbounded and the answer depends on file address ordering; tests sample a few patterns", "anchors": ["src/H5VL_log_dataseti.cpp:H5VL_log_dataseti_write", "src/H5VL_logi_nb.cpp:H5VL_log_nb_flush_write_reqs", "src/H5VL_log_filei_meta.cpp:H5VL_log_filei_metaflush", "src/H5VL_logi_nb.cpp:H5VL_log_nb_perform_read", "src/H5VL_log_dataseti.cpp:H5VL_log_dataset_readi_gen_rtypes"]}
{"id": "C02", "title": "Reads return the last logged write (default configuration)", "statement": "The same read-back guarantee holds with the default configuration of a created file: selection encoding and metadata sharing on, compact index.", "quantifier": "every history of writes, flushes, reads by any number of ranks", "why_tests_cant": "failures need a particular pair of writes inside one metadata epoch (same record twice, or a full-width multi-block write); a test suite that never repeats a selection never sees them", "anchors": ["src/H5VL_log_filei.cpp:H5VL_log_filei_parse_fcpl", "src/H5VL_log_dataseti.cpp:H5VL_log_dataseti_write", "src/H5VL_logi_idx_compact.cpp:H5VL_logi_compact_idx_t::parse_block"]}
{"id": "C03", "title": "A metadata entry decodes to the selection that was written", "statement": "Decoding the metadata entry produced for a write (plain format) yields the dataset id, the file offset and size, exactly the selected blocks in order, and for every block the byte offset of its data inside the data block.", "quantifier": "every dataset rank and shape, every non-empty list of blocks with 63-bit coordinates, record and non-record writes", "why_tests_cant": "round-trip over unbounded structured inputs", "anchors": ["src/H5VL_logi_nb.cpp:H5VL_log_wreq_t::H5VL_log_wreq_t", "src/H5VL_logi_dataspace.cpp:H5VL_log_selections::encode", "src/H5VL_logi_meta.cpp:H5VL_logi_metaentry_decode"]}
{"id": "C04", "title": "Selection encoding is lossless", "statement": "When selection encoding is on, decoding an encoded multi-block entry returns the blocks that were written.", "quantifier": "every dataset shape and every list of blocks lying inside the dataset extent", "why_tests_cant": "the failing inputs are those where a block spans a whole non-leading dimension; they are a thin slice of the space", "anchors": ["src/H5VL_logi_meta.hpp:H5VL_logi_sel_encode", "src/H5VL_logi_meta.hpp:H5VL_logi_sel_decode"]}
{"id": "C05", "title": "Parsing a metadata log recovers exactly the sequence of writes", "statement": "Parsing a concatenation of metadata entries returns one entry per write, in write order, and never reads outside the buffer.", "quantifier": "every sequence of writes of any length to any datasets", "why_tests_cant": "arbitrarily long byte strings, boundaries are data dependent", "anchors": ["src/H5VL_logi_idx_list.cpp:H5VL_logi_array_idx_t::parse_block", "src/H5VL_logi_idx_compact.cpp:H5VL_logi_compact_idx_t::parse_block"]}
{"id": "C06", "title": "Metadata sharing is transparent", "statement": "Turning metadata sharing on changes only the size of the metadata: the entries recovered when the log is read back are the same as with sharing off.", "quantifier": "every sequence of writes to any datasets between two metadata flushes, both index types", "why_tests_cant": "needs the invariant that the recorded back-reference always lands on the entry whose bytes were compared, for all interleavings of shared and unshared entries", "anchors": ["src/H5VL_log_dataseti.cpp:H5VL_log_dataseti_write", "src/H5VL_logi_nb.cpp:H5VL_log_wreq_t::operator==", "src/H5VL_logi_meta.cpp:H5VL_logi_metaentry_ref_decode"]}
{"id": "C07", "title": "The two index types give the same search results", "statement": "For the same metadata log and the same read request the list index and the compact index return the same matches in the same order.", "quantifier": "every metadata log produced by the writer and every request", "why_tests_cant": "equivalence of two implementations over all inputs", "anchors": ["src/H5VL_logi_idx_list.cpp:H5VL_logi_array_idx_t::search", "src/H5VL_logi_idx_compact.cpp:H5VL_logi_compact_idx_t::search"]}
{"id": "C08", "title": "Bounded metadata loading visits every section exactly once", "statement": "With a metadata buffer limit, loading the metadata piece by piece terminates and visits every section of every metadata dataset exactly once and in order, so the matches found are those of loading everything at once.", "quantifier": "every number of metadata datasets and sections, every section size (including empty), every buffer limit", "why_tests_cant": "loop-carried cursor over two levels with a data-dependent step; off-by-one errors only show at particular size patterns", "anchors": ["src/H5VL_log_filei_meta.cpp:H5VL_log_filei_metaupdate_part", "src/H5VL_logi_nb.cpp:H5VL_log_read_idx_search"]}
{"id": "C09", "title": "Flushed data blocks never overlap and tile the log dataset", "statement": "In a flush, the file ranges assigned to the writes of all ranks are pairwise disjoint, lie inside the new log dataset, cover it completely, and keep rank order and program order.", "quantifier": "every number of ranks and every list of write sizes per rank", "why_tests_cant": "depends on exclusive-scan arithmetic over all rank counts", "anchors": ["src/H5VL_logi_nb.cpp:H5VL_log_nb_flush_write_reqs"]}
{"id": "C10", "title": "A queued write is written out exactly once", "statement": "Whatever the interleaving of writes and flushes, each write's data is placed in exactly one log dataset; flushing again without new writes changes nothing; a metadata flush emits exactly one metadata entry per write since the last one.", "quantifier": "every history of writes, flushes and metadata flushes", "why_tests_cant": "at-most-once/at-least-once over unbounded histories", "anchors": ["src/H5VL_logi_nb.cpp:H5VL_log_nb_flush_write_reqs", "src/H5VL_log_filei_meta.cpp:H5VL_log_filei_metaflush"]}
{"id": "C11", "title": "The section map of a metadata dataset is well formed", "statement": "The header of every metadata dataset records the number of sections and increasing section end offsets; section i is exactly the bytes produced by rank i and the last end offset is the dataset size.", "quantifier": "every number of ranks and every metadata size per rank", "why_tests_cant": "parametric in rank count and sizes", "anchors": ["src/H5VL_log_filei_meta.cpp:H5VL_log_filei_metaflush"]}
{"id": "C12", "title": "Block intersection is exact", "statement": "The overlap computed between a written block and a requested block contains a cell iff both blocks contain it; no overlap is reported iff they share no cell.", "quantifier": "every number of dimensions and every pair of blocks", "why_tests_cant": "all integer boxes", "anchors": ["src/H5VL_logi_idx_list.cpp:intersect", "src/H5VL_logi_idx_compact.cpp:intersect"]}
{"id": "C13", "title": "Normalising a hyperslab keeps the selected cells", "statement": "Merging, sorting and breaking down the block list of a hyperslab selection neither drops, adds nor duplicates a selected cell.", "quantifier": "every list of blocks in any number of dimensions", "why_tests_cant": "all block lists; merging is order dependent", "anchors": ["src/H5VL_logi_dataspace.cpp:H5VL_log_selections::H5VL_log_selections(hid_t)", "src/H5VL_logi_dataspace.cpp:merge_blocks", "src/H5VL_logi_dataspace.cpp:sortblocks"]}
{"id": "C14", "title": "Selected elements are visited in HDF5 order", "statement": "The k-th element of a contiguous user buffer belongs to the k-th selected element in the order HDF5 defines: row-major order for hyperslabs, the order given by the user for point selections.", "quantifier": "every hyperslab block list and every point list", "why_tests_cant": "ordering property over all selections", "anchors": ["src/H5VL_logi_dataspace.cpp:H5VL_log_selections::H5VL_log_selections(hid_t)"]}
{"id": "C15", "title": "Read segments are sorted without loss", "statement": "Sorting the (file offset, memory offset, length) segments of an interleaved read yields a permutation of the segments in non-decreasing file offset order.", "quantifier": "every number of segments and every offsets, duplicates included", "why_tests_cant": "hand-written hybrid bubble/quick sort, all inputs", "anchors": ["src/H5VL_log_dataseti.cpp:sortoffsets"]}
{"id": "C16", "title": "Overlapping blocks in one read each get their data", "statement": "When several blocks read together (H5Dread_n, or several buffered reads completed by one flush) select overlapping regions, every block receives the same data it would receive if read alone.", "quantifier": "every list of requested blocks, overlapping or not, and every log", "why_tests_cant": "failure needs nested or crossing ranges combined with several log entries", "anchors": ["src/H5VL_log_dataseti.cpp:H5VL_log_dataset_readi_gen_rtypes", "src/H5VL_logi_nb.cpp:H5VL_log_nb_perform_read"]}
{"id": "C17", "title": "H5Dwrite_n is equivalent to n separate writes", "statement": "Writing n blocks with H5Dwrite_n from one packed buffer has the same effect on later reads as n H5Dwrite calls in block order; when blocks overlap the later block wins.", "quantifier": "every list of blocks and every buffer", "why_tests_cant": "equivalence over all block lists", "anchors": ["src/H5VL_log_dataset.cpp:H5VL_log_dataset_optional", "src/H5VL_log_dataseti.cpp:H5VL_log_dataseti_write"]}
{"id": "C18", "title": "Appending records reads back the right record", "statement": "For a dataset with unlimited first dimension, a write confined to one record reads back as that record and touches no other record.", "quantifier": "every record number, every sub-selection, records written in any order", "why_tests_cant": "record numbers are elided and re-inserted by the format; all record/sub-selection pairs", "anchors": ["src/H5VL_logi_nb.cpp:H5VL_log_wreq_t::H5VL_log_wreq_t", "src/H5VL_logi_meta.cpp:H5VL_logi_metaentry_decode", "src/H5VL_logi_idx_compact.cpp:H5VL_logi_compact_idx_t::search"]}
{"id": "C19", "title": "An independent read never loses queued writes", "statement": "A read (collective or independent) never discards a write that was queued but not yet flushed; after the next flush that write is readable.", "quantifier": "every history mixing writes, flushes, independent and collective reads", "why_tests_cant": "loss needs an unflushed write queued after a flush and before an independent read", "anchors": ["src/H5VL_log_dataseti.cpp:H5VL_log_dataseti_read", "src/H5VL_log_filei_meta.cpp:H5VL_log_filei_metaflush"]}
{"id": "C20", "title": "Flushed data survives a crash", "statement": "Once H5Fflush has returned on all ranks, data written before it is readable after the process dies and the file is opened again.", "quantifier": "every history and every crash point", "why_tests_cant": "every crash point; unit tests always close the file", "anchors": ["src/H5VL_log_filei.cpp:H5VL_log_filei_flush", "src/H5VL_log_filei.cpp:H5VL_log_filei_close"]}
{"id": "C21", "title": "Close makes every write durable", "statement": "After H5Fclose returns successfully, reopening the file and reading returns every write ever issued, including writes that were still queued at close.", "quantifier": "every history ending in close, followed by open", "why_tests_cant": "all histories; attribute counters must match the number of log datasets", "anchors": ["src/H5VL_log_filei.cpp:H5VL_log_filei_close", "src/H5VL_log_filei.cpp:H5VL_log_filei_post_open"]}
{"id": "C22", "title": "Internal buffer budget accounting is exact", "statement": "The amount of internal buffer in use equals the total size of live internal buffers, never exceeds the limit set by the user, and returns to its previous value when buffers are released; a request over the limit fails without changing the state.", "quantifier": "every sequence of allocations and releases and every limit", "why_tests_cant": "all alloc/free histories", "anchors": ["src/H5VL_log_filei.cpp:H5VL_log_filei_balloc", "src/H5VL_log_filei.cpp:H5VL_log_filei_bfree"]}
{"id": "C23", "title": "Filtered datasets read back what was written", "statement": "For a dataset with supported filters, data written and then read is returned unchanged.", "quantifier": "every filter list and every data block", "why_tests_cant": "composition of reversible transforms over all data; requires the reverse pipeline to be the inverse", "anchors": ["src/H5VL_logi_filter.cpp:H5VL_logi_filter", "src/H5VL_logi_filter.cpp:H5VL_logi_unfilter"]}
{"id": "C24", "title": "Metadata merging is transparent", "statement": "With metadata merging on, the blocks recovered from the merged entry of a dataset are the blocks of the merged writes in order.", "quantifier": "every sequence of writes to a dataset between flushes", "why_tests_cant": "layout errors only appear with two or more appended writes", "anchors": ["src/H5VL_logi_nb.cpp:H5VL_log_merged_wreq_t::append", "src/H5VL_logi_nb.cpp:H5VL_log_merged_wreq_t::init"]}
{"id": "C25", "title": "Metadata compression is transparent", "statement": "With metadata compression on, decoding a compressed entry returns the blocks that were written.", "quantifier": "every selection, every lossless compressor", "why_tests_cant": "all selections; depends on which bytes are compressed and which are read raw", "anchors": ["src/H5VL_log_dataseti.cpp:H5VL_log_dataseti_write", "src/H5VL_logi_meta.cpp:H5VL_logi_metaentry_decode"]}
{"id": "C26", "title": "The user buffer may be reused after a buffered write", "statement": "When a write is issued with H5Pset_buffered(true), modifying the user buffer after the call returns does not change the data written at the next flush.", "quantifier": "every buffer content, every later modification before the flush", "why_tests_cant": "all modifications between call and flush", "anchors": ["src/H5VL_log_dataseti.cpp:H5VL_log_dataseti_write"]}
{"id": "C27", "title": "A failed write has no effect on later writes", "statement": "If H5Dwrite fails, later successful writes are recorded and read back as if the failed call had not been made.", "quantifier": "every history with failures at any point", "why_tests_cant": "error paths at every point of every history", "anchors": ["src/H5VL_log_dataseti.cpp:H5VL_log_dataseti_write"]}
{"id": "C28", "title": "Changing the extent is all-or-nothing and keeps data in range", "statement": "H5Dset_extent either succeeds and updates all dimensions or fails and leaves the extent as it was.", "quantifier": "every current extent, maximum extent and requested extent", "why_tests_cant": "failures in the middle of the dimension loop", "anchors": ["src/H5VL_log_dataset.cpp:H5VL_log_dataset_specific"]}
{"id": "C29", "title": "Every rank belongs to exactly one subfile group", "statement": "With subfiling, every rank is assigned exactly one group in range, groups are contiguous in rank order, non-empty when there are at least as many ranks as groups, and all ranks agree on the assignment.", "quantifier": "every number of ranks and every requested number of subfiles", "why_tests_cant": "integer division edge cases for all pairs", "anchors": ["src/H5VL_log_filei.cpp:H5VL_log_filei_calc_node_rank", "src/H5VL_log_filei.cpp:H5VL_log_filei_post_create"]}
{"id": "C30", "title": "Reading a subfiled dataset sees the data of all groups", "statement": "With subfiling on, a read returns data written by ranks of every group, and the stored number of groups is what the reader uses.", "quantifier": "every number of groups and every history", "why_tests_cant": "needs more than one group plus a reader outside the writing group", "anchors": ["src/H5VL_logi_nb.cpp:H5VL_log_nb_flush_read_reqs", "src/H5VL_log_filei.cpp:H5VL_log_filei_post_open"]}
{"id": "C31", "title": "User names never clash with internal names", "statement": "The mapping from user-visible object names to stored names is injective, is undone when names are reported back, and never maps a user name onto an internal object.", "quantifier": "every string", "why_tests_cant": "all strings, in particular those starting with underscores or containing path separators", "anchors": ["src/H5VL_logi_util.hpp:H5VL_logi_name_remap"]}
{"id": "C32", "title": "Waiting on a combined request reports all parts", "statement": "Waiting on a request made of several under-VOL requests reports success only when all have succeeded, reports failure if any failed, and a notification callback fires exactly once after the last part completes.", "quantifier": "every number of parts and every completion order", "why_tests_cant": "all schedules of asynchronous completion", "anchors": ["src/H5VL_log_req.cpp", "src/H5VL_log_reqi.cpp"]}
{"id": "C33", "title": "Options set by the user are the options in effect", "statement": "Each file option takes effect as documented: the environment variable overrides the property, setting a property then getting it returns the value set.", "quantifier": "every combination of property values and environment settings", "why_tests_cant": "all combinations; several setters are silent", "anchors": ["src/H5VL_log.cpp", "src/H5VL_log_filei.cpp:H5VL_log_filei_parse_fapl", "src/H5VL_log_filei.cpp:H5VL_log_filei_parse_fcpl"]}
{"id": "C34", "title": "Internal attributes are invisible when addressing by index", "statement": "Addressing the attributes of a dataset by index shows exactly the user attributes in order.", "quantifier": "every number of user attributes, every index, both orders", "why_tests_cant": "index arithmetic for both directions and all counts", "anchors": ["src/H5VL_log_att.cpp:H5VL_log_attr_get", "src/H5VL_log_att.cpp:H5VL_log_attr_open"]}
{"id": "C35", "title": "The replay tool applies every metadata section exactly once", "statement": "h5lreplay distributes the sections of every metadata dataset over its processes so that every section (and every entry) is replayed by exactly one process, and parsing terminates.", "quantifier": "every number of sections and processes", "why_tests_cant": "all pairs (sections, processes)", "anchors": ["utils/h5lreplay/h5lreplay_meta.cpp:h5lreplay_parse_meta"]}
{"id": "C36", "title": "The dump tool prints every section with its own bounds", "statement": "h5ldump visits every metadata section with the start and end offsets recorded in the file.", "quantifier": "every section map", "why_tests_cant": "all section maps and all contents of the memory that the table is allocated in", "anchors": ["utils/h5ldump/h5ldump_meta.cpp:h5ldump_mdset"]}
{"id": "C37", "title": "File offsets map back to the log dataset that contains them", "statement": "Given the ordered start addresses of the log datasets, looking up the file offset of a data block returns the log dataset the block was written to.", "quantifier": "every sequence of log dataset addresses and sizes and every offset", "why_tests_cant": "all address layouts", "anchors": ["src/H5VL_log_dataseti.cpp:foff2logidx"]}
{"id": "C38", "title": "Passthru reads select the right bytes of a log entry", "statement": "In passthru mode the bytes selected in the log dataset for a block are the bytes of exactly the requested cells, in order.", "quantifier": "every number of dimensions, entry shape and sub-block", "why_tests_cant": "a single stride can only describe some shapes; all shapes must be considered", "anchors": ["src/H5VL_log_dataseti.cpp:sel_space"]}
{"id": "C39", "title": "Dataset identifiers are unique and stable", "statement": "Every dataset created in a file gets an identifier different from every other dataset of the file, and it keeps it across close and open.", "quantifier": "every history of creates, closes and opens", "why_tests_cant": "all histories across sessions", "anchors": ["src/H5VL_log_dataset.cpp:H5VL_log_dataset_create", "src/H5VL_log_filei.cpp:H5VL_log_filei_post_open"]}
{"id": "C40", "title": "The metadata format does not depend on the host byte order", "statement": "Byte swapping applied on big-endian hosts is an involution and a file written on a host of either byte order reads back the same values on the other.", "quantifier": "every 32/64-bit value and every buffer length", "why_tests_cant": "hosts of the other byte order are not available to the tests", "anchors": ["src/H5VL_logi_util.hpp:H5VL_logi_lreverse", "src/H5VL_logi_util.hpp:H5VL_logi_llreverse"]}
{"id": "C41", "title": "Opening the same file twice yields the same file object", "statement": "While a file is open, opening it again finds the open file; different files never share state; closing forgets it.", "quantifier": "every history of opens and closes of any files", "why_tests_cant": "identity by partial key fails only for particular key collisions", "anchors": ["src/H5VL_log_filei.cpp:H5VL_log_filei_register", "src/H5VL_log_filei.cpp:H5VL_log_filei_search"]}
{"id": "C42", "title": "The file is closed exactly once, after its last user", "statement": "The underlying file is closed when and only when the file handle and every object handle obtained from it have been closed, and never twice.", "quantifier": "every history of opens and closes of file and objects in any order", "why_tests_cant": "all orders of handle release", "anchors": ["src/H5VL_log_filei.cpp:H5VL_log_filei_inc_ref", "src/H5VL_log_filei.cpp:H5VL_log_filei_dec_ref"]}
{"id": "C43", "title": "A metadata flush involves all ranks or none in its barrier", "statement": "Every collective call made during a metadata flush is made by all members of its communicator.", "quantifier": "every number of groups and every distribution of writes over groups", "why_tests_cant": "hang only for particular distributions of data over groups", "anchors": ["src/H5VL_log_filei_meta.cpp:H5VL_log_filei_metaflush"]}
{"id": "C44", "title": "The file view of a read is monotone", "statement": "The file displacements handed to MPI-IO for a read never decrease, as the MPI standard requires of a file view.", "quantifier": "every list of requested blocks and every log", "why_tests_cant": "ordering over all block combinations", "anchors": ["src/H5VL_log_dataseti.cpp:H5VL_log_dataset_readi_gen_rtypes", "src/H5VL_logi_idx.cpp:operator>"]}
{"id": "C45", "title": "Unlinking a dataset does not affect others", "statement": "After a dataset has been removed, every other dataset still reads back its own data.", "quantifier": "every history and every set of removed datasets", "why_tests_cant": "needs an entry of a surviving dataset that refers to an entry of a removed one", "anchors": ["src/H5VL_logi_idx_list.cpp:H5VL_logi_array_idx_t::parse_block", "src/H5VL_logi_idx_compact.cpp:H5VL_logi_compact_idx_t::parse_block"]}
{"id": "C46", "title": "Connector configuration strings round-trip", "statement": "Converting connector info to a string and back gives the same configuration and never writes outside the string buffer.", "quantifier": "every under-VOL identifier and every nested info string", "why_tests_cant": "all lengths", "anchors": ["src/H5VL_log_info.cpp:H5VL_log_info_to_str", "src/H5VL_log_info.cpp:H5VL_log_str_to_info"]}
{"id": "C47", "title": "Memory selections scatter and gather consistently", "statement": "Writing from a memory selection packs exactly the selected memory elements in order, reading into a memory selection stores exactly those elements and leaves all other memory untouched.", "quantifier": "every memory space shape, every list of disjoint blocks, every element size", "why_tests_cant": "all shapes and selections", "anchors": ["src/H5VL_logi_dataspace.cpp:H5VL_log_selections::get_mpi_type", "src/H5VL_logi_nb.cpp:H5VL_log_nb_perform_read"]}
{"id": "C48", "title": "Pool buffers never overlap", "statement": "Buffers handed out by the internal pool and not yet released never overlap and lie inside the memory of the pool.", "quantifier": "every sequence of pool allocations and releases", "why_tests_cant": "all histories", "anchors": ["src/H5VL_log_filei.cpp:H5VL_log_filei_pool_alloc"]}
{"id": "C49", "title": "Every dataset of a reopened file is known to it", "statement": "When an existing file is opened, every user dataset in it is visited and its description loaded, so that a later read finds its log entries whatever the dataset is called.", "quantifier": "every stored object name", "why_tests_cant": "all strings; only names with particular first characters are skipped", "anchors": ["src/H5VL_log_filei.cpp:H5VL_log_filei_dset_visit", "src/H5VL_log_filei.cpp:H5VL_log_filei_post_open"]}
{"id": "C50", "title": "Reads through selections return elements written through selections", "statement": "If H5Dwrite is called with file dataspace selections (hyperslab, points, all) and H5Dread later with any other selection, element number k of the read buffer is the element that the last write covering the k-th cell of the read selection stored for that cell (element number j of its buffer, if the cell was the j-th cell of the write selection), else the fill value, else unchanged; nothing outside the buffer changes.", "quantifier": "every sequence of writes, flushes and reopenings by any number of processes, every write selection, every read selection, every buffer", "why_tests_cant": "all pairs of write and read selections in any number of dimensions and all histories between them; the cell order is decided by a recursive normalisation of block lists", "anchors": ["src/H5VL_log_dataset.cpp:H5VL_log_dataset_write", "src/H5VL_log_dataset.cpp:H5VL_log_dataset_read", "src/H5VL_log_dataseti.cpp:H5VL_log_dataseti_write", "src/H5VL_log_dataseti.cpp:H5VL_log_dataseti_read", "src/H5VL_logi_dataspace.cpp:H5VL_log_selections", "src/H5VL_logi_nb.cpp:H5VL_log_nb_perform_read"]}
{"id": "C51", "title": "h5lreplay reproduces the data", "statement": "Replaying a closed log file with the h5lreplay utility, with any number of processes and in any schedule, succeeds and gives a file in which every element of every dataset has the value of the last write covering it, i.e. the value that reading the log file through the connector returns; elements never written stay unwritten.", "quantifier": "every sequence of dataset creations, writes, flushes, extent changes and reopenings by any number of processes, every metadata configuration, every number of replaying processes and every interleaving of their writes", "why_tests_cant": "all histories and all schedules; the order in which overlapping writes are replayed depends on the distribution of metadata sections over processes and epochs", "anchors": ["utils/h5lreplay/h5lreplay.cpp:h5lreplay_core", "utils/h5lreplay/h5lreplay_meta.cpp:h5lreplay_parse_meta", "utils/h5lreplay/h5lreplay_data.cpp:h5lreplay_read_data", "utils/h5lreplay/h5lreplay_data.cpp:h5lreplay_write_data", "src/H5VL_log_filei_meta.cpp:H5VL_log_filei_metaflush"]}
{"id": "C52", "title": "Property lists obtained from an open file report the options in effect", "statement": "For every open file, H5Fget_access_plist and H5Fget_create_plist succeed, and querying the returned lists with H5Pget_meta_merge, H5Pget_meta_share, H5Pget_meta_zip, H5Pget_sel_encoding, H5Pget_subfiling, H5Pget_passthru, H5Pget_data_layout, H5Pget_single_subfile_read and H5Pget_idx_buffer_size gives the value with which the file is being operated.", "quantifier": "every combination of property lists, environment variables and options stored in the file", "why_tests_cant": "all combinations of options from three sources; the lists are rebuilt from flags by conditional setters, so an error shows only for particular flag combinations", "anchors": ["src/H5VL_log_file.cpp:H5VL_log_file_get", "src/H5VL_log_filei.cpp:H5VL_log_filei_get_under_plist", "src/H5VL_log.cpp:H5Pset_sel_encoding", "src/H5VL_log.cpp:H5Pget_meta_share"]}
{"id": "C53", "title": "Reads are repeatable, change nothing, and agree between processes", "statement": "After every history of operations on an open file, a read (H5Dread, H5Dread_n, or a flush of queued reads) leaves the stored bytes, the logged writes and the options of the file as they are; every later read of any blocks by any process has exactly the results it would have had without the first read; a read of the same blocks has the same results on every process; and a read that follows a read finds nothing left to flush.", "quantifier": "every history of creations, writes, flushes, extent changes, reads and reopenings by any number of processes, every configuration and index type, all requests", "why_tests_cant": "reads build and keep an index in memory, so a read could influence later ones through any earlier history; tests compare a few reads only", "anchors": ["src/H5VL_logi_nb.cpp:H5VL_log_read_idx_search", "src/H5VL_logi_nb.cpp:H5VL_log_nb_flush_read_reqs", "src/H5VL_log_filei_meta.cpp:H5VL_log_filei_metaupdate", "src/H5VL_log_dataseti.cpp:H5VL_log_dataseti_read"]}
{"id": "C54", "title": "h5lreplay reproduces objects and attributes under the user's names", "statement": "For every file written with the connector, the file made by h5lreplay has exactly the groups, datasets, named types, further links and attributes that the user created, under the names the user gave them, with the same maximal dimensions, and every dataset is known by its number so that its data can be replayed; objects of the connector do not appear in it.", "quantifier": "every well-formed stored file: any tree of groups, any names, any attributes, any number of datasets", "why_tests_cant": "the tests replay a few flat files with plain names; the rule that escapes underscores is applied by the tool to the first component of a path only, so its failures depend on the shape of the tree and on the names", "anchors": ["utils/h5lreplay/h5lreplay_copy.cpp:h5lreplay_copy_handler", "utils/h5lreplay/h5lreplay_copy.cpp:h5lreplay_attr_copy_handler", "utils/h5lreplay/h5lreplay.cpp:h5lreplay_core"]}
{"id": "C55", "title": "h5lreplay replays every subfile exactly once", "statement": "For a file with any number of subfiles, written by any number of processes: h5lreplay with any number of processes looks for each subfile where the connector created it, each subfile is replayed completely by exactly one group of processes, each of its metadata sections by one process, no other file is opened, and the output has for every byte of every dataset the value of the last write, whichever subfile holds it.", "quantifier": "every number of subfiles and processes, every split of the processes into groups, every history of every subfile, every interleaving of the processes", "why_tests_cant": "tests run with few processes and fixed groupings; which process takes which subfile depends on three numbers and on the split, and the interleaving of the writes is not controlled", "anchors": ["utils/h5lreplay/h5lreplay.cpp:split_comm", "utils/h5lreplay/h5lreplay.cpp:h5lreplay_core", "utils/h5lreplay/h5lreplay_meta.cpp:h5lreplay_parse_meta", "utils/h5lreplay/h5lreplay_data.cpp:h5lreplay_write_data"]}
{"id": "C56", "title": "The logs of a file with subfiles survive reads and reopening", "statement": "For a file with subfiles, any sequence of flushes of data and metadata, reads, closes and reopenings: no operation fails, no subfile loses a data or metadata dataset, the subfile that is opened is the one that was created whatever the path of the file is, the counters of the open file are the numbers of datasets in its subfile, so that the next flush creates a new one, and the attribute of the subfile always has the options with which its metadata is written.", "quantifier": "every sequence of operations, every creation flag, every path, every set of options", "why_tests_cant": "the tests of subfiling write and close in the current directory; the counters go wrong only after a read or a reopening, and the path only in another directory", "anchors": ["src/H5VL_log_filei.cpp:H5VL_log_filei_create_subfile", "src/H5VL_log_filei.cpp:H5VL_log_filei_open_subfile", "src/H5VL_log_filei.cpp:H5VL_log_filei_close", "src/H5VL_log_filei.cpp:H5VL_log_filei_post_open", "src/H5VL_logi_nb.cpp:H5VL_log_nb_flush_read_reqs"]}
{"id": "C57", "title": "The aligned layout puts data where the metadata and the stripes say", "statement": "With the aligned data layout, a file can be created; each process writes its data in the stripes of its storage target, byte by byte at the position that follows from its offset in the stream of the target, inside the log dataset; the streams of different processes do not overlap; sends and receives between groups match; and the offset recorded for each request is the position of its data in the file.", "quantifier": "every stripe size, number of targets, grouping of processes, number and size of requests, address of the log dataset", "why_tests_cant": "the layout needs striping information of a parallel file system that test machines do not have, and one stripe or one group per target hides the errors", "anchors": ["src/H5VL_logi_nb.cpp:H5VL_log_nb_ost_write", "src/H5VL_logi_nb.cpp:H5VL_log_nb_flush_write_reqs_align", "src/H5VL_log_filei.cpp:H5VL_log_filei_calc_node_rank", "src/H5VL_log_filei.cpp:H5VL_log_filei_parse_strip_info", "src/H5VL_log_filei.cpp:H5VL_log_filei_post_create"]}
{"id": "C58", "title": "A file can be written again after a crash", "statement": "Whatever earlier sessions did with a file (closed it, or died at any point), in every later session that opens it H5Fflush of new data, the metadata flush before a read, and H5Fclose succeed: they do not fail because of log datasets left in the file.", "quantifier": "every sequence of sessions, every sequence of data and metadata flushes in each, every crash point", "why_tests_cant": "the tests never kill a run and reopen its file for writing", "anchors": ["src/H5VL_logi_nb.cpp:H5VL_log_nb_flush_write_reqs", "src/H5VL_log_filei_meta.cpp:H5VL_log_filei_metaflush", "src/H5VL_log_filei.cpp:H5VL_log_filei_post_open", "src/H5VL_log_filei.cpp:H5VL_log_filei_close"]}
{"id": "C59", "title": "Names of a log-based file behave like those of an ordinary file", "statement": "Every sequence of calls that create, open, look up, delete, move, copy, link, list, visit and count objects by name tells the user the same on a log-based file as on an ordinary HDF5 file, and no such call gives access to the group of the log or removes it.", "quantifier": "every sequence of operations, every path, every handle, both orders of listing", "why_tests_cant": "all sequences of operations and all paths, in particular paths with several components", "anchors": ["src/H5VL_log_link.cpp", "src/H5VL_log_group.cpp", "src/H5VL_log_obj.cpp:H5VL_log_object_open", "src/H5VL_log_linki.cpp", "src/H5VL_log_obji.cpp", "src/H5VL_logi_util.hpp:H5VL_logi_name_remap"]}
{"id": "C60", "title": "Object information counts the attributes of the user", "statement": "The number of attributes reported by H5Oget_info, H5Oget_info_by_name and to the callback of H5Ovisit is the number of attributes the user created on the object.", "quantifier": "every kind of object and of handle, log-based and ordinary files, every number of attributes", "why_tests_cant": "all combinations of the handle used and the object named", "anchors": ["src/H5VL_log_obj.cpp:H5VL_log_object_get", "src/H5VL_log_obji.cpp:H5VL_log_obji_iterate_op"]}
{"id": "C61", "title": "Collective operations complete, and act as one step, in every order of the processes", "statement": "When all processes of a file make the same sequence of collective operations (flush, blocking read, close), and write on their own in between, every process returns from every operation, in whatever order the processes run, and the file is the same as if each operation had been done by all processes in one step.", "quantifier": "every number of processes, every grouping into subfiles, every distribution of the writes, every selection of every process, every interleaving of the MPI calls", "why_tests_cant": "tests run few of the interleavings, with few processes that mostly do the same; a hang depends on which processes have data or find some", "anchors": ["src/H5VL_logi_nb.cpp:H5VL_log_nb_flush_write_reqs", "src/H5VL_logi_nb.cpp:H5VL_log_nb_perform_read", "src/H5VL_log_filei_meta.cpp:H5VL_log_filei_metaflush", "src/H5VL_log_filei.cpp:H5VL_log_filei_close", "src/H5VL_log_dataseti.cpp:H5VL_log_dataseti_read"]}
{"id": "C62", "title": "Operations issued asynchronously can be waited for", "statement": "An operation that is given a place for a request either completes before it returns, or hands out a request; waiting for the request succeeds and reports success exactly if everything the operation has left to the under VOL has succeeded.", "quantifier": "every callback that takes a request, every combination of answers of the under VOL (failure, done at once, a request), every status its requests end with", "why_tests_cant": "the native VOL never returns requests, so tests that use it exercise none of this; an asynchronous under VOL can answer in any way", "anchors": ["src/H5VL_log_req.cpp:H5VL_log_request_wait", "src/H5VL_log_reqi.cpp:H5VL_log_req_t::append", "src/H5VL_log_obji.cpp:H5VL_log_obj_t", "src/H5VL_log_att.cpp:H5VL_log_attr_get", "src/H5VL_log_dataset.cpp:H5VL_log_dataset_create", "src/H5VL_log_datatype.cpp:H5VL_log_datatype_commit", "src/H5VL_log_group.cpp:H5VL_log_group_create", "src/H5VL_log_link.cpp:H5VL_log_link_specific", "src/H5VL_log_obj.cpp:H5VL_log_object_open"]}
{"id": "C63", "title": "Loading and unloading the connector any number of times leaves MPI and the library in order", "statement": "MPI is initialised and finalised at most once in a process, whether by the application or by the connector; after each load that succeeds the connector can be used, and a failed load does not prevent later ones.", "quantifier": "every sequence of loads and unloads of the connector (with success or failure of each registration) and of MPI_Init and MPI_Finalize calls of the application", "why_tests_cant": "tests initialise MPI themselves, load the connector once and keep it until the end", "anchors": ["src/H5VL_log_main.cpp:H5VL_log_init", "src/H5VL_log_main.cpp:H5VL_log_obj_term"]}
{"id": "C64", "title": "An operation on several datasets acts as one call for each dataset and reports errors by its result", "statement": "H5Dwrite_multi and H5Dread_multi have the effect of one call for each dataset in turn; if one of them fails, the call returns an error; and a collective read completes whatever datasets each process reads, also if the numbers differ.", "quantifier": "every number of datasets, every list of requests, every position of a failure, every number of processes and every choice of datasets on each", "why_tests_cant": "tests write one dataset at a time with matching selections on all processes; failures in the middle of a list and differing lists are not exercised", "anchors": ["src/H5VL_log_dataset.cpp:H5VL_log_dataset_write_2", "src/H5VL_log_dataset.cpp:H5VL_log_dataset_read_2"]}
{"id": "C65", "title": "A session that has opened a file for reading only changes nothing in it", "statement": "Whatever a session does after opening a file with H5F_ACC_RDONLY - reads, flushes, attempts to write, on any processes and in any order, failing or not - the file afterwards is the file before: every later session sees the same datasets, log data and log metadata.", "quantifier": "every state of the file when it is opened and every sequence of operations of the session", "why_tests_cant": "tests open files for reading and compare what they read; they do not try all mixtures of writes, flushes and reads on such a file and compare the file afterwards", "anchors": ["src/H5VL_log_filei.cpp:H5VL_log_filei_close", "src/H5VL_logi_nb.cpp:H5VL_log_nb_flush_write_reqs", "src/H5VL_log_file.cpp:H5VL_log_file_open"]}
{"id": "C66", "title": "A file opened for reading only can be read and refuses writes", "statement": "A file that may be read can be opened with H5F_ACC_RDONLY; H5Dwrite on it fails at once and has no effect on later operations; every read returns the writes of the earlier sessions; and H5Fclose succeeds.", "quantifier": "every file, every permission, every sequence of operations of the session, every read request", "why_tests_cant": "tests run with write permission on the files and do not write to files opened for reading only, where a write is accepted and makes later calls fail", "anchors": ["src/H5VL_log_filei.cpp:H5VL_log_filei_post_open", "src/H5VL_log_filei.cpp:H5VL_log_filei_close", "src/H5VL_log_dataset.cpp:H5VL_log_dataset_write"]}
{"id": "C67", "title": "A blocking read by all processes first flushes what is queued", "statement": "When all processes call H5Dread with collective transfer mode, every write made before by any process is flushed first and the read returns it, whether or not H5Fflush has been called.", "quantifier": "every history, any number of processes, both transfer modes, every request", "why_tests_cant": "the mode is taken from the wrong property list; with one process, or with H5Fflush before each read, the result is the same, and tests do one or the other", "anchors": ["src/H5VL_log_dataseti.cpp:H5VL_log_dataseti_read", "src/H5VL_log_file.cpp:H5VL_log_file_create", "doc/usage.md"]}
{"id": "C68", "title": "What H5Dwrite takes from memory is what H5Dread puts into memory", "statement": "H5Dwrite with a file dataspace and a memory dataspace stores element number i of the memory selection in cell number i of the file selection. After any sequence of calls (creation of datasets, changes of extent, writes by any process, reads, flushes, closing and opening by another number of processes) H5Dread puts at address number i of its memory selection the element last written to cell number i of its file selection, else the fill value, and changes nothing else in user memory.", "quantifier": "every sequence of calls, any number of processes, every dataset, all file and memory dataspaces given as H5S_ALL, H5S_BLOCK or a dataspace with a selection that the connector stores in order (all hyperslabs of one dimension, regular hyperslabs of two, whole spaces, ordered point lists and others), every memory content, every behaviour of std::sort; memory type equal to the type of the dataset, no filters, metadata sharing and selection encoding off, or on (the default) with writes they can record: selections of several blocks contain no complete line of cells beyond the first dimension and are all or none confined to records, no cells in a record are written twice by the same selection (compact index), writes to the same cells of several datasets have the same element size (list index) and no such dataset is removed alone; reads by several processes with nothing queued", "why_tests_cant": "sequences of calls, dataspaces and memory contents are unbounded; an error in one combination of a file selection, a memory selection and an earlier write stays unseen", "anchors": ["src/H5VL_log_dataset.cpp:H5VL_log_dataset_write_1", "src/H5VL_log_dataset.cpp:H5VL_log_dataset_read_1", "src/H5VL_log_dataseti.cpp:H5VL_log_dataseti_write", "src/H5VL_log_dataseti.cpp:H5VL_log_dataseti_read", "src/H5VL_logi_nb.cpp:H5VL_log_nb_perform_read"]}
{"id": "C69", "title": "The content of a dataset does not depend on how its writes are distributed", "statement": "Two sequences of calls that make the same writes to a dataset, in the same order or in any order if no two of them have a cell in common, give the same elements to every read of the dataset: whatever the numbers of processes, the process that makes each write, the writes to other datasets, the configuration (metadata sharing, selection encoding, index), and the flushes, reads, closings and openings in between.", "quantifier": "every pair of sequences of calls, any numbers of processes, every dataset and every read through supported file and memory dataspaces (C68); any two configurations, with sharing or encoding under the conditions of C68; reads by several processes with nothing queued", "why_tests_cant": "compares unboundedly many pairs of runs with different distributions, orders and settings", "anchors": ["src/H5VL_log_dataset.cpp:H5VL_log_dataset_write_1", "src/H5VL_log_dataset.cpp:H5VL_log_dataset_read_1", "src/H5VL_logi_nb.cpp:H5VL_log_nb_flush_write_reqs", "src/H5VL_log_filei_meta.cpp:H5VL_log_filei_metaflush"]}
{"id": "C70", "title": "Nothing is left behind: files and datasets, whichever calls fail", "statement": "A call that creates or opens a file or a dataset and fails leaves nothing that it acquired (communicators, property lists, datatypes, objects of the under VOL, memory, entries in the list of open files), touches nothing that is not held or not set, and the same call succeeds later once its cause is gone. A session in which all calls succeed leaves nothing once the file is closed. A close that fails can be repeated, and a failing close does not end the process.", "quantifier": "every property list, every combination of calls to HDF5, MPI and the operating system that fail, any number of datasets and any number of failed calls", "why_tests_cant": "faults at every call and their combinations, resources that run out only after unboundedly many calls", "anchors": ["src/H5VL_log_file.cpp:H5VL_log_file_create", "src/H5VL_log_file.cpp:H5VL_log_file_open", "src/H5VL_log_filei.cpp:H5VL_log_filei_post_create", "src/H5VL_log_filei.cpp:H5VL_log_filei_post_open", "src/H5VL_log_filei.cpp:H5VL_log_filei_close", "src/H5VL_log_filei.cpp:H5VL_log_filei_dec_ref", "src/H5VL_log_dataset.cpp:H5VL_log_dataset_create", "src/H5VL_log_dataset.cpp:H5VL_log_dataset_open", "src/H5VL_log_dataseti.cpp:H5VL_log_dataseti_open"]}
{"id": "C71", "title": "The dump tool prints every write exactly once, with its dataset, blocks and data", "statement": "h5ldump of a closed log file succeeds and prints one entry for every write ever made to the file, in the order of the metadata, with the dataset, the blocks and (unless -H is given) the data of the write, element by element; option -k prints the kind of the file.", "quantifier": "every history of operations on a file, every configuration, all contents of uninitialised memory, all types and file signatures", "why_tests_cant": "all histories and configurations; memory contents", "anchors": ["utils/h5ldump/h5ldump.cpp:h5ldump_file", "utils/h5ldump/h5ldump_meta.cpp:h5ldump_mdset", "utils/h5ldump/h5ldump_meta.cpp:h5ldump_mdsec", "utils/h5ldump/h5ldump_visit.cpp:h5ldump_visit", "utils/h5ldump/h5ldump.cpp:get_file_signature"]}
{"id": "C72", "title": "Handles, wrapped objects and failing calls keep files and the connector below alive exactly as long as needed", "statement": "With any number of files open at once, log-based or ordinary, no call on a handle the application or the library holds touches a file that has been closed or the connector below after it has been released; every file is closed exactly when its last handle is closed, also if opening or closing objects failed in between; an object wrapped for the time of a call is given back by unwrapping; and once all handles and wrap contexts are gone, no reference to the connector below is left.", "quantifier": "all sequences of opens, closes, reopens, wraps and unwraps on any number of files, with any results of the connector below", "why_tests_cant": "unbounded interleavings of handle lifetimes and failures; leaked references and reads behind a structure have no visible effect in a run", "anchors": ["src/H5VL_log_wrap.cpp:H5VL_log_get_wrap_ctx", "src/H5VL_log_wrap.cpp:H5VL_log_wrap_object", "src/H5VL_log_wrap.cpp:H5VL_log_unwrap_object", "src/H5VL_log_wrap.cpp:H5VL_log_free_wrap_ctx", "src/H5VL_log_obji.cpp:H5VL_log_obj_t", "src/H5VL_log_dataset.cpp:H5VL_log_dataset_open"]}
{"id": "C73", "title": "Reads, writes and flushes release what they acquire", "statement": "Whatever calls to HDF5, MPI or the filters fail, H5Dwrite, H5Dread, H5Fflush and H5Fclose never use or release a resource twice, and what they acquire (identifiers, MPI datatypes, buffers, requests, index entries) is released when the call returns, fails or at the latest when the file is closed; a program that reads and writes without end holds a bounded amount of resources.", "quantifier": "every history of calls of any length, every configuration, any subset of failing calls to HDF5, MPI and the filters, any number of metadata datasets and entries", "why_tests_cant": "every acquiring call of every path can fail; leaks and uses after release have no visible effect in a short run, and the number of leaked resources depends on the history", "anchors": ["src/H5VL_log_dataset.cpp:H5VL_log_dataset_read_1", "src/H5VL_log_dataseti.cpp:H5VL_log_dataseti_write", "src/H5VL_log_dataseti.cpp:H5VL_log_dataseti_read", "src/H5VL_logi_nb.cpp:H5VL_log_nb_perform_read", "src/H5VL_logi_nb.cpp:H5VL_log_nb_flush_write_reqs", "src/H5VL_log_filei_meta.cpp:H5VL_log_filei_metaflush", "src/H5VL_log_filei_meta.cpp:H5VL_log_filei_metaupdate", "src/H5VL_log_filei_meta.cpp:H5VL_log_filei_metaupdate_part", "src/H5VL_logi_idx_compact.cpp"]}
{"id": "C74", "title": "A flush that fails can be repeated", "statement": "If H5Fflush, H5Dread or H5Fclose fails because a flush of data or metadata fails, nothing written is lost: data flushed before can still be read, data queued stays queued, and once nothing fails any more the same call succeeds and reads, in this session and after closing and opening the file, return all writes, the last one of each element.", "quantifier": "every history of operations and failures, every configuration, any number of processes, every place at which a flush stops and every content it leaves behind", "why_tests_cant": "faults at every call of every flush, in unbounded histories; a stray dataset shows only in later flushes and sessions", "anchors": ["src/H5VL_logi_nb.cpp:H5VL_log_nb_flush_write_reqs", "src/H5VL_log_filei_meta.cpp:H5VL_log_filei_metaflush", "src/H5VL_log_filei.cpp:H5VL_log_filei_flush", "src/H5VL_log_filei.cpp:H5VL_log_filei_close", "src/H5VL_logi_nb.cpp:H5VL_log_nb_perform_read"]}
{"id": "C75", "title": "A write that fails has no effect", "statement": "If H5Dwrite fails (buffer limit reached, filter not available, conversion fails), the file is as if the call had never been made: later writes, among them the repetition of the failed one, succeed or fail as they would have, and every later read, in this session and after closing and opening the file, returns exactly the data of the writes that succeeded.", "quantifier": "every history of operations in which any writes fail, every configuration, any number of processes and datasets, both indexes", "why_tests_cant": "faults at every write of unbounded histories; the damage shows only in reads of a later session, and only if a later write has the same selection", "anchors": ["src/H5VL_log_dataseti.cpp:H5VL_log_dataseti_write", "src/H5VL_log_filei.cpp:H5VL_log_filei_balloc", "src/H5VL_log_filei_meta.cpp:H5VL_log_filei_metaflush", "src/H5VL_log_dataset.cpp:H5VL_log_dataset_write_1"]}
{"id": "C76", "title": "Reads with a buffered transfer list are completed", "statement": "An H5Dread with a buffered transfer list returns at once; when the next H5Fflush (or H5Fclose) returns successfully, its buffer holds what all writes made before that flush, by all processes, left in the selected cells (else the fill value, else what was there), no other memory has changed, and the read is not executed again.", "quantifier": "every history, any number of processes and of reads queued by each, every configuration of the metadata, both indexes, every fill value and memory content", "why_tests_cant": "unbounded histories and queues, reads of one flush interact through one file view; the order of equal keys in std::sort is not determined", "anchors": ["src/H5VL_log_dataseti.cpp:H5VL_log_dataseti_read", "src/H5VL_log_filei.cpp:H5VL_log_filei_flush", "src/H5VL_logi_nb.cpp:H5VL_log_nb_flush_read_reqs", "src/H5VL_log_filei.cpp:H5VL_log_filei_close"]}
{"id": "C77", "title": "Which datasets survive shared selections, exactly", "statement": "With metadata sharing, a process records a selection it has written before in the same epoch as a reference to the first entry with it. With the compact index (default) a read of a dataset returns the last values written if, for each of its writes, the dataset of that first entry has not been removed and the write, if confined to one record, is not confined to the same record as the first entry; a read of any other dataset is undefined behaviour. With the list index every read of the file, whatever it asks for, is undefined behaviour as soon as one dataset that is present has a write whose first entry belongs to a removed dataset; otherwise every dataset whose repeated selections of several blocks were repeated with elements of the same size reads back.", "quantifier": "every history of writes, flushes, reads, extents, closes and opens with removed datasets; any number of processes; with and without selection encoding; any buffer size; all requests and memory contents", "why_tests_cant": "the condition speaks about the first of arbitrarily many earlier writes of a section; the failure is undefined behaviour, which a test may not notice", "anchors": ["src/H5VL_logi_idx_compact.cpp:H5VL_logi_compact_idx_t::parse_block", "src/H5VL_logi_idx_compact.cpp:H5VL_logi_compact_idx_t::search", "src/H5VL_logi_idx_list.cpp:H5VL_logi_array_idx_t::parse_block", "src/H5VL_log_dataseti.cpp:H5VL_log_dataseti_write", "src/H5VL_logi_meta.cpp:H5VL_logi_metaentry_ref_decode"]}
{"id": "C78", "title": "A dataset says what it was created to be", "statement": "In this session and in later ones, H5Dget_space returns the dataspace given to H5Dcreate with the extent of the last successful H5Dset_extent, H5Dget_type the type, H5Dget_create_plist the creation property list (layout, filters, fill value); reads and writes use this fill value and these filters; H5Dcreate leaves the property list of the application as it is; H5Dget_storage_size and H5Dget_space_status answer; a call that fails changes nothing.", "quantifier": "all sequences of H5Dcreate, H5Dopen, H5Dclose, H5Dset_extent and queries on any number of datasets and handles over any number of sessions; all names, types, dataspaces and property lists; with and without selection encoding", "why_tests_cant": "the tests create a dataset, write and read it in one session and ask for nothing; the answers depend on the sessions and the open handles in between", "anchors": ["src/H5VL_log_dataset.cpp:H5VL_log_dataset_create", "src/H5VL_log_dataset.cpp:H5VL_log_dataset_open", "src/H5VL_log_dataset.cpp:H5VL_log_dataset_get", "src/H5VL_log_dataset.cpp:H5VL_log_dataset_specific", "src/H5VL_log_dataseti.cpp:H5VL_log_dataseti_open", "src/H5VL_log_filei.cpp:H5VL_log_filei_dset_visit"]}
{"id": "C79", "title": "A file of another writer is handled as if the connector were not there", "statement": "In a file that was not written by the connector every call (attributes, datasets, groups, types, links, objects, files) is answered as the connector below answers it, with the same names, indices and counts; the arguments of the caller are left as they are; the connector below ends in the same state; nothing is undefined.", "quantifier": "any connector below (any state, any answers, failures included); all sequences of calls on any handles, valid or not", "why_tests_cant": "the tests run only the most common calls on ordinary files and compare no answers with those of the connector below", "anchors": ["src/H5VL_log_att.cpp:H5VL_log_attr_open", "src/H5VL_log_att.cpp:H5VL_log_attr_get", "src/H5VL_log_dataset.cpp:H5VL_log_dataset_create", "src/H5VL_log_dataset.cpp:H5VL_log_dataset_open", "src/H5VL_log_dataset.cpp:H5VL_log_dataset_close", "src/H5VL_log_obj.cpp:H5VL_log_object_open", "src/H5VL_log_obj.cpp:H5VL_log_object_get", "src/H5VL_log_filei.cpp:H5VL_log_filei_close"]}
{"id": "C80", "title": "H5Dwrite_n and H5Dread_n take their blocks at the call", "statement": "A call of H5Dwrite_n or H5Dread_n uses the blocks that the arrays starts and counts hold when it is made; the application may change or free the arrays as soon as the call has returned, as it may with the dataspaces of H5Dwrite and H5Dread.", "quantifier": "every sequence of calls, flushes and changes of the arrays by any number of processes", "why_tests_cant": "the arrays are accessed during a later flush; whether that shows depends on what the application has done with the memory in between", "anchors": ["src/H5VL_log_dataset.cpp:H5VL_log_dataset_optional", "src/H5VL_logi_dataspace.cpp:H5VL_log_selections", "src/H5VL_log_dataseti.cpp:H5VL_log_dataseti_read"]}
{"id": "C81", "title": "The extent of a dataset counts", "statement": "Reads and writes of blocks outside the current extent of a dataset fail and change nothing. Cells that H5Dset_extent cuts off are gone; cells that it adds hold the fill value until they are written.", "quantifier": "every history of writes and changes of extents, every block", "why_tests_cant": "histories in which extents and writes interleave; blocks outside the extent are seldom tried", "anchors": ["src/H5VL_log_dataseti.cpp:H5VL_log_dataseti_write", "src/H5VL_log_dataseti.cpp:H5VL_log_dataseti_read", "src/H5VL_log_dataset.cpp:H5VL_log_dataset_specific", "src/H5VL_logi_meta.hpp:H5VL_logi_sel_encode"]}
{"id": "C82", "title": "H5Dwrite_n and H5Dread_n do the transfer or fail, and the connector answers queries about itself", "statement": "On a dataset in a log file H5Dwrite_n and H5Dread_n are the transfers they are documented to be. On any other dataset (of another connector, or in an ordinary file) they fail and change nothing. H5VLquery_optional reports them as supported where they work; the class of the current and of the terminal connector are reported; the query of the capability flags of a file access property list with the connector succeeds.", "quantifier": "every sequence of loads and unloads of the connector and of registrations and removals of optional operations by other connectors, every connector below, every stack of connectors, every connector information", "why_tests_cant": "tests load the connector first, use it on log files only and never ask what it supports", "anchors": ["src/H5VL_log.cpp:H5Dwrite_n", "src/H5VL_log.cpp:H5Dread_n", "src/H5VL_log_dataset.cpp:H5VL_log_dataset_optional", "src/H5VL_log_main.cpp:H5VL_log_init", "src/H5VL_log_introspect.cpp:H5VL_log_introspect_opt_query", "src/H5VL_log_introspect.cpp:H5VL_log_introspect_get_cap_flags", "src/H5VL_log_introspect.cpp:H5VL_log_introspect_get_conn_cls"]}
{"id": "C83", "title": "Queued H5Dread calls deliver converted elements to the selected places", "statement": "An H5Dread with a buffered transfer list, any supported selection of the file and of memory and any memory type returns without an error. When the next H5Fflush returns, it has succeeded, every selected element of memory is the element of its cell, as left by all writes of all processes before the flush (else the fill value), converted to the memory type; memory outside the selected elements of the queued calls is unchanged; nothing is queued any more.", "quantifier": "every sequence of calls, any number of processes and of queued calls of each, every selection of the file and of memory, every conversion between types of any sizes, every configuration of the metadata, both indexes", "why_tests_cant": "unbounded histories and queues; the post-processing of all requests shares the memory of the application, internal buffers and element sizes of two types", "anchors": ["src/H5VL_log_dataset.cpp:H5VL_log_dataset_read_1", "src/H5VL_log_dataseti.cpp:H5VL_log_dataseti_read", "src/H5VL_logi_nb.cpp:H5VL_log_nb_perform_read", "src/H5VL_log_filei.cpp:H5VL_log_filei_flush"]}
{"id": "C84", "title": "Files are created, deleted and found as a whole", "statement": "H5Fcreate with H5F_ACC_EXCL fails if and only if there is a file with the name, and then changes nothing; H5Fdelete removes a file with all its pieces, so that it can be created anew; H5Fis_accessible tells whether there is one; calls about one file do not touch others. The calls work with any connector below and leave nothing behind in the process.", "quantifier": "every sequence of calls on any files, with any numbers of subfiles, every stack of connectors, every state of the disk", "why_tests_cant": "the tests create files with H5F_ACC_TRUNC, never delete or look for one through the connector, and run over the native connector only", "anchors": ["src/H5VL_log_file.cpp:H5VL_log_file_specific", "src/H5VL_log_filei.cpp:H5VL_log_filei_create_subfile", "src/H5VL_log_info.cpp:H5VL_log_info_copy"]}
{"id": "C85", "title": "Values of every accepted type survive the application's memory", "statement": "H5Dcreate refuses the types the connector cannot store. A value of an accepted type written with H5Dwrite is returned by H5Dread as the value written, whatever the application, or the process that reads, has in its memory at that time.", "quantifier": "every datatype, with any nesting of compounds, strings and sequences of variable length, every value, every state of the memory at the time of writing and of reading", "why_tests_cant": "the tests use numbers and one compound of numbers only, and a test that reads in the process that wrote, with its buffers still there, gets the right values from stored pointers", "anchors": ["src/H5VL_log_dataset.cpp:H5VL_log_dataset_create", "src/H5VL_log_dataseti.cpp:H5VL_log_dataseti_write"]}
{"id": "C86", "title": "Flushing through any object of the file", "statement": "H5Fflush and H5Fget_name do the same for a file whether they are given a handle of the file or one of its groups, datasets, committed types or attributes. H5Dflush, H5Gflush, H5Tflush and H5Oflush write out the data queued for the object, so that every process reads it afterwards.", "quantifier": "all histories, numbers of processes and configurations; all objects; any answers of the connector below", "why_tests_cant": "the tests flush only through the file handle and read with the process that wrote", "anchors": ["src/H5VL_log_file.cpp:H5VL_log_file_specific", "src/H5VL_log_file.cpp:H5VL_log_file_get", "src/H5VL_log_dataset.cpp:H5VL_log_dataset_specific", "src/H5VL_log_obj.cpp:H5VL_log_object_specific", "src/H5VL_log_group.cpp:H5VL_log_group_specific"]}
{"id": "C87", "title": "Connector identifiers stay valid while in use and usable again afterwards", "statement": "An application that registers the connector with H5VL_log_register or H5Pset_vol_log, sets it in file access property lists, copies and closes those, asks for their connector and its information, makes information from text, opens and closes files, and closes every identifier it was given exactly once, as documented: every connector in use stays valid, every call with it succeeds, H5VL_log_register always returns a usable identifier, and when everything is closed no references to connectors and no copies of their information are left.", "quantifier": "all sequences of calls, any number of property lists, files, connectors and nested connector information", "why_tests_cant": "the tests register once and end; what is left and what happens the second time is not looked at", "anchors": ["src/H5VL_log.cpp:H5VL_log_register", "src/H5VL_log.cpp:H5Pset_vol_log", "src/H5VL_log_info.cpp:H5VL_log_info_copy", "src/H5VL_log_info.cpp:H5VL_log_info_free", "src/H5VL_log_info.cpp:H5VL_log_str_to_info", "src/H5VL_log_file.cpp:H5VL_log_file_open", "doc/api.md:H5VL_log_register"]}
{"id": "C88", "title": "Data converted between memory and dataset types", "statement": "H5Dwrite with a memory type other than the type of the dataset stores every value converted by the library's rule for the two types: a number as the converted number; of a compound, the members of the same name converted, with those members of the dataset that the memory type does not name unchanged. H5Dread delivers in the same way into the buffer of the application. If the library has no conversion between the two types the call fails and neither dataset nor buffer changes.", "quantifier": "all numbers of elements, all pairs of types, all libraries of conversions, all contents of the buffers", "why_tests_cant": "the tests convert a few pairs of integer types; partial compounds, pairs without conversion and what a fresh buffer holds are not looked at", "anchors": ["src/H5VL_log_dataseti.cpp:H5VL_log_dataseti_write", "src/H5VL_logi_nb.cpp:H5VL_log_nb_perform_read"]}
{"id": "C89", "title": "Passthru mode keeps the same data", "statement": "With passthru mode on (H5Pset_passthru or H5VL_LOG_PASSTHRU) the contents of the log go through the connector below instead of MPI-IO, and nothing else changes for the application: after any calls the same bytes are stored at the same places of the file, H5Fflush and H5Fclose succeed whenever they do with passthru mode off, and every H5Dread succeeds and delivers the data last written, else the fill value, as with passthru mode off. If a log dataset cannot be opened the read fails.", "quantifier": "all histories of writes, flushes, reads, closing and opening, all numbers of processes, all block shapes and sizes, all configurations of metadata sharing, encoding and index", "why_tests_cant": "the tests in passthru mode use one- and two-dimensional datasets of a few kilobytes with one log dataset; blocks of three dimensions, several flushes, gigabytes, filters and failures of the connector below are not tried", "anchors": ["src/H5VL_log_dataseti.cpp:H5VL_log_dataset_readi_passthru", "src/H5VL_log_dataseti.cpp:foff2logidx", "src/H5VL_log_dataseti.cpp:sel_space", "src/H5VL_logi_nb.cpp:H5VL_log_nb_flush_write_reqs", "src/H5VL_log_filei_meta.cpp:H5VL_log_filei_metaflush", "doc/usage.md:Use Log-layout Based VOL as A Passthrough VOL"]}
{"id": "C90", "title": "Connector information keeps its identity", "statement": "H5VL_log_info_cmp, which H5Pequal uses for file access property lists, follows the rules of strcmp: it is zero exactly if both values describe the same connectors below, in the same order, with the same information of the lowest one; swapping the arguments swaps the sign; less is transitive. A copy (H5Pget_vol_info, H5Pcopy) compares equal to the original, and so does what H5VLconnector_str_to_info reads from the text that H5VLconnector_info_to_str printed.", "quantifier": "all stacks of connectors of any depth, all connector values, all information of the lowest connector", "why_tests_cant": "the tests use the native connector below and never compare, print or read connector information; the faults need large connector values or identifiers that are no longer valid", "anchors": ["src/H5VL_log_info.cpp:H5VL_log_info_cmp", "src/H5VL_log_info.cpp:H5VL_log_info_copy", "src/H5VL_log_info.cpp:H5VL_log_info_to_str", "src/H5VL_log_info.cpp:H5VL_log_str_to_info"]}
{"id": "C91", "title": "Metadata datasets follow the published format", "statement": "Every metadata dataset that the connector writes is a text of the format of doc/metadata_format.md: a decomposition map, then for each process the entries of its writes in the order issued, each with dataset, selection (single, several blocks, encoded, of a record, or a reference to an earlier entry) and the place of the data in the file. A program that knows only the format and the number of dimensions of the datasets recovers from the metadata datasets exactly the writes flushed to them.", "quantifier": "all histories of writes, flushes, reads and reopenings by any number of processes, all selections, with and without encoding and sharing; all lists of entries", "why_tests_cant": "the tests read files only with the connector itself and its tools, which share the code that decodes entries; a reader written from the document is not tested", "anchors": ["doc/metadata_format.md", "src/H5VL_logi_nb.cpp:H5VL_log_wreq_t::H5VL_log_wreq_t", "src/H5VL_logi_dataspace.cpp:H5VL_log_selections::encode", "src/H5VL_log_filei_meta.cpp:H5VL_log_filei_metaflush", "src/H5VL_log_dataseti.cpp:H5VL_log_dataseti_write"]}
{"id": "C92", "title": "The tools act on valid input only and their exit status says what they did", "statement": "h5lreplay -i A -o B ends with status 0 exactly if A was replayed completely to B; if it fails, B and all other files are as before. h5ldump FILE ends with status 0 exactly if the file was dumped; a file that is not one of the connector is refused.", "quantifier": "all contents of all files, all lists of options, all paths, any number of processes", "why_tests_cant": "the tests of the tools use valid log-based files written just before and a fresh output path; they never look at an existing output after a failing call, nor at the status for files that begin with a user block, missing files, or several processes", "anchors": ["utils/h5lreplay/h5lreplay.cpp:main", "utils/h5lreplay/h5lreplay.cpp:h5lreplay_core", "utils/h5ldump/h5ldump.cpp:get_file_signature", "utils/h5ldump/h5ldump.cpp:main"]}
{"id": "C93", "title": "The record of a write fits the memory allocated for it", "statement": "For every call of H5Dwrite and H5Dwrite_n the connector stores the metadata entry inside the memory it has allocated for it, initialises every byte of it, and the memory is exactly the entry that is written to the file, also after the entry has been replaced by a reference to an earlier one. H5Dwrite_n with a negative number of blocks fails and changes nothing.", "quantifier": "all datasets, all selections and numbers of blocks (including negative ones), with and without encoding of selections, record entries and references, every limit of malloc", "why_tests_cant": "a store behind a small allocation is seldom visible; no test passes a negative number of blocks or more than a few", "anchors": ["src/H5VL_logi_nb.cpp:H5VL_log_wreq_t::H5VL_log_wreq_t", "src/H5VL_logi_nb.cpp:H5VL_log_wreq_t::resize", "src/H5VL_log_dataseti.cpp:H5VL_log_dataseti_write", "src/H5VL_log.cpp:H5Dwrite_n", "src/H5VL_logi_dataspace.cpp:H5VL_log_selections::encode"]}
{"id": "C94", "title": "Cancelling, releasing and watching combined requests", "statement": "Cancelling a request made of several requests of the connector below reports that it was cancelled only if all its parts were; cancelling and releasing it releases every part exactly once and the request itself; after a call that failed the request can still be cancelled or released; the notification callback of a request without parts is called.", "quantifier": "every number of parts, every answer of the connector below for each of them, every sequence of calls", "why_tests_cant": "needs a connector below that refuses single parts; no test of the repository cancels a request", "anchors": ["src/H5VL_log_req.cpp:H5VL_log_request_cancel", "src/H5VL_log_req.cpp:H5VL_log_request_free", "src/H5VL_log_req.cpp:H5VL_log_request_notify", "src/H5VL_log_reqi.cpp:H5VL_log_reqi_notify_cb"]}
{"id": "C95", "title": "What reads return after any write inside the extent", "statement": "In the default configuration (encoded selections), after H5Dwrite_n of several blocks inside the extent, whatever dimensions they span: the write succeeds, and every later read returns for every cell exactly what a write of only those blocks that span no whole dimension (the first, for records the first two, not counted) would have left, with their elements taken from the beginning of the data passed.", "quantifier": "every history, every extent and number of blocks, every index, every later sequence of operations", "why_tests_cant": "the effect depends on the combination of all blocks of a call; the tests never write whole rows together with other blocks", "anchors": ["src/H5VL_logi_meta.hpp:H5VL_logi_sel_encode", "src/H5VL_logi_meta.hpp:H5VL_logi_sel_decode", "src/H5VL_logi_nb.cpp:H5VL_log_wreq_t", "src/H5VL_log_dataseti.cpp:H5VL_log_dataseti_write"]}
{"id": "C96", "title": "Damaged metadata is refused", "statement": "Opening a file and reading from it when bytes of a metadata dataset that are not a whole valid entry follow whole entries (header cut off, dataset number that is not in the file, size zero or negative, more blocks than there are bytes, parts never written): every read reports an error, and no memory outside of the metadata is accessed and no loop runs forever; h5ldump likewise. Metadata written by the connector always consists of whole entries.", "quantifier": "every sequence of whole entries before the damage, every content of the damaged part, every table of datasets, both indexes, every process and every selection read", "why_tests_cant": "the tests only open files the connector has written completely; outcomes of reading beyond a buffer depend on what is in memory after it", "anchors": ["src/H5VL_logi_idx_list.cpp:H5VL_logi_array_idx_t::parse_block", "src/H5VL_logi_idx_compact.cpp:H5VL_logi_compact_idx_t::parse_block", "src/H5VL_logi_meta.cpp:H5VL_logi_metaentry_decode", "src/H5VL_log_filei_meta.cpp:H5VL_log_filei_metaupdate", "utils/h5ldump/h5ldump_meta.cpp"]}
{"id": "C97", "title": "Objects addressed by index and by token, and names of open objects", "statement": "On a log-based file, opening an object by its index in a group (H5Oopen_by_idx, any order and direction), asking for the name of a link, the information of an object or group by index (H5Lget_name_by_idx, H5Oget_info_by_idx, H5Gget_info_by_idx), removing a link by index (H5Ldelete_by_idx), asking about a group by name (H5Gget_info_by_name), opening an object by its token (H5Oopen_by_token) and asking for the name of an open object (H5Iget_name) have the same outcome as on an ordinary HDF5 file after the same operations; the objects of the log are never reached.", "quantifier": "every sequence of creations, openings, links, moves, removals, token requests and openings by token before the call, every location, group, order, direction and index", "why_tests_cant": "the position of the hidden group among the names depends on all names in the root group; no test opens by index or token", "anchors": ["src/H5VL_log_obj.cpp:H5VL_log_object_open", "src/H5VL_log_obj.cpp:H5VL_log_object_get", "src/H5VL_log_link.cpp:H5VL_log_link_get", "src/H5VL_log_link.cpp:H5VL_log_link_specific", "src/H5VL_log_group.cpp:H5VL_log_group_get", "src/H5VL_log_token.cpp"]}
{"id": "C98", "title": "Attributes read from a file are checked", "statement": "Opening a log-based file that another application has changed (a dataset added or copied without the connector, attributes of the file or of datasets missing, with too few, too many or other values): the file is opened with every dataset as its attributes say, or the call reports an error; no memory outside of the tables and buffers is accessed, different datasets stay different, no data is silently left out, and one damaged dataset does not make the others unusable.", "quantifier": "every number and order of datasets, every content of all attributes, every position of the damaged dataset", "why_tests_cant": "the tests only open files that the connector alone has written; overruns depend on what is in memory", "anchors": ["src/H5VL_log_filei.cpp:H5VL_log_filei_post_open", "src/H5VL_log_filei.cpp:H5VL_log_filei_dset_visit", "src/H5VL_log_dataseti.cpp:H5VL_log_dataseti_open", "src/H5VL_logi_util.cpp:H5VL_logi_get_att", "src/H5VL_logi_util.cpp:H5VL_logi_get_att_ex", "src/H5VL_logi_util.cpp:H5VL_logi_exists_att"]}
{"id": "C99", "title": "The section table of a metadata dataset is checked and means the same to every read", "statement": "A metadata dataset starts with the number of its sections and the offsets at which they end. Whether the metadata is loaded as a whole or in parts of a limited size (H5VL_LOG metadata buffer size), and whatever the table says: reads find the same writes, or the file is refused; no write is silently left out, and no memory outside of the metadata is accessed.", "quantifier": "every content of the table and of the metadata, every number of metadata datasets and sections, every buffer limit, every read", "why_tests_cant": "the tests only read tables that the connector has just written, mostly with metadata that fits into the buffer", "anchors": ["src/H5VL_log_filei_meta.cpp:H5VL_log_filei_metaupdate", "src/H5VL_log_filei_meta.cpp:H5VL_log_filei_metaupdate_part", "src/H5VL_logi_nb.cpp:H5VL_log_read_idx_search"]}
{"id": "C100", "title": "Compression and decompression into growing buffers lose nothing and refuse damaged input", "statement": "H5VL_log_zip_compress_alloc, H5VL_log_zip_decompress_alloc and H5VL_logi_filter_inflate_alloc return a buffer that holds exactly the result, with its length, whatever the size of the first buffer was; what was compressed is decompressed to the same bytes; damaged or incomplete input and results that are too large are refused with an error. H5VL_logi_filter_deflate and H5VL_logi_filter_inflate, with a buffer of a given size, give the complete result or an error.", "quantifier": "every input, every size of the first buffer, every number of times the buffer grows, every moment at which zlib tells the end of the stream", "why_tests_cant": "no test calls these functions; tests would use small intact inputs whose result fits into the first buffer", "anchors": ["src/H5VL_logi_zip.cpp:H5VL_log_zip_compress_alloc", "src/H5VL_logi_zip.cpp:H5VL_log_zip_decompress_alloc", "src/H5VL_logi_filter_deflate.cpp:H5VL_logi_filter_inflate_alloc", "src/H5VL_logi_filter_deflate.cpp:H5VL_logi_filter_deflate", "src/H5VL_logi_filter_deflate.cpp:H5VL_logi_filter_inflate"]}
{"id": "C101", "title": "The tools show and replay what reads find, whatever the table of sections says", "statement": "Whatever the table at the beginning of a metadata dataset says: h5ldump shows, and h5lreplay takes, the entries that reads of the file find, or the tool ends with an error; no entry is silently left out, and no memory outside of the metadata is accessed.", "quantifier": "every content of the table and of the metadata, every number of sections, any contents of uninitialised memory, with and without the data", "why_tests_cant": "the tests run the tools only on files just written by the connector, whose tables are intact", "anchors": ["utils/h5ldump/h5ldump_meta.cpp:h5ldump_mdset", "utils/h5lreplay/h5lreplay_meta.cpp:h5lreplay_parse_meta", "src/H5VL_log_filei_meta.cpp:H5VL_log_filei_metaupdate"]}
{"id": "C102", "title": "A copy of a selection selects the same blocks and is independent of the original", "statement": "Copying a selection (copy constructor, assignment, convert_to_deep of H5VL_log_selections) gives an object with the same rank, dimension sizes and blocks, which compares equal to the original; the original stays what it was; what the destination owned before is released; either object can be destroyed first while the other remains usable; operator== holds exactly for the same rank and blocks.", "quantifier": "every state of memory, every pair of selections in order (own or shared blocks, with and without dimension sizes), every rank and number of blocks", "why_tests_cant": "no test copies a selection; the errors are reads of members that were never set and uses of released memory, which depend on what the memory happens to hold", "anchors": ["src/H5VL_logi_dataspace.cpp:H5VL_log_selections::H5VL_log_selections", "src/H5VL_logi_dataspace.cpp:H5VL_log_selections::operator=", "src/H5VL_logi_dataspace.cpp:H5VL_log_selections::operator==", "src/H5VL_logi_dataspace.cpp:H5VL_log_selections::convert_to_deep"]}
{"id": "C103", "title": "A number of sections that cannot be is refused", "statement": "The number of sections at the beginning of a metadata dataset is any word of 64 bits in a damaged file. If it is negative, or the dataset is too short for a table of that many sections, opening the metadata for a read (as a whole or in parts), h5ldump and h5lreplay end with an error; they do not read the table as entries, leave the entries out silently, or access memory outside of what they allocated.", "quantifier": "every number of sections, every content and size of the metadata dataset, every limit of the metadata buffer and every section to start from, any contents of uninitialised memory, every number of processes of h5lreplay", "why_tests_cant": "the tests only read files just written by the connector; the wrong results appear for numbers that differ from a right one in the three highest bits, which no test file has", "anchors": ["src/H5VL_log_filei_meta.cpp:H5VL_log_filei_metaupdate", "src/H5VL_log_filei_meta.cpp:H5VL_log_filei_metaupdate_part", "utils/h5ldump/h5ldump_meta.cpp:h5ldump_mdset", "utils/h5lreplay/h5lreplay_meta.cpp:h5lreplay_parse_meta"]}
{"id": "C104", "title": "A dump of memory shows every byte and touches nothing else", "statement": "hexDump prints the bytes it is given in lines of 16, each with the offset, the bytes in hexadecimal in fixed columns and as characters (a dot for those that cannot be printed), so that the bytes can be told from the text; it accesses no memory but these bytes; no bytes give no lines; with a file name everything, including the description, goes to the file, and nothing happens if the file cannot be opened.", "quantifier": "every sequence of bytes of any length, any contents of uninitialised memory, every description, files that can and cannot be opened", "why_tests_cant": "the function is compiled with debugging only and no test calls it; the index arithmetic has to be right for all lengths", "anchors": ["src/H5VL_logi_debug.cpp:hexDump"]}
