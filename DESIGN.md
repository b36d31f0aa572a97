# A Lean 4 model of the log-based VOL connector

The code modelled is `/repo` (DataLib-ECP/vol-log-based, C++), read as text only; it was never built or run.
`/verif/lean` is a Lake project; `lake build` checks everything.
`properties.jsonl` lists the properties, `MANIFEST.json` maps each one to theorems, `seeded/LOG.jsonl` records the wrong
programs the theorems were tried on.

## 1. What the code does (summary used for the model)

* A write (`H5VL_log_dataseti_write`) creates a request: one metadata entry (28-byte header, optional
  record number, optional block count, optional radix table, starts, counts) and one data block.
* With metadata sharing, a selection equal byte for byte to an earlier one of the same epoch is
  replaced by an 8-byte relative offset to the earlier entry.
* A flush (`H5VL_log_nb_flush_write_reqs`) concatenates the data blocks of all ranks (exclusive scan)
  in a fresh log dataset and records the file offset in each header.
* A metadata flush (`H5VL_log_filei_metaflush`) writes one metadata dataset: section map followed by
  one section per rank.
* A read parses metadata into an index, intersects entries with the requested blocks, sorts the
  matches by file offset and reads them all with one file view; matches with larger file offsets
  overwrite earlier ones in memory.

The default configuration of a created file is selection encoding and metadata sharing on, compact index.

## 2. Modelling conventions

* Bytes are `UInt8`, files/buffers are `List UInt8` or functions from addresses, coordinates are `Nat`, signed 64-bit
  fields are two's complement bytes read back as `Int`. Explicit `< 2^63`/`< 2^31` hypotheses appear where a
  field is stored in fixed width.
* `Res α = ok a | err | ub`: `err` is an error return (exception in the code), `ub` is undefined
  behaviour (read outside a buffer, null dereference, empty vector access, endless loop, misuse of MPI).
* `std::sort` is any sorted permutation (a relation, or a parameter `srt` with `IsSort srt`), because it is not stable.
* MPI-IO is the typemap semantics: the k-th byte of the file type goes to the k-th byte of the memory
  type; overlapping memory targets are filled in typemap order; a file view whose displacements decrease is `ub`.
* The underlying VOL returns, for a new log dataset, an address that does not overlap space already
  in use (assumption on HDF5). That addresses increase with time is a separate, explicit hypothesis
  of the theorems that need it.
* Every definition cites file and lines, and says where it simplifies.
* `File` takes a collective operation as one step of the whole file. `Coll` does not: there every process runs its own program of MPI
  calls, and C61 proves that without subfiling all orders lead to the state that the single step gives.

### Layout of the Lean project

* `Verif/Model/*`: the code, function by function.

  | module | code |
  |--------|------|
  | `Bytes` | little-endian words, bounds-checked loads, `Res` |
  | `Meta` | metadata entries: request constructor, selection encoding, decoder (`logi_meta.*`, `logi_nb.cpp` L42-154) |
  | `Rank` | deduplication table and queue of a process (`dataseti.cpp` L787-1022, `logi_nb.cpp` L160-194) |
  | `Index` | both index types, parse and search (`idx_list.cpp`, `idx_compact.cpp`, `logi_meta.cpp` L26-83) |
  | `Sort`, `Read` | `sortoffsets`, `gen_rtypes`, `perform_read` (`dataseti.cpp` L30-91, L444-677, `logi_nb.cpp` L341-520) |
  | `File` | flush, metadata flush, loading, reads, close, open over all processes (`logi_nb.cpp` L315-894, `filei_meta.cpp`, `filei.cpp`) |
  | `Dataspace` | selections: merge, sort, break down (`logi_dataspace.cpp` L27-446) |
  | `Scatter` | memory selections (`logi_dataspace.cpp` L551-622) |
  | `Api` | H5Dwrite and H5Dread with file and memory dataspaces (`dataset.cpp` L283-379, the parts about buffers of `dataseti.cpp` L787-1022, L1034-1141, `logi_nb.cpp` L485-517); memory type equal to the type of the dataset, no filters |
  | `SelSpace` | reads through the under VOL (`dataseti.cpp` L105-442) |
  | `Merged` | merged requests (`logi_nb.cpp` L196-313) |
  | `Filter`, `Zip`, `Stage` | filters, metadata compression, choice of the data buffer, failing writes |
  | `Extent` | `set_extent` (`dataset.cpp` L522-556) |
  | `Wrap` | references between files, objects, wrap contexts and the connector below, with failing calls (`wrap.cpp`, `obji.cpp` L57-97, open and close callbacks) |
  | `FlushFail` | flushes of data and metadata that stop before or after their dataset exists, and the calls that follow (`nb.cpp` L592-894, `filei_meta.cpp` L49-320) |
  | `WriteFail` | H5Dwrite that fails after its selection has been looked up and entered (`dataseti.cpp` L829-1017, `filei.cpp` L84-107) |
  | `Queue` | reads with a buffered transfer list and the flush that executes them (`dataseti.cpp` L1087-1138, `filei.cpp` L669-687, `logi_nb.cpp` L522-590) |
  | `QueueApi` | queued H5Dread calls with dataspaces and conversions, and the post-processing of H5Fflush (`dataset.cpp` L283-323, `dataseti.cpp` L1034-1141, `logi_nb.cpp` L485-517) |
  | `Optional` | optional operations, introspection (`main.cpp` L86-94, L151-158, `log.cpp` L72-132, `dataset.cpp` L581-653, `introspect.cpp`) |
  | `Disk` | files on disk: H5Fcreate, H5Fdelete, H5Fis_accessible (`file.cpp` L391-443, `filei.cpp` L867-903) |
  | `Types` | datatypes with pointers inside (`dataset.cpp` L86-134, `dataseti.cpp` L930-980, L1092-1121) |
  | `Flush` | H5Fflush and H5Fget_name with any object of a file, flush calls on objects (`file.cpp` L331-357, L391-460, `dataset.cpp` L502-572, `group.cpp` L222-262, `datatype.cpp` L195-235, `obj.cpp` L241-310); structures as lists of the fields that are looked at |
  | `Conn` | references to connectors and their information: H5VL_log_register, H5Pset_vol_log (`H5VL_log.cpp` L30-70), information copied, freed and made from text (`info.cpp` L41-56, L98-121, L175-216), information got by H5Fcreate and H5Fopen (`file.cpp` L82, L186, L230, L317), and the reference counts that HDF5 documents for property lists, H5VLclose and open files |
  | `Convert` | type conversion in H5Dwrite (`dataseti.cpp` L930-982) and H5Dread (`nb.cpp` L488-502): numbers and compounds of numbers, with the buffers passed to H5Tconvert |
  | `Passthru` | passthru mode: flush of data and metadata (`nb.cpp` L803-833, `filei_meta.cpp` L246-275), reads (`dataseti.cpp` L150-442), opening and closing of the log datasets |
  | `Stack` | connector information compared, printed and read through stacks of connectors (`info.cpp` L69-86, L133-216) |
  | `Format` (Spec) | the documented format of metadata datasets and the one written, independent of the code (`doc/metadata_format.md`) |
  | `Mains` | main functions of h5lreplay and h5ldump: options, check of the signature, order in which files are opened and created, exit status (`utils/h5lreplay/h5lreplay.cpp`, `utils/h5ldump/h5ldump.cpp`) |
  | `WMem` | memory of a write request: size allocated, stores of the constructor, reference and `resize`, size and offset of the data, with the number of blocks as `int` (`src/H5VL_logi_nb.cpp`, `src/H5VL_log_dataseti.cpp`) |
  | `ReqMore` | cancelling and releasing combined requests (`src/H5VL_log_req.cpp`) |
  | `Atts` | attributes of any content read when a file is opened (`src/H5VL_log_filei.cpp`, `src/H5VL_log_dataseti.cpp`, `src/H5VL_logi_util.cpp`) |
  | `Lookup` | objects addressed by index and by token, groups asked about by name and by index, names of open objects (`src/H5VL_log_obj.cpp`, `src/H5VL_log_link.cpp`, `src/H5VL_log_group.cpp`, `src/H5VL_log_token.cpp`) |
  | `Grow` | compression and decompression into buffers that grow (`src/H5VL_logi_zip.cpp`, `src/H5VL_logi_filter_deflate.cpp`) |
  | `Copies` | copies of selections, their comparison and their end (`src/H5VL_logi_dataspace.cpp`) |
  | `SecCount` | the number of sections as a word of 64 bits: both kinds of loads and h5ldump (`src/H5VL_log_filei_meta.cpp`, `utils/h5ldump/h5ldump_meta.cpp`) |
  | `SecCountReplay` | the same number in h5lreplay (`utils/h5lreplay/h5lreplay_meta.cpp`) |
  | `SecCountLoop` | the same number in reads that load the metadata in parts (`src/H5VL_logi_nb.cpp`) |
  | `HexDump` | dumps of memory (`src/H5VL_logi_debug.cpp`) |
  | `Held` | what H5Dwrite, H5Dread, H5Fflush and H5Fclose acquire, keep and release, every call to HDF5, MPI and the filters failing or not (`dataset.cpp` L285-379, `dataseti.cpp` L787-1141, `logi_nb.cpp` L315-894, `filei_meta.cpp` L49-535, `filei.cpp` L669-842, `idx_compact.cpp` L70-180) |
  | `Buffers`, `Handles` | buffer budget and pool, registry and reference count (`filei.cpp`) |
  | `Endian` | byte swapping (`util.hpp` L87-108) and its uses |
  | `Names`, `Attr`, `Ids`, `Info` | names, attribute indexes, dataset identifiers, connector information strings |
  | `Options` | properties and environment variables (`log.cpp`, `filei.cpp` L336-505, `file.cpp` L331-371) |
  | `Groups`, `Subfile` | subfiling: groups of processes; paths, counters and attributes of subfiles (`filei.cpp` L106-290, L738-1017, `logi_nb.cpp` L544-582) |
  | `Request` | combined requests and notifications (`req.cpp`, `reqi.cpp`) |
  | `Tools` | h5lreplay, h5ldump, `foff2logidx` |
  | `Replay` | h5lreplay end to end: parts of the processes, order and interleaving of the writes, unfilter step |
  | `Coll` | the processes as programs of collective calls, run side by side (`logi_nb.cpp` L341-424, L522-894, `filei_meta.cpp` L49-320, `filei.cpp` L669-687, L710-842, `dataseti.cpp` L1034-1141) |
  | `Async` | the requests handed out by every callback, and the request callbacks on them (`req.cpp`, `reqi.cpp`, and the request handling of `att.cpp`, `dataset.cpp`, `datatype.cpp`, `file.cpp`, `group.cpp`, `link.cpp`, `obj.cpp`) |
  | `Plug` | loading and unloading: MPI and the optional operations (`main.cpp` L58-175) |
  | `Multi` | operations on several datasets (`dataset.cpp` L381-419); an item says whether the parts of its write that are modelled elsewhere succeed |
  | `Owner` | what the calls that create, open and close files and datasets acquire, release and read, with any calls failing (`file.cpp` L45-319, L495-539, `filei.cpp` L63-291, L710-842, L943-1019, L1081-1108, `dataset.cpp` L54-282, L667-706, `dataseti.cpp` L686-764, `obji.cpp` L82-95); values and contents are left out; a call that fails changes nothing; memory from `new` is available |
  | `ReadOnly` | files opened for reading only (`file.cpp` L201-319, `filei.cpp` L109-199, L669-687, L735-842); the under VOL refuses every change; changes of extents, which fail after they have changed the extent in memory (C28), are left out |
  | `Align` | the aligned data layout (`filei.cpp` L216-276, L845-867, L989-1016, `logi_nb.cpp` L896-1113) |
  | `LogNames` | counters and names of the log datasets over sessions (`filei.cpp` L128-132, L735-767, `logi_nb.cpp` L720-849, `filei_meta.cpp` L170-194) |
  | `Tree` | objects and links of a file, operations by name on log-based and ordinary files (`link.cpp`, `group.cpp`, `obj.cpp` L40-90, `linki.cpp`) |
  | `ObjInfo` | number of attributes reported (`obj.cpp` L172-225, `obji.cpp` L18-38) |
  | `Dump` | h5ldump: table of datasets, sections, entries and their data; items printed per type; kind of a file (`utils/h5ldump`); no filters, output as a structure |
  | `ReplayCopy`, `ReplaySub` | h5lreplay: copy of objects and attributes; distribution of subfiles |
  | `Dset` | creating, opening, closing, resizing and querying datasets: dataspace, type, property list, filters, fill value over sessions (`dataset.cpp` L54-273, L431-556, L665-711, `dataseti.cpp` L689-761, `filei.cpp` L186-197, L293-330) |
  | `Args` | H5Dwrite_n, H5Dread_n and buffered reads with the arrays of the application (`H5VL_log.cpp` L72-133, `dataset.cpp` L580-652, `dataspace.cpp` L139-158, `dataseti.cpp` L1074-1085); arrays of one call are one object |
  | `Plain` | every callback in files that are not log-based, over an arbitrary connector below (`att.cpp` L63-347, L409-412; `dataset.cpp` L86-107, L250-257, L299-355, L441-444, L514-517, L589-592, L670-705; `group.cpp`, `datatype.cpp`, `link.cpp`, `obj.cpp` L60-265, `file.cpp` L346-352, L454-461; `filei.cpp` L721-731, L1079-1084; `obji.cpp` L60-95) |

* `Verif/Spec/*`: specifications that do not mention the code (what was written where, which cell holds which bytes, the order of
  a selection, ...). Small specifications that only one property needs stand in the file of the property (`namespace Spec`).
* `Verif/Lemmas/*`: invariants and refinement proofs.
* `Verif/Props/*`: the property theorems `Cnn_...`, each followed by an `example` that meets its hypotheses.

## 3. Properties

"Violated" means the code as written does not have the property. Then a counterexample is proved (`..._violated`; several of them
for all inputs of a class, not for one witness) and the part that holds is proved under a stated condition (`..._partial`).
The full statements are in `properties.jsonl`. Theorems named without suffix hold as stated.

| id | status | theorems | what is proved, what is missing |
|----|--------|----------|---------------------------------|
| C01 | partial | `_readback_partial`, `_readback_block`, `_readback_ifok`, `_addresses_violated` | All histories of any number of processes, both indexes, any metadata buffer size. Missing: requests whose blocks interleave in the file (the code builds a non-monotone file view, C44), bounded loading of an empty log, and log datasets placed below earlier ones. |
| C02 | partial | `_readback_partial`, `_repeated_partial`, `_repeated_ifok`, `_readback_violated` | All histories in which the log can be indexed and the datasets read are legible (condition Served; necessary by C77 and C06_sharing_list_violated), for disjoint blocks and for blocks requested several times (a cell requested several times must have been written at most once); a record written twice under the default configuration makes every read undefined (violated witness). |
| C03 | proved | `_entry_roundtrip`, `_entry_datasize_partial`, `_entry_datasize_violated` | Id, offset, size, blocks and data offsets round-trip for all plain entries. Beyond the statement: the unfiltered size recovered for record entries is wrong (witness proved). |
| C04 | partial | `_code_roundtrip_iff`, `_encoding_partial`, `_encoding_violated`, `_encoding_exact`, `_rows_violated` | C04_encoding_exact: the entry always decodes, and to the written blocks iff they are not encoded or none spans a whole dimension. C04_rows_violated: block by block, for every write of several blocks together: starts are kept; counts are kept exactly for blocks that span no whole dimension (the first not counted), any other block is recorded with no cells, and the data of later blocks are looked for as if those blocks had none. C04_encoding_violated: one witness. |
| C05 | proved | `_parse_list`, `_parse_compact` | Both indexes, any number of processes and writes, any surroundings; selection encoding allowed for encodable blocks (C04). Removed datasets are skipped. |
| C06 | partial | `_sharing_list_partial`, `_sharing_compact_partial`, `_sharing_compact_violated`, `_sharing_list_violated`, `_sharing_compare_violated` | Holds under stated conditions on repeated selections; three concrete violations of the code are proved. |
| C07 | partial | `_indexes_partial`, `_indexes_violated` | Holds for all logs without sharing and for logs with sharing under the conditions of C06; violated by the default configuration when a record is rewritten. |
| C08 | partial | `_pieces_partial`, `_maximal`, `_matches_partial`, `_empty_violated` | All metadata datasets, section sizes and limits, provided there is at least one metadata dataset; with none, the bounded read fails (violated). |
| C09 | proved | `_flush_tiles`, `_disjoint`, `_flush_nothing` | For every state; block lengths at or above 2^31 are an undefined outcome of the model (int truncation in the code). |
| C10 | proved | `_placed_once`, `_flush_again`, `_metaflush_once` | All histories. |
| C100 | partial | `_exact`, `_compress_partial`, `_decompress_partial`, `_roundtrip_partial`, `_into`, `_damaged_violated`, `_large_violated`, `_cut_violated` | Proved for every input, every first buffer and every moment at which zlib tells the end: exactly which results are returned and which overflow (C100_exact); results below 1 GiB are returned exactly, in a buffer at most twice as large as needed, and come back unchanged; a buffer of a given size gives the complete content or an error. Violated: damaged or incomplete input is never refused (the size overflows), results of 2 GiB and more overflow, and H5VL_logi_filter_deflate may return a part of the stream as success. |
| C101 | partial | `_shown`, `_refused`, `_replay`, `_processes`, `_together`, `_share_violated`, `_none_violated`, `_behind_violated`, `_inside_violated`, `_wrap_violated`, `_lost_violated` | What h5ldump makes of a metadata dataset is stated exactly for every table and any uninitialised memory (C101_shown), as is what each of any number of processes of h5lreplay takes from it (C101_replay, C101_processes: at least as many sections as processes, tables that fit, datasets below 2 GiB; together they take every byte up to the last end once, C101_together): the tools fail for sections outside of the dataset. Violated: entries behind the last end and tables without sections are silently left out, an end inside an entry makes h5ldump, and h5lreplay if a share ends there, read beyond its buffer, and h5lreplay looks at four bytes of the last end only. Left out: more processes of h5lreplay than sections (wrong already for intact tables, C35), numbers of sections of 2^60 and more. |
| C102 | partial | `_equal`, `_destroy`, `_assign_partial`, `_lifetimes_partial`, `_deep`, `_programs_partial`, `_copy_violated`, `_self_violated`, `_null_violated`, `_leak_violated` | C102_programs_partial: every program that makes, assigns, converts and destroys any number of selections runs without undefined behaviour and gives what it gives if selections are values; assignment, comparison, conversion and destruction are also stated one by one for every state of memory. Refuted: the copy constructor (members never set, for every selection with dimension sizes), assignment of an object that owns its blocks to itself, destinations without dimension sizes of at least the same rank, and the release of the destination's sizes if the source has none. The functions are not called by the connector itself; the pointers of an array are taken in the order in which alloc set them. |
| C103 | partial | `_usual`, `_refused`, `_negative`, `_reads`, `_reads_usual`, `_bits_violated`, `_minus_violated`, `_overrun_violated`, `_last_violated`, `_hidden_violated`, `_dump_violated`, `_runs_violated`, `_replay_usual`, `_replay_none_violated`, `_replay_bits_violated`, `_replay_overflow_violated`, `_replay_runs_violated` | Violated. The number is multiplied by 8 without sign, so the three highest bits are lost. Below 2^61 - 1 the functions are those of C99 and C101 (C103_usual). Loads in parts and h5ldump refuse numbers whose 61 lowest bits tell a table that does not fit (C103_refused, h5ldump except for 2^63 - 1), and loads in parts refuse all negative numbers (C103_negative); no read that loads the metadata in parts succeeds if any dataset has a number of 2^61 or more (C103_reads; C103_reads_usual: otherwise they are those of C99). Violated: loads of the whole metadata ignore the three highest bits (C103_bits_violated) and take the table for entries with -1 (C103_minus_violated); loads in parts read behind the table with bit 61 or 62 set (C103_overrun_violated), namely with the last part of the dataset, the others being those of the number without the bits (C103_last_violated); h5ldump silently shows nothing for negative numbers (C103_hidden_violated) and reads behind its table with bit 61 or 62 set (C103_dump_violated). h5lreplay reads single words and is that of C101 if the table fits (C103_replay_usual); violated: it silently takes nothing for negative numbers (C103_replay_none_violated), one process does not notice bits 61 and 62 (C103_replay_bits_violated), and with several the product of process and number overflows (C103_replay_overflow_violated). |
| C104 | partial | `_lines`, `_format`, `_faithful`, `_empty_violated`, `_file_violated`, `_desc_violated` | Proved for all non-empty sequences of bytes and any contents of the buffer: the text is exactly the lines of the specification (C104_lines), whose columns, characters and offsets are right for all bytes and offsets (C104_format), and determines the bytes (C104_faithful). Violated: without bytes the buffer is printed although it was never set, a file that cannot be opened is closed, and the description goes to stdout. |
| C11 | proved | `_section_map`, `_offsets` | All states with at least one process and a metadata dataset below 2^64 bytes. |
| C12 | proved | `_intersect_exact` | Any number of dimensions. |
| C13 | partial | `_blocks_partial`, `_ordered_partial`, `_points_partial`, `C14_exact_partial`, `_blocks_violated`, `_plane_violated`, `_regular_violated` | Proved for every block list in which no rows are merged in a group of interleaved blocks other than the last, for every block list in row-major order and for all point lists. For regular hyperslabs of any number of dimensions the condition (Spec.Safe, on stride, count and block only) is exact: C14_exact_partial, and every hyperslab outside it loses a selected cell although constructor and destructor succeed (C13_regular_violated). Violated also for an irregular 2-D union of hyperslabs. All for every behaviour of std::sort. Missing: an exact condition for irregular hyperslabs. |
| C14 | partial | `_hyperslab_partial`, `_ordered_partial`, `_line_partial`, `_exact_partial`, `_cube_partial`, `_regular_partial`, `_strided_partial`, `_plane_partial`, `_points_partial`, `_all_partial`, `_hyperslab_violated`, `_points_violated` | For regular hyperslabs of any number of dimensions, C14 holds if and only if stride, count and block are Safe (C14_exact_partial; C14_cube_partial spells this out for 3-D; all 1-D and 2-D hyperslabs are Safe). Proved also for irregular 1-D hyperslabs, span trees in row-major order, H5S_ALL, increasing points. Violated for every other regular hyperslab and for points not in row-major order (order lost, destructor frees an interior pointer). Missing: an exact condition for irregular hyperslabs. |
| C15 | proved | `_sortoffsets` | Both branches of the hand-written sort, any length. |
| C16 | partial | `_together_partial`, `_repeated_partial`, `_nested_violated`, `_crossing_violated`, `_newest_violated`, `_equal_violated`, `_scalar_violated` | Proved for blocks that are pairwise disjoint or equal (cells requested several times written at most once). For other overlapping blocks the code violates the property: nested or crossing blocks get wrong bytes, the newest data can be lost (even for equal blocks, depending on the order std::sort chooses), two reads of a scalar dataset are undefined; proved with witnesses. |
| C17 | partial | `_write_n_partial`, `_later_block_wins`, `_write_n_violated`, `_wrong_cell_violated` | Same conditions as C02 on the history. C17_write_n_violated: with selection encoding (the default) H5Dwrite_n of two whole rows succeeds and its data is lost, whereas the two writes of its blocks are read back. C17_wrong_cell_violated: H5Dwrite_n of a row and a part of another row succeeds and the part reads as values written to the row. |
| C18 | partial | `_records_partial`, `C02_readback_violated` | Records read back when no record repeats the exact blocks of an earlier one of its section (compact index with sharing); violated otherwise. |
| C19 | partial | `_independent_partial`, `_independent_violated` | Holds when nothing flushed awaits its metadata flush or nothing is queued; otherwise the independent read drops queued writes (violated witness). |
| C20 | partial | `_life_partial`, `_closed_partial`, `_crash_violated`, `_crash_lost` | Violated: nothing written since the file was created survives a crash, flushed or not. Proved: through any number of sessions, each closing the file or dying at any point (also in the middle of a flush), reads return exactly the writes of the sessions that closed the file and those flushed in the present session. Missing: flushed writes of a dead session (violated), sessions that create a dataset and die (violated, C39). |
| C21 | partial | `_close_partial`, `_close_violated` | Same conditions as C02 on the history. C21_close_violated: the same write, closed and opened again, is not read back. |
| C22 | partial | `_budget_partial`, `_limit_partial`, `_failed`, `_release`, `_budget_violated` | Proved for bused = 0 at first; the code never initialises bused (witness C22_budget_violated). |
| C23 | partial | `_stored_partial`, `_unsupported_partial`, `_unfilter_violated`, `_read_violated`, `_overrun_violated` | For every lossless compressor a write stores a block that decompresses to the data; unsupported filters make writes and reads fail. Reading back is violated: unfiltering compresses again, packing uses a buffer size of one byte, and the copy may overrun. |
| C24 | partial | `_data_partial`, `_single_partial`, `_append_violated`, `_encode_violated`, `_deflate_violated`, `_alone_violated` | One merged write decodes right without encoding and compression, and the data is always complete and in order. For two or more writes, and for every entry of a dataset of two or more dimensions with selection encoding (the default), the recovered blocks are proved wrong. |
| C25 | proved | `_transparent`, `_succeeds`, `_never_compressed` | For every library and every sequence of writes the metadata bytes are the same with and without the option; the option never takes effect because the result of the compression is tested with the wrong sense. |
| C26 | partial | `_isolated_partial`, `_same_data`, `_buffered_violated` | Isolation holds in all cases except buffered writes of a whole buffer without conversion and filters, where every change of the buffer reaches the file. |
| C27 | partial | `_failed_partial`, `_failed_violated` | Holds for every sequence of calls unless (with sharing on) a call repeats the selection of an earlier failed call; that case is violated. |
| C28 | partial | `_success_partial`, `_failure_partial`, `_extent_violated`, `_scalar_violated` | Success and failure are characterised exactly; a failing call changes the dimensions before the offending one. |
| C29 | partial | `_groups`, `_split_partial`, `_split_violated` | C29_groups holds for any grouping (agreement, range, same communicator, onto); contiguity and the number of groups for a requested number of subfiles hold unless rank*nsubfiles overflows int, which is exhibited |
| C30 | partial | `_opens`, `_single_partial`, `_read_violated`, `_ngroup_violated` | all subfiles are opened once, but none is read in the subfiling loop and the number of groups is taken from the wrong attribute slot |
| C31 | partial | `_injective`, `_reported`, `_hidden`, `_internal_partial`, `_path_partial`, `_path_violated`, `_unmapped_violated`, `_attribute_violated` | Proved for single names; for paths exactly when no later component starts with an underscore. Paths, link create/copy, attribute rename and attribute names violate it. |
| C32 | partial | `_wait`, `_notify_once`, `_notify_progress`, `_notify_partial`, `_notify_violated`, `_release_violated` | waiting is exact for all parts; the callback fires exactly once after the last part in every interleaving; the status told is right when status updates are not interrupted, and a lost failure is exhibited when they are |
| C33 | partial | `_property_partial`, `_class_partial`, `_create_partial`, `_open_partial`, `_setter_violated`, `_encoding_violated`, `_layout_violated`, `_single_violated`, `_single_never`, `_open_violated`, `_word`, `_documented_partial`, `_documented_violated` | set/get and environment precedence hold for the listed options; three setters do nothing, one is undefined, the layout variable is inverted, single-subfile-read is looked up on the wrong list, and options given when opening are replaced by the stored ones; the index size is documented for transfer lists, where it is never looked at |
| C34 | partial | `_increasing_partial`, `_decreasing_partial`, `_iterate_partial`, `_open_violated`, `_name_violated`, `_root_violated`, `_plain_violated`, `_start_violated` | Index arithmetic shows exactly the user attributes in both orders for the operations named in the partial theorems; opening, naming and starting positions that skip the translation are proved wrong. |
| C35 | partial | `_sections_partial`, `_entries_partial`, `_terminates`, `_entries_violated`, `_lost_violated`, `_large_violated` | exact partition of sections when there are at least as many sections as processes and less than 2 GiB of metadata; the loops terminate; with fewer sections than processes entries are replayed more than once, or lost, because the share of a process is overwritten; offsets of 2 GiB and more are truncated |
| C36 | proved | `_bounds` | for every section map and whatever the memory contained; the memory dataspace H5S_ALL takes the selection of the file (contract of HDF5) |
| C37 | proved | `_lookup` | for every list of log datasets in file order; C37_order_needed shows the order is required |
| C38 | partial | `_select_partial`, `_select_violated`, `_block_partial`, `_block_violated` | Proved for shapes that one stride can describe; for three and more dimensions the selection is proved wrong. |
| C39 | partial | `_unique_partial`, `_stable_partial`, `_crash_violated`, `_crash_same`, `_failed_violated` | Proved for every history without crash and failed create; both exceptions are proved to break it. |
| C40 | partial | `_swap_involution`, `_buffer_involution`, `_selection_file`, `_header_partial`, `_header_violated`, `_reader_violated` | Swaps are involutions; selection words and 32-bit header fields are host independent. The 64-bit header fields are not, and the big-endian reader uses the dataset number before swapping and swaps too much. |
| C41 | partial | `_registry_partial`, `_registry_violated` | Proved for files whose inode numbers identify them; the registry ignores the device (witness C41_registry_violated). A second open is refused by the code. |
| C42 | partial | `_refcount_partial`, `_refcount_violated` | Proved for all histories without file handles obtained from objects; those are not counted (witness C42_refcount_violated). |
| C43 | partial | `_collective_partial`, `_single_partial`, `_collective_violated` | calls match exactly if all groups or no group has metadata; violated otherwise |
| C44 | partial | `_view_partial`, `_line_partial`, `_view_violated` | Proved over all histories for blocks that are pairwise comparable (regular grids, disjoint rows) or have their ends in order (one block ends no later than the other in every dimension, as for nested and equal blocks), and for all blocks, overlapping or not, of one-dimensional datasets; the code violates the property for other disjoint blocks (operator> compares dimensions wrongly), proved with a concrete witness. |
| C45 | partial | `_unlink_partial`, `_unlink_violated` | Holds without sharing and when no remaining write repeats a selection of a removed dataset; violated otherwise (witness). |
| C46 | partial | `_roundtrip_partial`, `_buffer_violated`, `_text_violated`, `_negative_violated` | Round trip proved for identifiers the buffer has room for; the overrun is proved for every larger identifier. Negative numbers are accepted and name another connector. |
| C47 | partial | `_gather_partial`, `_scatter_partial`, `_roundtrip_partial`, `_convert_violated`, `_size_violated`, `_larger` | Proved for every shape, block list and element size; reads into a wider memory type are proved to fail and writes from a smaller memory selection to store uninitialised bytes. |
| C48 | partial | `_pool_partial`, `_zero_violated` | Proved for every pool of non-zero size; a pool of size 0 dereferences null. |
| C49 | partial | `_visit_partial`, `_visit_violated` | Names that start with a dot are skipped. |
| C50 | partial | `_write_partial`, `_read_partial`, `_shared_partial`, `_reopen_partial`, `_lost_violated` | Proved for all 1-D hyperslabs, all regular hyperslabs of any number of dimensions that the connector normalises without loss (Spec.Safe, exact by C14_exact_partial; all 2-D ones), row-major span trees, H5S_ALL, none, and increasing point lists, for every history; with sharing or encoding for histories that can be indexed. Violated by every other regular hyperslab (C50_lost_violated: the write succeeds and a selected cell keeps its old value, in any history), by irregular hyperslabs (C13_plane_violated) and by unordered points (C14_points_violated). |
| C51 | partial | `_single_partial`, `_replay_partial`, `_order_violated`, `_lost_violated`, `_race_violated`, `_removed_violated`, `_shrunk_violated`, `_filter_violated` | Violated. Proved for all histories and configurations: one process applies the writes in the order of the metadata; any number of processes up to the number of sections and any schedule give the value of the last write if writes of different processes or epochs have no common cell; written datasets present, extents containing the blocks, less than 2 GiB of metadata. Counterexamples for the order of overlapping writes (one process and two), more processes than sections, removed datasets, reduced extents, filtered datasets. Not modelled: subfiling, names and attributes of the output. |
| C52 | partial | `_report_partial`, `_encoding_violated`, `_off_violated`, `_below`, `_plain_violated` | Without selection encoding the lists are returned and report compression, subfiling, sharing if on, and merging, passthru, layout, single-subfile reads if off. Violated otherwise: with the default encoding the getter calls the setter with too small an argument (undefined behaviour), and options that are off or not rebuilt are reported at their defaults. For ordinary files H5Fget_access_plist always fails (the list is asked from a file that was never set). |
| C53 | proved | `_again`, `_processes`, `_prepare` | For all reachable states of the file model (Model/File.lean). 'Results' are the set of outcomes that the order chosen by std::sort allows. Not covered: subfiling, where processes read other subfiles. |
| C54 | partial | `_copy_partial`, `_underscore_violated`, `_names_violated` | Proved for every well-formed file whose names cause no trouble (no user name with a leading underscore, dot or slash in the places listed in Plain, fixed sizes, one link per object). For other names the code violates the property: a top-level _x makes every replay fail, and seven witnesses show lost or renamed objects and attributes. |
| C55 | partial | `_subfiles`, `_paths`, `_replay_partial`, `_order_violated` | C55_subfiles and C55_paths hold for any numbers and any split. The data is reproduced (C55_replay_partial) for all histories without races between processes, epochs and subfiles, if no group is larger than the group that wrote the subfile. Violated if subfiles overwrite each other: they are applied in the order of their numbers. |
| C56 | partial | `_write_partial`, `_config`, `_read_violated`, `_reopen_violated`, `_path_violated`, `_config_violated` | Holds for sessions that create a file, flush in any order and close it (C56_write_partial, C56_config). Violated by every read in that session, by every reopening, for every path with a slash, and for the options of a subfile that has not been closed. The effect of H5F_ACC_TRUNC and H5F_ACC_EXCL on the open of an existing file is the contract of the native VOL. |
| C57 | partial | `_place_partial`, `_streams_partial`, `_neighbours`, `_place_violated`, `_collide_violated`, `_bounds_violated`, `_align_violated`, `_meta_violated`, `_merged_violated`, `_streams_violated`, `_create_violated`, `_aligned_partial`, `_room_partial` | Holds for data within one stripe (C57_place_partial), at most two groups per target (C57_streams_partial) and the matching of sends and receives (C57_neighbours). Violated otherwise: creation of a file with this layout is undefined, later stripes are misplaced and overwrite data of others or leave the dataset, the third group of a target overlaps the second, recorded offsets are never file positions, merged requests overrun the arrays. |
| C58 | partial | `_write_partial`, `_write_violated` | Violated: once a log dataset of a dead session is in the file, every later flush of data fails, for ever. Proved for histories in which dead sessions leave no log dataset. |
| C59 | partial | `_same_partial`, `_log_safe_partial`, `_visit_partial`, `_count_violated`, `_inner_violated`, `_delete_log_violated`, `_same_loc_violated`, `_link_violated`, `_order` | Refinement proved for every sequence of operations in which only the first component of a path starts with an underscore and link copying/creation uses no such name; counting the links of the root group, inner underscores, absolute paths into the log, H5L_SAME_LOC moves and link creation/copying are proved wrong. Listings by name are always in order. |
| C60 | partial | `_info_partial`, `_self_partial`, `_by_name_violated`, `_root_violated`, `_plain_violated`, `_visit_violated` | The number is right exactly when the deduction for the type of the handle equals what the connector added to the object; objects given by name, the root group opened as a group, ordinary files and visits are proved wrong. |
| C61 | partial | `_order`, `_flush_partial`, `_close_partial`, `_close_one`, `_close_state`, `_read_partial`, `_run_partial`, `_prepare_partial`, `_close_violated`, `_alone_violated`, `_view_violated` | Fails: with subfiling the close hangs unless all groups have written something or none has; a blocking read hangs unless all processes find something in the log, or none, or all selections are empty. Proved: the order of the processes never matters (any programs); the data flush always completes and is one step of every group; exactly when close and read complete; runs of writes, flushes, even reads and the close equal the steps of the file. Collective calls are taken to wait for all processes. Not in this model: merged and aligned flushes, loading of metadata, other collective HDF5 calls. |
| C62 | partial | `_class_violated`, `_wait_violated`, `_exact_partial`, `_all_violated`, `_parts_partial`, `_now_violated`, `_create_violated`, `_lost_violated`, `_unpublished_violated`, `_leak_violated`, `_foreign_violated` | The code violates it. The class of the connector has no request callbacks at all (src/H5VL_log_main.cpp L42-50), so no request can be waited for; the further theorems hold whether or not they are installed. Proved for every callback and all answers: an operation is waitable exactly if it hands out nothing and the under VOL has nothing left to do; every request handed out is useless since its connector id is never set. For callbacks of the common form the id is all that is missing if the under VOL returns a request for each call; further defects are proved separately. |
| C63 | partial | `_app_partial`, `_first_partial`, `_reload_violated`, `_finalize_violated`, `_retry_violated`, `_late_violated` | The code violates it. Proved for any number of cycles when the application owns MPI, and for the first use otherwise; reloading after the connector has finalised MPI, finalising by the application and a failed registration are proved to go wrong. |
| C64 | partial | `_write_partial`, `_error_violated`, `_read_partial`, `_count_violated` | The code violates it. Writes: equal to one call per dataset if each may be issued; any failure ends in an exception thrown into the library with the earlier writes queued. Reads: exactly when the processes complete, for any lists of reads, without subfiling. |
| C65 | proved | `_unchanged` | By induction over the session; the under VOL refuses every change of a file opened for reading only (assumption of the model). |
| C66 | partial | `_read_partial`, `_write_violated`, `_open_violated`, `_swmr_violated` | Independent reads, and all reads while nothing is queued, return the writes of the earlier sessions. Violated: a write is accepted, makes every later flush fail, and with one process every later read, and is lost; a file without write permission cannot be opened; with H5F_ACC_SWMR_READ the file cannot be closed. |
| C67 | partial | `_one_partial`, `_flush_partial`, `_collective_violated` | Holds with one process, and after H5Fflush, for histories that can be indexed. Fails in general: with several processes the code looks at the transfer list of the file, which is independent whatever the caller asks for, so a collective read returns no queued write (C67_collective_violated, for every history in which the metadata of all flushed writes is in the file). |
| C68 | proved | `_write`, `_write_none`, `_read`, `_flush`, `_reopen` | Over all sequences of calls (Calls) and all configurations; with sharing or encoding under the conditions named in the quantifier (Allows, Indexed), which are empty without them and whose necessity is shown by C02_readback_violated, C04_encoding_violated, C06_sharing_*_violated, C45_unlink_violated. Joins selections (C14), gather and scatter of memory (C47), metadata, flush and search (C01, C02). The dataspaces named in the quantifier are those of Supported; others are known to go wrong (C14_hyperslab_violated, C14_points_violated). fuel only bounds a loop. |
| C69 | proved | `_same` | From C68, also between two different configurations: both reads succeed and return the same bytes for every cell that was written, and for all others if there is a fill value. SameWrites compares the writes to the dataset only. |
| C70 | partial | `_open_partial`, `_create_partial`, `_open_violated`, `_create_violated`, `_limit_violated`, `_session_partial`, `_session_violated`, `_stuck_violated`, `_align_violated`, `_post_create_violated`, `_retry_violated`, `_abort_violated`, `_dset_open_partial`, `_dset_open_violated`, `_dset_open_ub_violated`, `_dset_open_leak_violated`, `_dset_create_partial`, `_dset_create_violated`, `_start`, `_dxpl_violated`, `_post_open_violated` | Over all combinations of failing calls. Holds: no undefined behaviour when files are opened or created without aligned data, the object, the block of the info and what came from the driver are released; a session without datasets and with the default property list leaves nothing, and exactly what other sessions leave is stated. Fails otherwise: see the theorems named violated and DESIGN items 105-113, 123. |
| C71 | partial | `_dump_partial`, `_names_partial`, `_text_partial`, `_decimal_partial`, `_kind_partial`, `_share_violated`, `_removed_violated`, `_dot_violated`, `_string_violated`, `_half_violated`, `_hex_violated`, `_kind_violated`, `_behind_violated`, `_foreign_violated`, `_bytes`, `_rows_violated` | complete for files without filters and subfiles whose written datasets are present under names not beginning with a dot whose writes have one element per recorded cell (C71_rows_violated: h5ldump aborts on a file with whole rows written together) and, with shared metadata, where equal selections of several blocks have equal element sizes; violated otherwise, for strings, half precision, opaque types, and for the kinds of NetCDF files |
| C72 | partial | `_refs_partial`, `_unwrap`, `_file_violated`, `_dset_violated`, `_context_violated`, `_null_violated`, `_unset_violated`, `_context`, `_dangling_violated` | Proved for all sequences in which no file handle is got from a wrap context, with exact counts of what failing calls leave behind. Violated: a file handle got from an object of an ordinary file is an object structure used as a file; a failed H5Dopen in an ordinary file keeps the file open for ever; failures to get or free a context leak a reference to the connector below; wrapping in ordinary files ignores failure. Contexts do not keep their file. One connector below for all files. |
| C73 | partial | `_safe_partial`, `_owned`, `_bill_partial`, `_clean_partial`, `_writes`, `_update_violated`, `_parts_violated`, `_empty_violated`, `_write_fails_violated`, `_queue_violated`, `_merge_violated`, `_independent_violated`, `_safe_violated`, `_once` | Any history with any failing calls: nothing is used or released twice unless a read with conversion is queued (then it can be: C73_safe_violated); everything with an owner is released by the close; the exact bill of histories of successful calls. Missing: the property is false (the violated theorems give what is lost). Nothing is ever held twice (C73_once). |
| C74 | partial | `_same`, `_readback_partial`, `_close_partial`, `_data_lost`, `_data_violated`, `_meta_lost`, `_meta_violated`, `C70_retry_violated` | Proved for any number of failures before the log or metadata dataset exists, in any history. Violated for failures afterwards: data flushes fail for ever; after a failed metadata flush nothing can be read any more. |
| C75 | partial | `_same`, `_absent_partial`, `_write`, `_readback_partial`, `_close_partial`, `_defined`, `_retry_violated`, `_mixup_violated`, `_other_violated` | Proved for every history in which any writes fail, without metadata sharing always, with it as long as no write repeats the selection of a failed one before the next flush of the metadata. Otherwise violated: a failed write leaves its selection in the table of shared selections, the repetition refers to an entry that does not exist; reads are then undefined or return data at the wrong place. |
| C76 | partial | `_flush_partial`, `_queue`, `_idle`, `_close_violated`, `_twice_violated` | H5Fflush completes all queued reads of all processes, for requests whose file view is valid and where cells read twice were written at most once. False for H5Fclose (never completes them) and for cells read twice and written twice. Conversions and memory selections: C83. Missing: subfiles. |
| C77 | proved | `_compact`, `_list`, `_reopen_compact`, `_reopen_list`, `_indexable` | Dichotomies: the condition decides between the values expected and undefined behaviour, for all requests that a file view can serve (Viewable, Repeats) and record numbers below 2^31 (compact index). The conditions (Legible, Buildable, Measured) speak only about the writes of the history. C77_indexable: the simpler condition Indexable implies it; the example shows a file that Indexable excludes. |
| C78 | partial | `_answers_partial`, `_layout_violated`, `_plist_violated`, `_filters_violated`, `_filters_gone`, `_data_violated`, `_null_violated`, `_scalar_violated`, `_storage_violated`, `_extent_violated` | Holds for any sequence of calls over any number of sessions whose dataspaces are simple (without encoding also scalar) and whose H5Dset_extent calls do not fail; queries of layout and property list need contiguous lists without filters, those of filters such lists or a single session. Everything excluded is shown to fail: the application's list and the dataset's list become contiguous, filters vanish with the session and the compressed bytes are read as data, null dataspaces become scalar, scalar ones are undefined with encoding, two queries always fail, a failed H5Dset_extent changes H5Dget_space. |
| C79 | partial | `_same_partial`, `_index_violated`, `_decreasing_violated`, `_order_violated`, `_arguments_violated`, `_strings_violated`, `_oopen_violated`, `_close_violated`, `_lost_violated`, `_count_violated`, `_move_violated`, `_mount_violated` | For any connector below whose attribute queries change nothing, sessions of harmless calls are the direct sessions. The excluded calls are violations: shown here, and the access property list in C52_plain_violated. |
| C80 | partial | `_calls`, `_flush_partial`, `_freed_violated`, `_changed_violated` | Writes take their blocks at the call, for all sequences; queued reads stand for the blocks of their calls exactly if the arrays hold them again at the flush; arrays freed before it are accessed, for all states. |
| C81 | partial | `_readback_partial`, `_accepted_violated`, `_outside_violated`, `_shrink_violated`, `_alias_violated` | Proved for histories with writes inside extents that do not shrink; no write outside is refused, for all states; data outside the extent and data cut off come back; with selection encoding writes outside change other cells. |
| C82 | partial | `_log`, `_other_partial`, `_unloaded_violated`, `_query_violated`, `_class`, `_caps_violated`, `_passed`, `_load` | Log files and classes: always. Other datasets: once the connector has been loaded, also after it has been unloaded. Before, the calls have the number 0, which is an operation of the native connector: they succeed, transfer nothing and convert the dataset. Queries about the two operations are answered by the connector below, which does not know them; the query of the capability flags is undefined after H5Pset_vol with NULL, the documented way. |
| C83 | partial | `_flush_partial`, `_call`, `_queue`, `_wide_violated` | All calls, selections of the file and of memory, conversions and configurations; the cells of two calls of a process on one dataset must not interleave in row-major order (otherwise see C16 and C76). False for memory selections with a memory type wider than that of the dataset: the call is accepted and from then on every H5Fflush fails. Missing: interleaving calls, subfiles. |
| C84 | partial | `_files_partial`, `_excl`, `_delete_violated`, `_native`, `_stack_violated`, `_leak_violated`, `_stack_partial` | Any sequence of calls over the native connector, also with subfiles, except H5Fcreate with H5F_ACC_EXCL and subfiling, whose outcome is stated exactly. Violated: H5Fdelete leaves all subfiles, so that the file cannot be created with H5F_ACC_EXCL again; with another connector below H5Fdelete and H5Fis_accessible never answer; every call leaks. Over other connectors C84_stack_partial gives the exact condition under which the file system calls answer. |
| C85 | partial | `_flat_partial`, `_refused`, `_pointers_violated` | Holds for types without pointers inside; only the top-level variable-length string is refused. Every other type with a string or sequence of variable length inside is accepted and its pointers are stored, so that the values are lost with the memory (C85_pointers_violated). |
| C86 | partial | `_name`, `_file_partial`, `_flush_violated`, `_object_violated`, `_objects`, `_ordinary_partial` | Names: always. H5Fflush: with a handle of the file, for histories that can be indexed. Violated: with any other object H5Fflush takes its structure for that of a file (undefined, in ordinary files as well); flush calls on objects succeed and write nothing out, for every history. What such calls do answer, and that they change nothing, is stated exactly (C86_objects); H5Fflush of an ordinary file is that of the connector below (C86_ordinary_partial). |
| C87 | partial | `_balance_partial`, `_free_partial`, `_inuse_partial`, `_over_partial`, `_log_violated`, `_again_violated`, `_twice_violated` | All sequences of calls of an application that counts the first H5VL_log_register only: everything in use is valid, and the references are exactly those in use, given out, and lost in H5Pset_vol_log, H5VLconnector_str_to_info and H5Fopen. Violated by the documented use: the identifier is stale after the first complete use, and a second H5VL_log_register gives no reference of its own. |
| C88 | partial | `_write_partial`, `_read_partial`, `_same`, `_back_partial`, `_members_violated`, `_silent_violated`, `_compound_violated` | Any number of elements and any conversions: writes are right if the library has the conversion and the memory type names all members of the dataset; reads if no compound type is involved; equal types always. Violated otherwise: members that are not named are stored from uninitialised memory; without a conversion H5Dwrite stores the bytes as they are and succeeds; reading into another compound type passes no background buffer to H5Tconvert, which is undefined. |
| C89 | partial | `_same`, `_flush`, `_close`, `_readback_partial`, `_agree`, `_big_violated`, `_filter_violated`, `_fail_violated`, `_order_violated`, `_block_violated` | Proved: same stored bytes for all histories; a flush works exactly if no process queued 2 GiB, then as with passthru mode off; closing likewise; every read of flat blocks succeeds and returns the data last written, even where MPI-IO reads are undefined; what a read returns with passthru mode off it can return with it on. Violated: 2 GiB queued, blocks of three dimensions, filtered datasets, log datasets with descending addresses, log datasets that cannot be opened. |
| C90 | partial | `_equal`, `_swap`, `_trans`, `_copy`, `_text_partial`, `_text_violated`, `_stale_violated`, `_foreign_partial` | Comparison and copies: all stacks whose identifiers are valid. Text: printing is undefined exactly if a class in the stack has a value of eight digits or more or an identifier is not valid any more; otherwise the text is read back as equal information if the lowest connector reads its own text. Violated also: information with an invalid identifier compares equal to everything. C90_foreign_partial: read in an application without the connector below, the text is refused; if that connector does not read its part, the information is without it. |
| C91 | partial | `_written`, `_readable`, `_meaning`, `_recover`, `_entry_partial`, `_header_violated`, `_ends_violated`, `_order_violated`, `_record_violated`, `_code_violated` | Proved for the format as written (Spec/Format, dialect actual), for all histories: every metadata dataset is a text of it that describes the writes, and a text can be read in one way only. The documented format differs in five points, each shown: width of nproc (no file follows the document), end offset of process 0, order of starts and counts, nsel of record entries, encoded ends. Merged flushes and compressed entries are not covered. |
| C92 | partial | `_replay`, `_others`, `_lost_violated`, `_incomplete_violated`, `_block_violated`, `_dump`, `_several_violated`, `_missing_violated`, `_dump_block_violated` | Status 0 is proved to mean what it should, exactly, for h5lreplay and for h5ldump with one process, and h5lreplay touches no file but its output. Violated: a failing h5lreplay has already replaced the output (the check after opening the input looks at another identifier), files with a user block are replayed or dumped but reported as failures, h5ldump with several processes and h5ldump -k of a missing file end with status 0. What the tools do with open files is a parameter (see C35, C36, C51, C54, C71). |
| C93 | partial | `_record`, `_reference`, `_negative`, `_negative_violated`, `_scalar_violated`, `_overflow_violated` | Memory of requests and of references proved for all selections with fewer than 2^30 coordinates; negative numbers of blocks are shown to fail except for -1 block of a one-dimensional dataset (store behind the allocation) and for scalar datasets (an entry without data), and the overflow from 2^30 coordinates on is shown. |
| C94 | partial | `_cancel`, `_free`, `_once`, `_status_violated`, `_nothing_violated`, `_retry_violated`, `_silent_violated` | Proved: when cancelling and releasing succeed, exactly; that they then release everything and that the request remains otherwise; that a released request cannot be used again. Shown to fail: the status is that of the last part, requests without parts, repeating a call that failed, watching a request without parts. |
| C95 | partial | `_write`, `_effect`, `_read_partial`, `_history`, `_readback_partial` | C95_write and C95_effect hold for every history and every write of several non-empty blocks inside the extent (number of dimensions times the size of the dataset below 2^63): the file is as after the write of the recorded blocks, and the recorded blocks leave in each cell what the blocks without whole dimensions leave. C95_history: so for histories in which any number of writes are such writes; every theorem about histories applies to the recorded ones. C95_read_partial, C95_readback_partial: reads after one such write and after any number of them, under the conditions of C02 on the recorded history. |
| C96 | partial | `_short_violated`, `_number_violated`, `_endless_violated`, `_size_partial`, `_blocks_violated`, `_zeros`, `_reads`, `_dump`, `_written`, `_ref_violated`, `_null_violated`, `_parts`, `_anywhere` | Violated: an incomplete header, a foreign dataset number, a size that is not positive in an entry of a removed dataset, a number of blocks that does not fit, and a reference to a place where no entry is are not checked. Shown: sizes that are not positive are refused in entries of datasets that are there (unless the entry refers to another and the index is the compact one); zeros are refused exactly when dataset 0 is there and 28 of them are there; the outcome for one metadata dataset is the outcome for every first read of every process, and for h5ldump -H if no dataset was removed; all histories write whole entries. With a limited metadata buffer (C96_parts) so for the first part of a damaged dataset, and for every read. Damage in any later part decides in the same way (C96_anywhere). Damaged tables of sections: C99. |
| C97 | partial | `_token_partial`, `_reached`, `_hidden_violated`, `_index_partial`, `_index_violated`, `_refused_violated`, `_group_violated`, `_name_violated` | What a name opens its token opens too. Tokens and indexes in groups other than the root group behave as in ordinary files; the index of the log in the root group and everything behind it is determined exactly; calls by index refused; names of groups not mapped; exact condition for H5Iget_name. Paths with an underscore after a slash (C59) are left out. |
| C98 | partial | `_open`, `_number`, `_absent`, `_twins_violated`, `_id_violated`, `_foreign_violated`, `_sizes_violated`, `_values_violated`, `_query_violated`, `_count_violated` | Holds for files in which every attribute is as the connector writes it (C98_open: the table of datasets is exactly the first dataset of every number; C98_number). Every kind of damage stated is shown to be accepted, to access memory outside, or to make the whole file unusable. Not covered: attributes with several dimensions, property lists, subfiles. |
| C99 | partial | `_whole`, `_inner`, `_behind_violated`, `_last_violated`, `_none_violated`, `_inside_violated`, `_lost_violated` | Violated. For every state and table: reads that load the metadata as a whole depend on the number of sections only; reads that load it in parts do not look at anything behind the ends the table says, so those writes are silently lost; ends before the table and inside an entry (where a part ends) are undefined; ends behind the dataset and tables without sections are refused by reads in parts only; when all sections fit into one part only the last end matters. Left out: numbers of sections of 2^60 and more (the sizes computed from them wrap around). That tables written by the connector are right is C11. |

### Main conditions

* `Spec.Served` (C02, C08, C16 to C21, C44, C66, C67, C74 to C76, C78, "histories that can be indexed"). List index: the dataset first written with a
  selection that is repeated is still there (`Buildable`), and selections of several blocks are repeated in the datasets read with elements of the same size (`Measured`).
  Compact index: likewise still there, for the datasets read, which are not written twice in one record with the same selection and section (`Legible`), and their record
  numbers are below 2^31. Except for the last, nothing is required without sharing. C77 proves that `Buildable` and `Legible` are necessary: otherwise the read is undefined. `Measured`: C06_sharing_list_violated. `Spec.Indexable` is a simpler, stronger
  condition on all datasets at once (C77_indexable).
* `Viewable` (C01, C02, C44): blocks of one dataset that are requested together are `Comparable` (regular grid, disjoint rows, one after the other) or have their `Ends` in order (one ends no later than the other in every dimension: equal, nested, and all one-dimensional blocks), so that the file view is monotone.
* Addresses of log datasets increase with time (C01): `C01_addresses_violated` shows that the read-back order depends on it.

## 4. Defects found in the code

Each one is either proved (theorem in brackets) or noted while reading.

 1. Unfiltered size of record entries is wrong: the product runs over `encdim` counts [C03_entry_datasize_violated].
 2. Decoder of compressed entries: `inlen` ignores the record number, the block count is compressed by the writer and read raw by
    the reader (unreachable because of 57).
 3. Selection encoding loses counts equal to the extent [C04_encoding_violated].
 4. List index with sharing: data offsets of the referenced entry are reused although element sizes differ, and selections of
    different shape with equal bytes are taken for equal [C06_sharing_list_violated, C06_sharing_compare_violated].
 5. Compact index with sharing: rewriting a record makes every read undefined, in the default configuration
    [C06_sharing_compact_violated, C07_indexes_violated, C02_readback_violated].
 6. Compact index: reference entries get `dsize` 0.
 7. Entries that refer to an entry of a removed dataset [C45_unlink_violated].
 8. Merged requests test a configuration bit in the entry flags [C24_encode_violated].
 9. `config ^ METADATA_MERGE` used as a test [C24_alone_violated].
10. Subfiles of other groups are opened but never read; the number of groups is taken from the wrong attribute element
    [C30_read_violated, C30_ngroup_violated]; `config & !(SUBFILING)`.
11. The barrier of a metadata flush is not reached by groups without metadata: the close hangs [C43_collective_violated, C61_close_violated; exactly when: C61_close_partial].
12. Independent reads drop queued writes; `hdr->foff` is uninitialised until the flush [C19_independent_violated].
13. Overlapping blocks read together: nested, crossing, and newest data [C16_nested_violated, C16_crossing_violated, C16_newest_violated].
14. Non-monotone file views; two reads of a scalar dataset [C44_view_violated, C16_scalar_violated].
15. `sel_space` uses one stride for three and more dimensions [C38_select_violated, C38_block_violated]; filtered passthru reads select all.
16. Filtered reads use a packing buffer of one byte [C23_read_violated].
17. `MPI_Unpack` is given the size in dataset elements [C47_convert_violated].
18. Point selections lose their order, and the destructor frees an interior pointer [C14_points_violated].
19. `merge_blocks` with `len` 0 reports one block.
20. The layout environment variable is inverted [C33_layout_violated].
21. Bounded loading of an empty log fails [C08_empty_violated].
22. Aligned data layout: see 80-84.
23. `contig_buffer` is unused.
24. Lengths and offsets are truncated to `int` (an undefined outcome in the model).
25. `H5VL_logi_unfilter` compresses again [C23_unfilter_violated, C23_overrun_violated].
26. `set_extent` changes leading dimensions before it fails [C28_extent_violated].
27. Paths, link create and copy, attribute rename bypass or defeat the name mapping [C31_path_violated, C31_unmapped_violated].
28. Combined requests: a failure can be lost; a request in progress [C32_notify_violated, C32_release_violated].
29. Nothing written since the creation of the file survives a crash [C20_crash_violated, C20_crash_lost].
30. Closing a file does not execute pending reads.
31. Options given when a file is opened are ignored [C33_open_violated].
32. The registry of open files ignores the device number [C41_registry_violated].
33. Three setters do nothing [C33_setter_violated].
34. Attribute indexes [C34_*_violated].
35. Merged requests with two or more appends decode to other blocks [C24_append_violated].
36. The buffered option is inverted [C26_buffered_violated].
37. A failed write leaves its entry in the deduplication table [C27_failed_violated].
38. Reading unwritten cells through an internal buffer without fill value returns uninitialised memory.
39. h5lreplay replays entries several times [C35_entries_violated].
40. (Withdrawn. An earlier version of the model had the offsets of h5ldump one word too early. `H5Dread` with `H5S_ALL` as memory dataspace uses the selection of the file in memory too, so they arrive in `offs[1]`, `offs[2]`, …, and the bounds are right: C36 is now proved.)
41. `info_to_str`: buffer too small; malformed text is undefined [C46_buffer_violated, C46_text_violated].
42. `dsteps[ndim - 1]` for scalar datasets [C28_scalar_violated].
43. Read order depends on file addresses [C01_addresses_violated].
44. A rank with an empty selection returns before the collective calls: the others hang [C61_alone_violated].
45. `post_open` opens the file read-write in all cases.
46. Data written to a log dataset without address (`HADDR_UNDEF`) is dropped.
47. `merge_blocks` aliases rows: an ordinary 3-D hyperslab loses cells [C13_blocks_violated, C14_hyperslab_violated].
48. `bused` is never initialised [C22_budget_violated].
49. File handles obtained from objects are not counted [C42_refcount_violated].
50. Big-endian hosts: 64-bit header fields, reader [C40_header_violated, C40_reader_violated].
51. A pool of size 0 dereferences null [C48_zero_violated].
52. Attribute names are reported as stored [C31_attribute_violated].
53. Datasets whose names start with a dot are not visited [C49_visit_violated].
54. `rank * ngroup` overflows `int` [C29_split_violated].
55. `H5Pset_sel_encoding` copies 8 bytes from a 4-byte variable [C33_encoding_violated].
56. The single-subfile-read option is looked up on the wrong list [C33_single_violated, C33_single_never].
57. Metadata compression never takes effect [C25_never_compressed].
58. The number of datasets is stored only at close: identifiers repeat after a crash [C39_crash_violated, C39_crash_same].
59. A dataset whose creation failed half-way makes the file unusable [C39_failed_violated].
60. Merged entries are flagged as compressed but never compressed [C24_deflate_violated].
61. A memory selection smaller than the file selection stores uninitialised bytes [C47_size_violated].
62. An irregular 2-D hyperslab (a union of hyperslabs) loses and repeats cells in `merge_blocks`; every regular 2-D hyperslab is right [C13_plane_violated, C14_plane_partial].
63. h5lreplay reads 8-byte offsets to 4-byte members; the share of a process (`sec.off`) is overwritten and, with shared metadata and more processes than sections, entries are never replayed [C35_lost_violated].
64. h5lreplay truncates metadata offsets of 2 GiB and more [C35_large_violated].
65. h5lreplay applies writes in the order of the metadata (by epoch, then by process), not in the order of the data flushes: an older value can win, even with one process [C51_order_violated].
66. h5lreplay with several processes has no order between sections: a value overwritten in a later session can win [C51_race_violated].
67. h5lreplay with more processes than sections silently loses data (shared metadata) [C51_lost_violated].
68. h5lreplay fails if a written dataset was removed or its extent reduced [C51_removed_violated, C51_shrunk_violated].
69. h5lreplay writes the compressed bytes of filtered datasets: `memcpy (buf, req.bufs[0], csize)` has its arguments exchanged [C51_filter_violated].
70. The same block requested twice: the requests are equal for `std::sort`, and if it orders them differently in two writes, the newest data is lost [C16_equal_violated].
71. `H5Fget_access_plist` on a file with the default selection encoding registers a property of 8 bytes from a 4-byte variable: reading beyond it is undefined [C52_encoding_violated].
72. The lists returned by `H5Fget_access_plist` report sharing and encoding that were turned off as on, and passthru mode, merging and the index limit at their defaults [C52_off_violated].
73. h5lreplay removes one underscore from a stored top-level name and then opens the object of the shortened name in the *input*: a file with a user object `_x` (stored `__x`) cannot be replayed at all [C54_underscore_violated].
74. h5lreplay copies `_y` in a group as `__y`, an attribute `_a` of a named type as `__a`; loses objects whose name begins with a dot, attributes that begin with a dot or slash, and further links; gives a user group `_LOG` the attributes of the log group; and makes extendible datasets fixed [C54_names_violated].
75. h5lreplay applies the subfiles in the order of their numbers: a cell that a later write of another group has overwritten gets its old value back [C55_order_violated].
76. With subfiling, a read in the session that created the file opens the subfiles with the creation flags: with `H5F_ACC_TRUNC` it truncates them, with `H5F_ACC_EXCL` it fails [C56_read_violated].
77. When a file with subfiles is opened (and when a read switches subfiles), the numbers of data and metadata datasets are taken from the main file, where they are 0: no data is found, and the next flush fails because `_ld_0` exists [C56_reopen_violated].
78. The subfile of `d/f` is created as `d/f.subfiles/f.N` and opened as `d/f.subfiles/d/f.N` [C56_path_violated].
79. `fp->config & !(SUBFILING)` in the attribute of a new subfile is 0: all options are recorded as off until the file is closed [C56_config_violated].
80. Aligned layout: `parse_strip_info` uses the MPI file handle before the file is opened, so no file can be created with this layout; the inverted environment variable (item on `bitOf`) selects it for every value but `align` [C57_create_violated].
81. Aligned layout: the seek to the next stripe is relative to the end of the current one, so every byte after the first stripe is misplaced, over data of other processes or past the dataset [C57_place_violated, C57_collide_violated, C57_bounds_violated].
82. Aligned layout: the offset recorded in the metadata is that in the stream, not that in the file [C57_meta_violated].
83. Aligned layout: a group sends its own size, not the sum so far, to the next group on its target [C57_streams_violated].
84. Aligned layout: the address is aligned by the remainder of the size of the data; merged requests overrun `mlens`/`moffs`; a missing `striping_unit` passes the test `ssize <= 0` because `ssize` is unsigned (the last one is not modelled) [C57_align_violated, C57_merged_violated].
85. A session that flushes data and dies can leave its `_ld_N` in the file while the counter in the attribute is not updated: every later session tries to create the same name, so all its flushes of data and its close fail, for ever [C58_write_violated].
86. `H5Lmove` with `H5L_SAME_LOC` dereferences a null pointer (`o_dst->fp`, `o_src->fp`) [C59_same_loc_violated].
87. An absolute path reaches internal objects: `H5Ldelete(file, "/_LOG")` removes the log [C59_delete_log_violated].
88. `H5Gget_info` of the root group counts the group of the log [C59_count_violated].
89. Recursive visits report stored names for inner components that start with an underscore [C59_visit_partial].
90. `num_attrs` is reduced by the type of the handle, not of the object, and also in ordinary files: a group without attributes asked by name from the file has 2^64 - 1 attributes [C60_by_name_violated, C60_root_violated, C60_plain_violated]; visits do not reduce it at all [C60_visit_violated].
91. `perform_read` calls `MPI_File_set_view`, which is collective, only on processes whose search found something in the log: a collective read in which one process finds nothing does not complete [C61_view_violated; exactly when: C61_read_partial].
92. Every read, also an independent one, uses `MPI_File_read_at_all`: a process that reads on its own waits for the others [C61_alone_violated].
93. Requests of the connector are made by the default constructor, which sets the id of the under VOL to -1, and nothing sets it later: waiting for, cancelling, freeing or registering a callback on any request fails, and the request leaks [C62_wait_violated, C62_all_violated].
94. `ureq` is appended uninitialised if the under VOL completes the call at once, as the native VOL does [C62_now_violated]; dataset creation appends the same request four times, since `H5VL_logi_add_att` does not write it [C62_create_violated]; `H5Aget_name_by_idx` in decreasing order forgets its first request [C62_lost_violated]; dataset creation in ordinary files does not hand out its request [C62_unpublished_violated]; error paths leak the object [C62_leak_violated].
95. 13 callbacks hand the place of the application to the under VOL; the request found there is later taken for an object of the connector [C62_exact_partial].
96. The class of the connector has no request callbacks (`request_cls` is all NULL), so the library refuses to wait for, notify, cancel or free any request; the functions of C32 and C62 are compiled but not installed [C62_class_violated].
97. If the connector has initialised MPI, unloading it finalises MPI, and loading it again succeeds although nothing can work any more and the application cannot initialise MPI any more [C63_reload_violated, C63_late_violated]; if the application finalises MPI first, it is finalised twice, since `MPI_Initialized` stays true [C63_finalize_violated].
98. If the registration of the second optional operation fails, the first stays registered and the connector can never be loaded again in the process [C63_retry_violated].
99. `H5VL_log_dataset_write_2` and `_read_2` use `CHECK_ERR`, which throws, outside any `try`: a failing dataset throws a C++ exception through the C library; the earlier writes stay queued [C64_error_violated].
100. A collective read of several datasets hangs if the processes read different numbers of them [C64_count_violated; exactly when: C64_read_partial].
101. `H5Dwrite` on a file opened with `H5F_ACC_RDONLY` succeeds; from then on every flush of the session fails, and every read that flushes (C67), because the log dataset cannot be created, and `H5Fclose` drops the data without an error [C66_write_violated].
102. `MPI_File_open` is always called with `MPI_MODE_RDWR`: a file without write permission cannot be opened for reading [C66_open_violated].
103. `fp->flag != H5F_ACC_RDONLY` is true for `H5F_ACC_RDONLY | H5F_ACC_SWMR_READ`: closing such a file tries to write its attribute and fails [C66_swmr_violated].
104. A blocking read takes the transfer mode from the list with which the file was created or opened, which is the default one, and not from its own: with several processes a collective read never flushes and returns no queued write, against doc/usage.md L167-169 [C67_collective_violated]. Theorems that speak of a collective read hold for any read that sees the queue (`SeesQueue`): one process, nothing queued, or a file created by a connector above with a collective list.
105. A failed `H5Fopen` or `H5Fcreate` releases the file object (`delete fp`) but not what it holds: the communicator, the MPI info, the transfer and access property lists, the index, and with subfiling `ufaplid` (the closure that closes it tests `fp`, which is `NULL` by then, src/H5VL_log_file.cpp L58-61) [C70_open_violated, C70_create_violated]. After as many attempts to open files that do not exist as MPI has communicators, no file can be opened [C70_limit_violated].
106. `free (info)` (L194, L316) releases the block only: the reference to the under VOL and the copy of its info stay, also when the call succeeds [C70_session_violated].
107. `dip->dtype` is never closed: a session leaves one datatype for each dataset used [C70_session_partial, C70_session_violated].
108. If `H5VL_log_filei_post_open` fails before the log group is open, the file stays registered with all it holds; every close passes `NULL` to `H5VLgroup_close`, reports a failure and releases nothing [C70_stuck_violated].
109. If `H5VL_log_filei_post_create` fails with subfiling, the close reads `fp->sfp` and `fp->lgp`, which the constructor does not set [C70_post_create_violated]. With aligned data it reads `fp->fh` before it is set (L217) [C70_align_violated].
110. A failed `H5Fclose` cannot be repeated: the count is 0, further calls make it negative, report success and do nothing [C70_retry_violated].
111. `~H5VL_log_obj_t` calls `H5VL_log_filei_dec_ref`, which may flush and throw: if the last handle is that of an object and the flush fails, the process is terminated [C70_abort_violated].
112. `H5VL_log_dataset_open` frees `iname` before `H5VL_log_dataseti_open` and again in the handler (src/H5VL_log_dataset.cpp L270-276): for names that begin with `_` any later failure is a double free [C70_dset_open_violated, C70_dset_open_ub_violated]; for other names the dataset of the under VOL stays open [C70_dset_open_leak_violated].
113. A failed `H5Dcreate` may leave the dataset in the file, without its attributes, and its datatype, fill value and request [C70_dset_create_violated].
114. h5ldump prints the data of the wrong places for shared entries of datasets with different element sizes [C71_share_violated].
115. h5ldump aborts if a written dataset has been removed, or if its name begins with a dot: such datasets have element size 0 [C71_removed_violated, C71_dot_violated].
116. h5ldump prints only the first `n` characters of `n` fixed-length strings, and reads 2-byte floating point numbers as 4-byte ones, beyond the data [C71_string_violated, C71_half_violated].
117. h5ldump sets `std::hex` for opaque data and never resets it: all later offsets, sizes and values are in base 16 [C71_hex_violated].
118. `h5ldump -k` exchanges NetCDF classic and NetCDF 64-bit data [C71_kind_violated]. (Also seen, not modelled: after "is not a valid logvol file" the dump goes on; `MPI_Finalize` is never called; with more than one process it exits with success and prints nothing.)
119. In an ordinary file, a file handle got from an object is an `H5VL_log_obj_t` that `H5VL_log_file_close` and `H5VL_log_file_specific` use as an `H5VL_log_file_t`: undefined [C72_file_violated]. (Rests on HDF5 wrapping the file with `wrap_object` and `H5I_FILE` in `H5Iget_file_id`; the source of HDF5 was not available.)
120. A failed `H5Dopen` in an ordinary file leaks the structure and its reference to the file, which is never closed [C72_dset_violated].
121. If the connector below cannot give or free a wrap context, the reference to it is leaked [C72_context_violated]; wrapping an object of an ordinary file ignores the failure of the connector below [C72_null_violated]; unwrapping a file that was never wrapped returns an unset pointer [C72_unset_violated].
122. `H5Fget_access_plist` on an ordinary file asks `sfp`, which is NULL, and always fails [C52_plain_violated]. (Rests on `H5VLfile_get` failing for a NULL object; the source of HDF5 was not available.)
123. If `MPI_File_open` fails in `H5VL_log_filei_post_open`, the log group stays open until the close, which then fails before the file below is closed [C70_post_open_violated]. The creation of the transfer list is not checked: opening succeeds without it [C70_dxpl_violated].
124. A flush of data that fails after it has created its log dataset (file offset, reopening, write, close) leaves the dataset behind, and `nldset` as it was. Every later flush uses the same name and fails; as long as data is queued neither H5Fflush nor the flush with which H5Fclose begins ever succeeds, in this session or a later one [C74_data_violated]; a second H5Fclose reports success and does nothing (bug of C70_retry_violated).
125. A flush of metadata that fails after it has created its dataset leaves it behind, and it counts (`nmdset` is increased at once). Repeating the flush succeeds, but the dataset without contents is read by every later read, which then fails or reads beyond the metadata: everything ever written to the file is lost [C74_meta_violated].
126. h5ldump: with shared metadata and elements of the first dataset larger than those of the second it reads behind its buffer [C71_behind_violated]; a dataset without the connector's attributes makes it fail, and one created by a session that died makes it write behind its table [C71_foreign_violated].
127. H5Dwrite enters the selection in the table of shared selections (`wreq_hash`) before the steps that can fail (buffer limit, filter). If it fails and is repeated after an H5Fflush of other data, the metadata entry of the repetition refers to the entry of the write that failed, which was never made: to itself. Every read is then undefined behaviour, in this session and later ones [C75_retry_violated].
128. If another write comes between the failure and the repetition, the repetition refers to the entry of that other write: reads return its data at the wrong place and not at its own [C75_mixup_violated].
129. The table is common to all datasets: a failed write to one dataset makes a write with the same selection to another one unreadable [C75_other_violated]. (Also, not modelled: a failed filter step leaves the buffer and its share of the buffer limit.)
130. Every rebuild of the index leaks the dataspace of every metadata dataset but the last (`mdsid` is overwritten in the loop), so the number of identifiers held grows with the number of flushes times the number of rebuilds [C73_update_violated]. With a compact index `clear` forgets the entries without deleting them: each rebuild leaks the whole index [C73_update_violated]; with a limited metadata buffer each part leaks its table of offsets [C73_parts_violated].
131. H5Dread of an empty selection leaks the description of the selection (its owner is the request, which is not built) [C73_empty_violated].
132. With merged metadata and any other option of `config` (`^` instead of a test of the flag, dataseti.cpp L835) each H5Dwrite builds a request that nobody uses or deletes [C73_merge_violated].
133. A write that fails after its request or buffer exists leaks both [C73_write_fails_violated].
134. An independent H5Dread in a file with flushed and unflushed writes deletes the requests of the unflushed ones with the metadata and leaks their buffers [C73_independent_violated] (their data is never written).
135. Reads queued with a buffered transfer list are forgotten by H5Fclose, with their buffers, types and identifiers [C73_queue_violated].
136. If the conversion of a queued read fails in H5Fflush, the queue is kept although the reads before it have released their buffers: the next H5Fflush writes to released memory [C73_safe_violated].
137. H5Fclose never executes the reads queued with a buffered transfer list: H5Dread and H5Fclose report success and the data never arrives [C76_close_violated].
138. Two queued reads of a cell that was written more than once may both receive the older value at the flush, although each alone receives the newest [C76_twice_violated] (the two H5Dread calls are executed as one request, see C16).
139. H5Dcreate changes the property list of the application: H5Pset_layout (H5D_CONTIGUOUS) on the caller's list, also if the call fails later [C78_layout_violated]; H5Dget_create_plist reports contiguous storage without chunks [C78_plist_violated].
140. Filters are stored nowhere (contiguous anchors keep none): after reopening, a dataset created with filters has none, and what it delivers are the compressed bytes [C78_filters_violated, C78_filters_gone, C78_data_violated].
141. A dataset with a null dataspace is reported as scalar [C78_null_violated]; with selection encoding, creating a dataset with a scalar or null dataspace writes before its radix table [C78_scalar_violated].
142. H5Dget_storage_size and H5Dget_space_status fail for every dataset [C78_storage_violated].
143. H5Dset_extent that fails because of one dimension leaves the earlier dimensions changed for H5Dget_space until the file is reopened [C78_extent_violated].
144. In ordinary files, too, H5Aget_name_by_idx and H5Aget_info_by_idx count one (files) or three (datasets) internal attributes: they return another attribute, or fail for the last ones; in decreasing order the last ones fail [C79_index_violated, C79_decreasing_violated]; H5Aget_info reports a creation order that is too small, 4294967295 for the first attribute [C79_order_violated].
145. H5Aopen_by_idx in ordinary files takes back a change of the index that it has not made: the arguments of the caller are changed; a query by index that fails leaves them changed in all files [C79_arguments_violated].
146. Datasets of strings of variable length are refused in ordinary files, too [C79_strings_violated].
147. A dataset of an ordinary file opened by H5Oopen has an `H5VL_log_obj_t`, which H5Dclose deletes as an `H5VL_log_dset_t`: undefined [C79_oopen_violated].
148. H5Fclose of an ordinary file ignores what the connector below says, and does not ask it as long as an object is open: `H5F_CLOSE_SEMI` and `H5F_CLOSE_STRONG` have no effect [C79_close_violated]. After a failed H5Dopen it never asks (item 120) [C79_lost_violated].
149. A buffered H5Dread_n keeps the pointers `starts` and `counts` of the application and looks at them during H5Fflush: freed arrays are accessed [C80_freed_violated], changed arrays make the read return other cells and overrun its buffer [C80_changed_violated].
150. Nothing compares the blocks of H5Dwrite, H5Dread, H5Dwrite_n and H5Dread_n with the extent of the dataset: writes outside succeed [C81_accepted_violated], and what they wrote appears when the dataset grows [C81_outside_violated].
151. H5Dset_extent erases nothing: cells cut off have their old values when they are added again [C81_shrink_violated].
152. With selection encoding, a write of several blocks of which one is outside the extent changes other cells [C81_alias_violated].
153. The documentation says that H5Pset_idx_buffer_size takes a dataset transfer list (doc/api.md L126); the value is only looked for in file access lists
     [C33_documented_violated].
154. H5VL_log_str_to_info accepts negative connector values and looks for another connector [C46_negative_violated].
155. Until the connector is loaded, the numbers of its two optional operations are 0, which is `H5VL_NATIVE_DATASET_FORMAT_CONVERT`: H5Dwrite_n and H5Dread_n on a dataset of the native connector succeed, transfer nothing and convert the dataset [C82_unloaded_violated].
156. `H5VL_log_introspect_opt_query` passes every query on: the operations of the connector itself are reported as unsupported [C82_query_violated].
157. `H5VL_log_introspect_get_cap_flags` uses the connector information without a test; after H5Pset_vol with NULL, as in doc/usage.md and all examples, the query of the capability flags is undefined [C82_caps_violated].
158. A queued H5Dread into a memory selection with a memory type wider than that of the dataset is accepted; afterwards no H5Fflush succeeds (MPI_Unpack gets too small a size, which ends the program unless the error handler has been changed) [C83_wide_violated].
159. H5Fdelete removes the main file only. The subfiles stay, and H5Fcreate with H5F_ACC_EXCL and subfiling fails from then on in all processes whose subfile is there, leaving a main file behind [C84_delete_violated, C84_excl].
160. `H5VL_log_file_specific` builds a property list for the connector below and does not use it: H5Fdelete and H5Fis_accessible give another connector the information of this one, and never return with this connector twice [C84_stack_violated].
161. H5Fdelete and H5Fis_accessible leak a reference to the connector below and a copy of its information, and a property list if they fail [C84_leak_violated].
162. `H5VL_log_dataset_create` refuses strings of variable length only (`H5Tis_variable_str`), though "Variable length types are not supported". Sequences of variable length, and compounds and arrays with either inside, are accepted, and the log holds the `char *` and `hvl_t` of the application: H5Dread returns pointers into memory of the process that wrote [C85_pointers_violated].
163. For regular hyperslabs of any number of dimensions it is known exactly which are normalised without loss (`Spec.Safe`): all of one or two dimensions; of three dimensions all except those with several blocks of several cells in the first and in the second dimension, apart in the second, and contiguous cells in the last. Every other one loses a selected cell, and no call fails [C14_exact_partial, C14_cube_partial, C13_regular_violated].
164. A write through a regular hyperslab that is not `Safe` succeeds, and a selected cell keeps its old value, after every history and in every configuration [C50_lost_violated].
165. H5Fflush with a group, dataset, committed type or attribute (which HDF5 allows) takes the structure for that of a file and reads behind its end (`is_log_based_file`, file.cpp L446), in log-based and in ordinary files [C86_flush_violated].
166. H5Dflush, H5Gflush, H5Tflush and H5Oflush are passed on to the connector below, which has only the empty anchor dataset: they succeed and nothing that is queued is written out [C86_object_violated].
167. `H5VL_log_register` keeps the number of the connector in `H5VL_LOG_g` and never looks whether it is still valid (src/H5VL_log.cpp L30-36). Used as documented (register, H5Pset_vol, H5VLclose), the connector can be used once: after everything is closed, H5VL_log_register returns the closed identifier and H5Pset_vol and H5Pset_vol_log fail until the program ends [C87_again_violated].
168. Later calls of `H5VL_log_register` return the same identifier without a new reference, so closing each of them, as documented, takes the connector away from the property lists and files that use it [C87_twice_violated].
169. `H5Pset_vol_log` (L48-70) keeps the reference from H5Pget_vol_id and the copy from H5Pget_vol_info [C87_log_violated]; `H5VL_log_str_to_info` takes a second reference to the connector below (info.cpp L188, L210), of which only one is released [C87_balance_partial].
170. H5Pset_vol_log for a list that has the connector already puts it over itself (example after C87_twice_violated).
171. H5Dwrite does not look at the result of H5Tconvert (dataseti.cpp L955-976): without a conversion between the two types it stores the bytes of the memory buffer as they are and succeeds [C88_silent_violated].
172. H5Dwrite of a compound that names only some members of the dataset stores uninitialised memory for the others, instead of leaving them [C88_members_violated].
173. Reading into a compound type other than that of the dataset calls H5Tconvert without the background buffer it needs (nb.cpp L488-502): undefined [C88_compound_violated].
174. In passthru mode the position in the buffer that collects the queued writes is an `int` (nb.cpp L819-823, filei_meta.cpp L261-265, the inner `mstart` hides one of type `hsize_t`): 2 GiB queued by one process are undefined [C89_big_violated].
175. In passthru mode a block of a filtered dataset can be read only if it is all that its log dataset holds (dataseti.cpp L296-318: all of the log dataset is selected, and it is read from its start) [C89_filter_violated].
176. `foff2logidx` assumes that later log datasets have larger addresses; a block in a log dataset followed by one with a lower address cannot be read in passthru mode [C89_order_violated].
177. If a log dataset cannot be opened, the cleanup of a passthru read closes uninitialised handles (dataseti.cpp L197-245) [C89_fail_violated].
178. In passthru mode blocks of three dimensions are read wrongly or not at all: after two writes a read of unwritten rows returns data of other rows and leaves written cells out [C89_block_violated].
179. H5Fmount is undefined through the connector: the connector below gets the connector's own structure for the file to be mounted, not the file below it (H5VL_log_group.cpp L226-260) [C79_mount_violated].
180. `H5VL_log_info_cmp` ignores the failure of H5VLcmp_connector_cls: information with an invalid identifier is reported equal to any other [C90_stale_violated].
181. Printing information with an invalid identifier, or of a stack with a value of eight digits anywhere, overruns the buffer (the value -1 has ten digits) [C90_text_violated].
182. doc/metadata_format.md gives the number of processes 4 bytes and leaves out the end offset of process 0; the connector writes 8 bytes and all end offsets, so that no file follows the document [C91_header_violated, C91_ends_violated]. (The document also gives the type as H5T_STD_U8LE, the code H5T_STD_B8LE.)
183. Entries of several blocks hold all starts and then all counts, not pairs of start and count as documented [C91_order_violated]; encoded blocks hold their length where the document has their end [C91_code_violated].
184. An entry of one block of a record has no `nsel`, which the document requires for all record entries [C91_record_violated].
185. **A failing h5lreplay destroys its output** (`C92_lost_violated`, `C92_incomplete_violated`). After `H5Fopen` of the input the code
     checks `faplid` instead of `finid` (h5lreplay.cpp L187-188) and creates the output with `H5F_ACC_TRUNC` next. `main` does not look at the
     result of its own check of the signature before calling `h5lreplay_core` (L82-85). A wrong input path therefore replaces an existing
     output file by an empty one.
186. **Files with a user block** (`C92_block_violated`, `C92_dump_block_violated`): both tools look for the signature at offset 0 only, do the work
     all the same, and report failure.
187. **h5ldump reports success without doing anything** when started with several processes, and for `-k` with a file that does not exist
     (`C92_several_violated`, `C92_missing_violated`).
188. **H5Dwrite_n with -1 block of a dataset with one dimension stores behind its allocation** (`C93_negative_violated`). `mbsize` is 28 + 8·(1·(-1)·2) = 12
     bytes (H5VL_logi_nb.cpp L86-98); `fsize` is stored at 20..27 (H5VL_log_dataseti.cpp L1012). The number of blocks is never checked.
189. H5Dwrite_n with a negative number of blocks of a scalar dataset succeeds and writes the entry of a write of the element, without data: readers
     take what follows in the log [C93_scalar_violated].
190. The number of words of a selection is an `int`: it overflows from 2^30 coordinates on [C93_overflow_violated].
191. Cancelling a combined request reports the status of its last part only [C94_status_violated]; without parts, `*status` is not set [C94_nothing_violated].
192. A combined request whose cancelling failed half-way can be neither cancelled nor released: further calls use the parts that are gone
     [C94_retry_violated].
193. The notification callback of a request without parts is never called, and its context is never freed [C94_silent_violated].
194. Selections are encoded as soon as several blocks are written together (the default): every block that spans the whole of a dimension other than the first is recorded with no cells, and the data of the blocks after it are looked for too early in the log [C04_rows_violated], so `H5Dwrite_n` of whole rows reports success and its data cannot be read [C17_write_n_violated], also not after closing and opening the file [C21_close_violated]; blocks of the same call after such a row read as the values written to other cells [C17_wrong_cell_violated]. What is read instead is known exactly [C95_write, C95_effect, C95_read_partial].
195. h5ldump aborts on such a file: the entry holds more bytes than its recorded blocks need; with `-H` it prints blocks without cells [C71_rows_violated].
196. Metadata read from a file is hardly checked: behind whole entries, the rest of a header [C96_short_violated], a dataset number that is not in the file [C96_number_violated] and a number of blocks for which there are no bytes [C96_blocks_violated] are accesses outside of the buffers, and an entry of a removed dataset with a size that is not positive lets the loop over the entries run forever or leave the buffer [C96_endless_violated]. A reference to a place where no entry is accesses the last of no blocks with the list index [C96_ref_violated]; the compact index accepts it, and every read of the dataset then follows a null pointer [C96_null_violated]. Every first read of the file is affected, whatever it reads [C96_reads] (with a limited metadata buffer every read [C96_parts]), and h5ldump -H [C96_dump]. Only a size that is not positive in an entry of a dataset that is there is refused [C96_size_partial]; this decides for metadata that was never written (zeros) [C96_zeros].
197. H5Oopen_by_idx counts the group of the log in the root group: it opens it at one index and behind it the object before the one asked for [C97_index_violated]; other groups are as in ordinary files [C97_index_partial]. H5Lget_name_by_idx, H5Oget_info_by_idx and H5Ldelete_by_idx are refused [C97_refused_violated]. The name of the group given with an index or to H5Gget_info_by_name is not mapped: a group whose name starts with an underscore is not found, and another name finds it [C97_group_violated]. H5Iget_name tells the name under which an object is stored, with the added underscore [C97_name_violated]. Tokens lead to the same objects as in ordinary files [C97_token_partial], that of the log to the log [C97_hidden_violated].
198. Attributes read when a file is opened are not checked: with other than four or five values in that of the file values are stored outside of an array or values that were not stored are used [C98_values_violated]; a dataset number outside of the table accesses it there [C98_id_violated], and so do more than 32 sizes or none [C98_sizes_violated]. A dataset that another application has added makes the whole file unusable [C98_foreign_violated]; one that it has copied is taken for the original [C98_twins_violated]. A wrong number of metadata datasets leaves data out or makes every read fail [C98_count_violated]. If the query for the attribute fails, the file is taken for an ordinary one, with the log visible and names not mapped [C98_query_violated]. Sound attributes give the right tables [C98_open], [C98_number].
199. The table of sections at the beginning of a metadata dataset is not checked against the dataset. Reads that load the metadata as a whole ignore the ends in it; reads that load it in parts take every end as it is: what lies behind the last one is silently lost [C99_behind_violated, C99_lost_violated], an end before the table makes the size of a part wrap around [C99_last_violated], an end inside an entry lets the entry be read beyond the buffer [C99_inside_violated], and a table without sections is refused although loading as a whole reads the entries behind it [C99_none_violated] (`src/H5VL_log_filei_meta.cpp` L378-401, L470-505).
200. The loops that decompress into a growing buffer take every outcome of `inflate` other than the end of the stream, errors included, for a buffer that is too small: for damaged or incomplete input the buffer is doubled until its size overflows, and without input the loop is endless [C100_damaged_violated] (`src/H5VL_logi_zip.cpp` L178-193, `src/H5VL_logi_filter_deflate.cpp` L166-182). Results of 2 GiB and more overflow too [C100_large_violated]. `H5VL_logi_filter_deflate` (L37-39) returns a part of the stream as success if all input was taken when the buffer was full [C100_cut_violated]. The connector does not call these functions at this commit.
201. The tools do not check the table of sections either: entries behind the last end are silently left out [C101_behind_violated], a table without sections is shown and replayed as nothing [C101_none_violated], an end inside an entry makes h5ldump read beyond its buffer [C101_inside_violated] while h5lreplay with one process ignores it [C101_replay] and with several does the same if a share ends there [C101_share_violated], and h5lreplay takes an end that is 4 GiB too large for the right one [C101_wrap_violated]; reads that load the metadata as a whole find everything in all these files [C101_lost_violated] (`utils/h5ldump/h5ldump_meta.cpp` L60-97, `utils/h5lreplay/h5lreplay_meta.cpp` L70-147).
202. Copies of selections: the copy constructor of `H5VL_log_selections` sets only `sels_arr` and then compares `ndim` and reallocates or writes to `dims`, which were never set [C102_copy_violated]; assigning a selection that owns its blocks to itself releases them and keeps the pointers [C102_self_violated]; a destination without dimension sizes and with at least the rank of the source is written through `NULL` [C102_null_violated]; a source without dimension sizes makes the destination lose its own [C102_leak_violated] (`src/H5VL_logi_dataspace.cpp` L160-163, L448-487). The connector does not call these functions today.
203. The number of sections is multiplied by 8 without sign and otherwise compared with sign. Loads of the whole metadata ignore its three highest bits [C103_bits_violated] and, with the number -1, take the table for entries [C103_minus_violated]; loads in parts and h5ldump read behind the table they allocated if bit 61 or 62 is set and the other bits tell a table that fits [C103_overrun_violated, C103_last_violated, C103_dump_violated]; h5ldump shows nothing and succeeds for negative numbers whose other bits tell a table that fits [C103_hidden_violated]; h5lreplay takes nothing and succeeds for negative numbers [C103_replay_none_violated], does not notice bits 61 and 62 with one process [C103_replay_bits_violated], and multiplies the number by the process number, which overflows [C103_replay_overflow_violated] (`src/H5VL_log_filei_meta.cpp` L387-389, L485-503, `utils/h5ldump/h5ldump_meta.cpp` L63-97, `utils/h5lreplay/h5lreplay_meta.cpp` L82-128).
204. hexDump (debugging only): without bytes it prints a buffer that was never set [C104_empty_violated]; a file that cannot be opened is passed to `fclose` as NULL [C104_file_violated]; the description goes to `stdout`, not to the file [C104_desc_violated] (`src/H5VL_logi_debug.cpp` L45, L56, L90).

## 5. Mutation tests

`seeded/LOG.jsonl` has one line per wrong program: the definition edited in a scratch copy, the edit, the claim it should break, the
declarations whose proofs failed first, the property theorems that depend on them, and what was tightened. Survivors are listed
with an explanation.

## 6. Trusted base

* The Lean 4.33 kernel. Axioms of the property theorems (`collectAxioms`): 
  * none: C30_single_partial, C42_refcount_violated, C43_collective_violated, C48_zero_violated, C52_below, C52_plain_violated, C57_align_violated, C63_first_partial, C63_finalize_violated, C66_open_violated, C66_swmr_violated, C71_dot_violated, C84_native, C94_nothing_violated
  * propext: C03_entry_datasize_violated, C22_failed, C23_read_violated, C24_alone_violated, C26_isolated_partial, C26_same_data, C27_failed_violated, C28_extent_violated, C28_scalar_violated, C30_ngroup_violated, C31_injective, C31_reported, C31_hidden, C32_notify_violated, C32_release_violated, C33_class_partial, C33_open_partial, C33_setter_violated, C33_encoding_violated, C33_documented_violated, C34_plain_violated, C35_entries_partial, C35_entries_violated, C38_block_violated, C49_visit_partial, C59_same_loc_violated, C61_prepare_partial, C62_leak_violated, C63_app_partial, C63_reload_violated, C63_late_violated, C71_names_partial, C71_kind_partial, C71_kind_violated, C72_file_violated, C72_context_violated, C72_unset_violated, C72_dangling_violated, C78_layout_violated, C78_plist_violated, C78_null_violated, C78_storage_violated, C82_unloaded_violated, C82_class, C82_caps_violated, C84_stack_violated, C85_refused, C86_name, C86_flush_violated, C86_objects, C86_ordinary_partial, C88_same, C88_compound_violated, C90_stale_violated, C91_entry_partial, C92_others, C92_incomplete_violated, C92_several_violated, C92_missing_violated, C96_dump, C98_query_violated, C99_lost_violated, C100_damaged_violated, C101_lost_violated, C103_runs_violated, C103_replay_runs_violated, C104_empty_violated, C104_file_violated
  * propext, Quot.sound: C02_readback_violated, C04_encoding_violated, C06_sharing_compact_violated, C06_sharing_list_violated, C06_sharing_compare_violated, C07_indexes_violated, C08_empty_violated, C09_flush_tiles, C09_flush_nothing, C11_offsets, C15_sortoffsets, C17_write_n_violated, C17_wrong_cell_violated, C20_crash_violated, C20_crash_lost, C21_close_violated, C22_budget_violated, C23_stored_partial, C23_unsupported_partial, C24_data_partial, C25_transparent, C25_succeeds, C25_never_compressed, C26_buffered_violated, C29_split_violated, C31_path_partial, C32_wait, C33_property_partial, C33_documented_partial, C35_sections_partial, C35_large_violated, C36_bounds, C37_lookup, C40_header_violated, C40_reader_violated, C41_registry_violated, C42_refcount_partial, C43_collective_partial, C43_single_partial, C45_unlink_violated, C51_filter_violated, C52_report_partial, C52_encoding_violated, C53_again, C54_underscore_violated, C56_write_partial, C56_config, C56_read_violated, C56_reopen_violated, C56_config_violated, C57_collide_violated, C57_bounds_violated, C58_write_partial, C58_write_violated, C59_visit_partial, C62_class_violated, C62_wait_violated, C62_exact_partial, C62_all_violated, C62_parts_partial, C62_now_violated, C62_create_violated, C62_lost_violated, C62_unpublished_violated, C62_foreign_violated, C63_retry_violated, C65_unchanged, C70_open_partial, C70_create_partial, C70_open_violated, C70_create_violated, C70_limit_violated, C70_stuck_violated, C70_align_violated, C70_post_create_violated, C70_abort_violated, C70_dset_open_partial, C70_dset_open_violated, C70_dset_open_ub_violated, C70_dset_open_leak_violated, C70_dset_create_partial, C70_start, C70_dxpl_violated, C70_post_open_violated, C71_text_partial, C71_decimal_partial, C71_half_violated, C71_hex_violated, C71_foreign_violated, C71_bytes, C72_unwrap, C72_null_violated, C72_context, C73_write_fails_violated, C73_queue_violated, C73_merge_violated, C73_independent_violated, C73_safe_violated, C73_once, C74_same, C74_data_lost, C76_idle, C77_indexable, C78_scalar_violated, C79_move_violated, C84_stack_partial, C87_again_violated, C87_twice_violated, C88_silent_violated, C89_order_violated, C90_equal, C90_swap, C90_copy, C91_meaning, C92_lost_violated, C92_block_violated, C92_dump, C92_dump_block_violated, C93_negative_violated, C93_scalar_violated, C93_overflow_violated, C94_status_violated, C94_retry_violated, C94_silent_violated, C96_reads, C96_parts, C96_anywhere, C97_name_violated, C98_absent, C98_values_violated, C98_count_violated, C99_whole, C100_into, C100_large_violated, C100_cut_violated, C102_equal, C102_destroy, C102_assign_partial, C102_lifetimes_partial, C102_deep, C102_programs_partial, C102_copy_violated, C102_self_violated, C102_null_violated, C102_leak_violated, C103_refused, C103_negative, C103_reads, C103_bits_violated, C103_minus_violated, C103_hidden_violated, C103_dump_violated, C103_replay_none_violated, C103_replay_bits_violated, C103_replay_overflow_violated, C104_lines, C104_desc_violated
  * propext, Classical.choice, Quot.sound: C01_readback_partial, C01_readback_block, C01_readback_ifok, C01_addresses_violated, C02_readback_partial, C02_repeated_partial, C02_repeated_ifok, C03_entry_roundtrip, C03_entry_datasize_partial, C04_code_roundtrip_iff, C04_encoding_partial, C04_encoding_exact, C04_rows_violated, C05_parse_list, C05_parse_compact, C06_sharing_list_partial, C06_sharing_compact_partial, C07_indexes_partial, C08_pieces_partial, C08_maximal, C08_matches_partial, C09_disjoint, C10_placed_once, C10_flush_again, C10_metaflush_once, C11_section_map, C12_intersect_exact, C13_blocks_partial, C13_ordered_partial, C13_points_partial, C14_exact_partial, C13_blocks_violated, C13_plane_violated, C13_regular_violated, C14_hyperslab_partial, C14_ordered_partial, C14_line_partial, C14_cube_partial, C14_regular_partial, C14_strided_partial, C14_plane_partial, C14_points_partial, C14_all_partial, C14_hyperslab_violated, C14_points_violated, C16_together_partial, C16_repeated_partial, C16_nested_violated, C16_crossing_violated, C16_newest_violated, C16_equal_violated, C16_scalar_violated, C17_write_n_partial, C17_later_block_wins, C18_records_partial, C19_independent_partial, C19_independent_violated, C20_life_partial, C20_closed_partial, C21_close_partial, C22_budget_partial, C22_limit_partial, C22_release, C23_unfilter_violated, C23_overrun_violated, C24_single_partial, C24_append_violated, C24_encode_violated, C24_deflate_violated, C27_failed_partial, C28_success_partial, C28_failure_partial, C29_groups, C29_split_partial, C30_opens, C30_read_violated, C31_internal_partial, C31_path_violated, C31_unmapped_violated, C31_attribute_violated, C32_notify_once, C32_notify_progress, C32_notify_partial, C33_create_partial, C33_layout_violated, C33_single_violated, C33_single_never, C33_open_violated, C33_word, C34_increasing_partial, C34_decreasing_partial, C34_iterate_partial, C34_open_violated, C34_name_violated, C34_root_violated, C34_start_violated, C35_terminates, C35_lost_violated, C38_select_partial, C38_select_violated, C38_block_partial, C39_unique_partial, C39_stable_partial, C39_crash_violated, C39_crash_same, C39_failed_violated, C40_swap_involution, C40_buffer_involution, C40_selection_file, C40_header_partial, C41_registry_partial, C44_view_partial, C44_line_partial, C44_view_violated, C45_unlink_partial, C46_roundtrip_partial, C46_buffer_violated, C46_text_violated, C46_negative_violated, C47_gather_partial, C47_scatter_partial, C47_roundtrip_partial, C47_convert_violated, C47_size_violated, C47_larger, C48_pool_partial, C49_visit_violated, C50_write_partial, C50_read_partial, C50_shared_partial, C50_reopen_partial, C50_lost_violated, C51_single_partial, C51_replay_partial, C51_order_violated, C51_lost_violated, C51_race_violated, C51_removed_violated, C51_shrunk_violated, C52_off_violated, C53_processes, C53_prepare, C54_copy_partial, C54_names_violated, C55_subfiles, C55_paths, C55_replay_partial, C55_order_violated, C56_path_violated, C57_place_partial, C57_streams_partial, C57_neighbours, C57_place_violated, C57_meta_violated, C57_merged_violated, C57_streams_violated, C57_create_violated, C57_aligned_partial, C57_room_partial, C59_same_partial, C59_log_safe_partial, C59_count_violated, C59_inner_violated, C59_delete_log_violated, C59_link_violated, C59_order, C60_info_partial, C60_self_partial, C60_by_name_violated, C60_root_violated, C60_plain_violated, C60_visit_violated, C61_order, C61_flush_partial, C61_close_partial, C61_close_one, C61_close_state, C61_read_partial, C61_run_partial, C61_close_violated, C61_alone_violated, C61_view_violated, C64_write_partial, C64_error_violated, C64_read_partial, C64_count_violated, C66_read_partial, C66_write_violated, C67_one_partial, C67_flush_partial, C67_collective_violated, C68_write, C68_write_none, C68_read, C68_flush, C68_reopen, C69_same, C70_session_partial, C70_session_violated, C70_retry_violated, C70_dset_create_violated, C71_dump_partial, C71_share_violated, C71_removed_violated, C71_string_violated, C71_behind_violated, C71_rows_violated, C72_refs_partial, C72_dset_violated, C73_safe_partial, C73_owned, C73_bill_partial, C73_clean_partial, C73_writes, C73_update_violated, C73_parts_violated, C73_empty_violated, C74_readback_partial, C74_close_partial, C74_data_violated, C74_meta_lost, C74_meta_violated, C75_same, C75_absent_partial, C75_write, C75_readback_partial, C75_close_partial, C75_defined, C75_retry_violated, C75_mixup_violated, C75_other_violated, C76_flush_partial, C76_queue, C76_close_violated, C76_twice_violated, C77_compact, C77_list, C77_reopen_compact, C77_reopen_list, C78_answers_partial, C78_filters_violated, C78_filters_gone, C78_data_violated, C78_extent_violated, C79_same_partial, C79_index_violated, C79_decreasing_violated, C79_order_violated, C79_arguments_violated, C79_strings_violated, C79_oopen_violated, C79_close_violated, C79_lost_violated, C79_count_violated, C79_mount_violated, C80_calls, C80_flush_partial, C80_freed_violated, C80_changed_violated, C81_readback_partial, C81_accepted_violated, C81_outside_violated, C81_shrink_violated, C81_alias_violated, C82_log, C82_other_partial, C82_query_violated, C82_passed, C82_load, C83_flush_partial, C83_call, C83_queue, C83_wide_violated, C84_files_partial, C84_excl, C84_delete_violated, C84_leak_violated, C85_flat_partial, C85_pointers_violated, C86_file_partial, C86_object_violated, C87_balance_partial, C87_free_partial, C87_inuse_partial, C87_over_partial, C87_log_violated, C88_write_partial, C88_read_partial, C88_back_partial, C88_members_violated, C89_same, C89_flush, C89_close, C89_readback_partial, C89_agree, C89_big_violated, C89_filter_violated, C89_fail_violated, C89_block_violated, C90_trans, C90_text_partial, C90_text_violated, C90_foreign_partial, C91_written, C91_readable, C91_recover, C91_header_violated, C91_ends_violated, C91_order_violated, C91_record_violated, C91_code_violated, C92_replay, C93_record, C93_reference, C93_negative, C94_cancel, C94_free, C94_once, C95_write, C95_effect, C95_read_partial, C95_history, C95_readback_partial, C96_short_violated, C96_number_violated, C96_endless_violated, C96_size_partial, C96_blocks_violated, C96_zeros, C96_written, C96_ref_violated, C96_null_violated, C97_token_partial, C97_reached, C97_hidden_violated, C97_index_partial, C97_index_violated, C97_refused_violated, C97_group_violated, C98_open, C98_number, C98_twins_violated, C98_id_violated, C98_foreign_violated, C98_sizes_violated, C99_inner, C99_behind_violated, C99_last_violated, C99_none_violated, C99_inside_violated, C100_exact, C100_compress_partial, C100_decompress_partial, C100_roundtrip_partial, C101_shown, C101_refused, C101_replay, C101_processes, C101_together, C101_share_violated, C101_none_violated, C101_behind_violated, C101_inside_violated, C101_wrap_violated, C103_usual, C103_reads_usual, C103_overrun_violated, C103_last_violated, C103_replay_usual, C104_format, C104_faithful
* The reading of the C++ code recorded in the citations.
* Assumed, not modelled: MPI (collectives deliver correct values, typemap semantics), HDF5 under-VOL
  (datasets store bytes, fresh disjoint addresses, contracts of property lists and attributes; the memory dataspace `H5S_ALL` takes the selection of the file), host is little-endian unless
  stated (C40), zlib (abstract compressor), `malloc` (results are parameters in C22, C48; elsewhere it succeeds).
* `FlushFail`: a failure is met by all processes at the same place (if one process meets it alone, the others wait in the next collective call); a failure to close the metadata dataset after it has been written is the case `late` with the full contents, whose repetition writes all entries again (not examined).
* `WriteFail`: what a failed write leaves is modelled (the table of selections); the memory it loses and its share of the buffer limit are not.
* `Held`: memory is available; a failing close releases nothing; what `H5VL_logi_filter` and constructors lose inside themselves, buffers of filtered blocks, passthru reads, aligned flushes and subfiles are left out; a released identifier is not given out again.
* `Dset`: calls into the library below succeed; names have one component; of a property list layout, filters and fill value are modelled; the native VOL keeps filters only for chunked layout and shares the property list of an open dataset among its handles.
* `Plain`: the connector below is any function from its state and a call to its new state and an answer; a handle has the number of the object below, and a call is a constructor with the handles, locations and names, all other arguments being one number; locations by token, references, requests (C62), files and wrap contexts (C72) and property lists (C52) are left out; one file.
* `Spec/Bounds` takes it that HDF5 hands the file dataspace to the connector without comparing it with the dataset (the native connector does that itself).
* C82: the library numbers registered operations from 1024 on and uses no number twice; what an operation of another connector does is arbitrary. The transfers of H5Dwrite_n and H5Dread_n are parameters (C17, C80).
* C83: a conversion is a function on single elements from the size of one type to that of the other (no background buffer, no failure); the address of the internal buffer is a parameter; its room is that of the larger type (src/H5VL_log_dataseti.cpp L1098-1104). The result of MPI_Unpack with too small a size is an error, as for C47.
* C84: files are closed between the calls; directories are not modelled (creating `NAME.subfiles` succeeds); the native connector deletes and finds HDF5 files only and creates files as the flags say; other connectors replace the property list of the arguments, as the pass-through connector of HDF5 does.
* Datatypes (`Types`): compounds and arrays are chains of pairs; references are not modelled; memory and dataset types are equal here (other pairs: `Convert`).
* Type conversion (`Convert`, C88): H5Tconvert is any function between number types that gives results of the right size, and between compounds works by member name, taking members that are not in the source from the background; nested compounds, arrays and padding inside compounds are left out.
* References to connectors (`Conn`, C87): identifiers are never given out twice; the information of other connectors holds no references; registration and memory allocation do not fail; text that names a connector which is not registered is not modelled.
* Passthru mode (`Passthru`, C89): calls of the connector below that should succeed do (except opening log datasets, C89_fail_violated); what it stores for byte `i` of a dataset is what MPI-IO finds at the address of the dataset plus `i`; memory type equal to the dataset type; no subfiling, no alignment.
* Connector information (`Stack`, C90): a class of connectors is named by its value; comparison and text of the information of other connectors are parameters; the depth of the text bounds its reading.
* Format (`Format`, C91): the document leaves open whether `nsel` precedes encoded lists (both readings are allowed) and whether ends are included (taken as start plus length); little-endian hosts.
* Main functions of the tools (C92): a path names a file (no links); the text of the messages is abstract. Whether `H5Fcreate` refuses to
  truncate a file that the same process has open is a parameter (`refuses`): HDF5 is not in the repository and its file drivers were not
  checked. `C92_replay` assumes it only for calls with the same path twice.
* Memory of requests (`WMem`, C93): `malloc` succeeds up to a limit; `hdr->meta_size` is the size of the memory when `resize` compares them; merged requests and compressed selections are left out (`Merged`, `Zip`).
* Cancelling requests (`ReqMore`, C94): a part is released by the call that cancels or frees it, if that succeeds (taken from the comments in the code).
* Histories (`Spec.Reach`) with encoded selections take writes of several blocks whose counts the encoding can express (`Spec.Expressible`), with data for at least these blocks. Any other write of several blocks inside the extent is, by C95_write, such a write of its recorded blocks.
* Damaged metadata: the coordinates of decoded entries are natural numbers in the model, so of arbitrary metadata only the parsing is described, not the search in what has been parsed; the header of an entry is read as a whole, also for removed datasets, where the code reads only two of its fields; damaged tables of sections are not covered.
* Lookup: an object can be opened by its token while a link leads to it or a handle refers to it; the name of an open object is that of the path with which it was opened from the file.
* Atts: attributes have one dimension and convert to numbers; the property lists of the datasets can be read; files with subfiles are only opened or not.
* Section tables: the number of sections is a natural number and products with it do not wrap around; theorems of C99 assume that the table lies inside the dataset (or that it has no sections), so numbers of 2^60 and more are left out there. `SecCount` (C103) has them as words of 64 bits, for the two kinds of loads and h5ldump, and `SecCountReplay` for h5lreplay.
* h5lreplay reads single words of the table of sections, the model (`Ext.ends`) all of it: for tables that are longer than the dataset the model refuses where a process of several may go on. C101_replay is stated for tables that fit; `SecCountReplay` (C103) has the single words and numbers of sections for which the sizes computed from them wrap around.
* `HexDump`: what is printed is a list of characters; output does not fail, and `size_t` and the width of `%lx` are not limited.
* Not modelled: the values of number conversions (an arbitrary function), variable-length data, Windows paths, MPI error
  handling, timing of the progress engine, 64-bit wrap-around of coordinates.
