{"claims": [
 {"property": "C01", "status": "proved", "theorems": ["Fitsrs.C01_walk"], "note": ""},
 {"property": "C02", "status": "proved", "theorems": ["Fitsrs.C02_independent", "Fitsrs.C02_no_panic"], "note": "For announced data sizes below 2^63 (SizesFit); see C55 for what happens beyond."},
 {"property": "C03", "status": "proved", "theorems": ["Fitsrs.C03_error_is_final"], "note": ""},
 {"property": "C04", "status": "proved", "theorems": ["Fitsrs.C04_none_iff", "Fitsrs.C04_eof_iff"], "note": ""},
 {"property": "C05", "status": "partial", "theorems": ["Fitsrs.C05_release", "Fitsrs.C05_debug_partial", "Fitsrs.C05_debug_fails"], "note": "False in builds with overflow checks (counterexample proved)."},
 {"property": "C06", "status": "proved", "theorems": ["Fitsrs.C06_alignment", "Fitsrs.C06_disjoint"], "note": ""},
 {"property": "C07", "status": "proved", "theorems": ["Fitsrs.C07_primary_accepted", "Fitsrs.C07_extension_accepted", "Fitsrs.C07_primary_rejected", "Fitsrs.C07_extension_rejected", "Fitsrs.C07_records"], "note": ""},
 {"property": "C08", "status": "proved", "theorems": ["Fitsrs.C08_every_record_kept"], "note": ""},
 {"property": "C09", "status": "partial", "theorems": ["Fitsrs.C09_fails", "Fitsrs.C09_panic_iff", "Fitsrs.C09_partial"], "note": "False: a value field with a lone quote panics (counterexample and exact set of panicking records proved)."},
 {"property": "C10", "status": "proved", "theorems": ["Fitsrs.C10_string_round_trip"], "note": ""},
 {"property": "C11", "status": "proved", "theorems": ["Fitsrs.C11_integer_read", "Fitsrs.C11_round_trip", "Fitsrs.C11_sound"], "note": ""},
 {"property": "C12", "status": "proved", "theorems": ["Fitsrs.C12_real_read", "Fitsrs.C12_D_like_E", "Fitsrs.C12_sound"], "note": ""},
 {"property": "C13", "status": "proved", "theorems": ["Fitsrs.C13_logical", "Fitsrs.C13_undefined"], "note": ""},
 {"property": "C14", "status": "proved", "theorems": ["Fitsrs.C14_commentary", "Fitsrs.C14_blank_keyword", "Fitsrs.C14_space"], "note": ""},
 {"property": "C15", "status": "proved", "theorems": ["Fitsrs.C15_hierarch", "Fitsrs.C15_hierarch_string", "Fitsrs.C15_errors"], "note": ""},
 {"property": "C16", "status": "proved", "theorems": ["Fitsrs.C16_no_panic", "Fitsrs.C16_comment", "Fitsrs.C16_value", "Fitsrs.C16_error"], "note": ""},
 {"property": "C17", "status": "proved", "theorems": ["Fitsrs.C17_lookup", "Fitsrs.C17_keywords"], "note": ""},
 {"property": "C18", "status": "proved", "theorems": ["Fitsrs.C18_long_string"], "note": ""},
 {"property": "C19", "status": "proved", "theorems": ["Fitsrs.C19_total", "Fitsrs.C19_orphan"], "note": ""},
 {"property": "C20", "status": "partial", "theorems": ["Fitsrs.C20_exact", "Fitsrs.C20_fails", "Fitsrs.C20_partial"], "note": "False: a blank between slash and bracket hides the unit (counterexample and exact behaviour proved)."},
 {"property": "C21", "status": "proved", "theorems": ["Fitsrs.C21_integers", "Fitsrs.C21_bitpix", "Fitsrs.C21_option", "Fitsrs.C21_others", "Fitsrs.C21_no_panic", "Fitsrs.C21_from_record", "Fitsrs.C21_real"], "note": ""},
 {"property": "C22", "status": "proved", "theorems": ["Fitsrs.C22_accepted", "Fitsrs.C22_size", "Fitsrs.C22_size_nonempty", "Fitsrs.C22_size_release", "Fitsrs.C22_empty_axis_panics"], "note": "An empty axis after large ones overflows the product: panic in checked builds (C22_empty_axis_panics); C22_size asks that the products of leading axes fit."},
 {"property": "C23", "status": "proved", "theorems": ["Fitsrs.C23_ascii_accepted", "Fitsrs.C23_ascii_size", "Fitsrs.C23_bintable_accepted", "Fitsrs.C23_bintable_size"], "note": ""},
 {"property": "C24", "status": "partial", "theorems": ["Fitsrs.C24_exact", "Fitsrs.C24_partial", "Fitsrs.C24_fails"], "note": "False for bit columns that do not fill whole bytes (counterexample proved); true otherwise; the exact condition is C24_exact."},
 {"property": "C25", "status": "proved", "theorems": ["Fitsrs.C25_ascii_exact", "Fitsrs.C25_plain", "Fitsrs.C25_array", "Fitsrs.C25_only", "Fitsrs.C25_ascii"], "note": "Counts of 2^64 or more are read as 1. C25_only and C25_ascii_exact: nothing else is read as a format."},
 {"property": "C26", "status": "partial", "theorems": ["Fitsrs.C26_image", "Fitsrs.C26_ascii", "Fitsrs.C26_bintable", "Fitsrs.C26_partial", "Fitsrs.C26_fails"], "note": "False: huge TFIELDS or ZNAXIS panic in all builds, overflowing sizes in checked builds; exact conditions proved."},
 {"property": "C27", "status": "proved", "theorems": ["Fitsrs.C27_recognised", "Fitsrs.C27_blocksize"], "note": ""},
 {"property": "C28", "status": "partial", "theorems": ["Fitsrs.C28_never", "Fitsrs.C28_partial", "Fitsrs.C28_fails"], "note": "False: no quantization method is ever recorded (C28_never)."},
 {"property": "C29", "status": "proved", "theorems": ["Fitsrs.C29_pixels", "Fitsrs.C29_position", "Fitsrs.C29_bytes", "Fitsrs.C29_image"], "note": ""},
 {"property": "C30", "status": "proved", "theorems": ["Fitsrs.C30_random_access", "Fitsrs.C30_value"], "note": ""},
 {"property": "C31", "status": "partial", "theorems": ["Fitsrs.C31_partial", "Fitsrs.C31_iterate", "Fitsrs.C31_fails", "Fitsrs.C31_shift", "Fitsrs.C31_shift_whole"], "note": "False for read_value after an operation that met the end of the file (witness C31_fails); iteration and all operations up to the first missing pixel proved. C31_shift states exactly which bytes are returned after the end has been met."},
 {"property": "C32", "status": "proved", "theorems": ["Fitsrs.C32_image", "Fitsrs.C32_table"], "note": ""},
 {"property": "C33", "status": "partial", "theorems": ["Fitsrs.C33_scan_partial", "Fitsrs.C33_partial", "Fitsrs.C33_truncated_partial", "Fitsrs.C33_fails", "Fitsrs.C33_exact_zero", "Fitsrs.C33_exact_plain"], "note": "False for bit columns whose repeat count is a multiple of 8 and for repeat counts 0 (witness C33_fails); proved otherwise, also for truncated files. C33_exact_zero and C33_exact_plain state exactly what is given for a column of repeat count 0 and for any table of plain values."},
 {"property": "C34", "status": "partial", "theorems": ["Fitsrs.C34_partial", "Fitsrs.C34_projection_partial", "Fitsrs.C34_fails", "Fitsrs.C34_empty", "Fitsrs.C34_exact"], "note": "False for empty selections and for columns selected twice (witness C34_fails); proved otherwise for tables with rows; what any selection of plain columns gives, repetitions included, is C34_exact."},
 {"property": "C35", "status": "partial", "theorems": ["Fitsrs.C35_exact_select", "Fitsrs.C35_partial", "Fitsrs.C35_plain_partial", "Fitsrs.C35_select_partial", "Fitsrs.C35_fails", "Fitsrs.C35_fails_array"], "note": "False when a row is sought after a selection and before any value is read (C35_fails; what is then read is C35_exact_select), and inside a variable-length array (C35_fails_array); proved otherwise, arrays included."},
 {"property": "C36", "status": "partial", "theorems": ["Fitsrs.C36_partial", "Fitsrs.C36_fails", "Fitsrs.C36_after_seek", "Fitsrs.C36_exact", "Fitsrs.C36_seek"], "note": "False for the tables of C33 and after a seek (C36_fails, C36_after_seek); proved otherwise. C36_exact states the rows given after any calls of next and seek_to_row."},
 {"property": "C37", "status": "partial", "theorems": ["Fitsrs.C37_partial", "Fitsrs.C37_fails", "Fitsrs.C37_fails_release", "Fitsrs.C37_exact_outside", "Fitsrs.C37_exact_release", "Fitsrs.C37_exact_checked"], "note": "False for empty arrays (witness C37_fails); proved otherwise. C37_exact_checked, C37_exact_release and C37_exact_outside state exactly what is given at the first array that is empty or not wholly in the file."},
 {"property": "C38", "status": "partial", "theorems": ["Fitsrs.C38_fails_bits", "Fitsrs.C38_partial", "Fitsrs.C38_fails", "Fitsrs.C38_fails_columns"], "note": "False (witnesses C38_fails in every build, C38_fails_columns, C38_fails_bits); true under the conditions of C33 and C37; C37_exact_checked and C33_exact_plain state exactly when empty arrays and bit columns make it panic."},
 {"property": "C39", "status": "partial", "theorems": ["Fitsrs.C39_exact", "Fitsrs.C39_iff", "Fitsrs.C39_partial", "Fitsrs.C39_fails"], "note": "False: every byte other than 0 is read as true (witness C39_fails). C39_exact: the value given for every byte; C39_iff: the cells for which the claim holds."},
 {"property": "C40", "status": "partial", "theorems": ["Fitsrs.C40_release", "Fitsrs.C40_partial", "Fitsrs.C40_fails", "Fitsrs.C40_encodable", "Fitsrs.C40_exact"], "note": "Proved in release builds; false in checked builds (witness C40_fails). C40_exact: in checked builds the pixels are given back when consecutive ones differ by an i32, and otherwise the decoder panics."},
 {"property": "C41", "status": "partial", "theorems": ["Fitsrs.C41_release", "Fitsrs.C41_fails", "Fitsrs.C41_exact"], "note": "Proved in release builds; false in checked builds, where the sum of a pixel and a difference may overflow (witness C41_fails). C41_exact: on any bytes (less than 2^28 of them), a checked build gives the same pixels as a release build when they differ from one another by an i32, and panics otherwise."},
 {"property": "C42", "status": "partial", "theorems": ["Fitsrs.C42_partial", "Fitsrs.C42_fails", "Fitsrs.C42_prefix_partial"], "note": "False (witness C42_fails): the state is not saved within a block; proved when all reads but the last are of whole blocks. C42_prefix_partial: without reading the whole tile, the pixels are right up to and including the first read that ends inside a block."},
 {"property": "C43", "status": "partial", "theorems": ["Fitsrs.C43_partial", "Fitsrs.C43_fails", "Fitsrs.C43_exact_bytes"], "note": "C43_partial: tiles of 16- and 32-bit integers and floats, for every table, history of calls up to the first None, and gzip decoder, whatever it leaves where it fails. C43_fails: 8-bit GZIP_2 tiles are not put back in order; C43_exact_bytes: they are read as GZIP_1 tiles."},
 {"property": "C44", "status": "partial", "theorems": ["Fitsrs.C44_exact", "Fitsrs.C44_partial", "Fitsrs.C44_count", "Fitsrs.C44_fails"], "note": "Partial: proved for images whose tiles are all whole and whose table has one value in each column that comes before a column used (GZIP_1, GZIP_2 except 8-bit pixels, RICE; in checked builds RICE of smooth pixels), ints and undithered floats. False in general: a tile cut at the edge of the image gives as many pixels as a whole one (C44_fails). C44_exact: with cut tiles, the pixels of each tile are given in order, each tile completed to the size of a whole one, up to the first cut tile that is refused (any cut one with GZIP). C44_count: the tiles of the format have as many pixels as the image."},
 {"property": "C45", "status": "partial", "theorems": ["Fitsrs.C45_partial", "Fitsrs.C45_fails", "Fitsrs.C45_panics", "Fitsrs.C45_exact"], "note": "Partial: proved for tables with one value in each column that comes before a column used. False in general: row values are looked up by column index, so a column with several values before the compressed data makes the read panic (C45_fails). C45_exact, C45_panics: when only plain values come before the compressed data, the first call panics as soon as one of their columns has several values; otherwise every tile is read where it is."},
 {"property": "C46", "status": "proved", "theorems": ["Fitsrs.C46_seeds", "Fitsrs.C46_final", "Fitsrs.C46_rounded", "Fitsrs.C46_values", "Fitsrs.C46_lookup", "Fitsrs.C46_in_bounds"], "note": "Seeds computed with rounded double divisions are proved equal to the Park-Miller sequence; every state reachable from any table and any calls is within bounds."},
 {"property": "C47", "status": "proved", "theorems": ["Fitsrs.C47_skip"], "note": "For every reader, buffers and delays, n; the future is polled until ready."},
 {"property": "C48", "status": "proved", "theorems": ["Fitsrs.C48_agree", "Fitsrs.C48_wellformed", "Fitsrs.C48_exact"], "note": "C48_agree: any file whose data units are complete (errors and panics correspond too); C48_wellformed: equality with the iterator on well-formed files. C48_exact: where a data unit is cut or 1-79 bytes follow the last block (D21), the iterator ends and the stream reports an error after the same HDUs."},
 {"property": "C49", "status": "partial", "theorems": ["Fitsrs.C49_partial", "Fitsrs.C49_bytes_partial", "Fitsrs.C49_ready_partial", "Fitsrs.C49_fails", "Fitsrs.C49_kept", "Fitsrs.C49_short", "Fitsrs.C49_exact"], "note": "False for delays inside a pixel (C49_fails: futures dropped when pending, D20). Exact for every schedule: C49_kept and C49_short give all items returned, C49_exact the schedules for which the claim holds. Proved for delays between pixels, any schedule for bytes, and always-ready sources."},
 {"property": "C50", "status": "partial", "theorems": ["Fitsrs.C50_partial", "Fitsrs.C50_fails", "Fitsrs.C50_pending", "Fitsrs.C50_lost", "Fitsrs.C50_first", "Fitsrs.C50_cut", "Fitsrs.C50_next"], "note": "False for delays inside headers and data units (C50_fails, D20). Proved for delays at the start of the file and at the starts of data units. Exact elsewhere: C50_first and C50_next say that any other delay makes the call pending, C50_pending and C50_lost that all that was delivered before it is then lost."},
 {"property": "C51", "status": "partial", "theorems": ["Fitsrs.C51_sync_async_partial", "Fitsrs.C51_partial", "Fitsrs.C51_fails", "Fitsrs.C51_exact"], "note": "False: the keyword of the first card is not compared (C51_fails, D19). Proved: sync acceptance implies async acceptance with the same header; and exactly (C51_exact): the stream accepts the files with a true logical value in the first record, under any keyword, that the iterator accepts once that keyword is SIMPLE."},
 {"property": "C52", "status": "proved", "theorems": ["Fitsrs.C52_rgb", "Fitsrs.C52_luma", "Fitsrs.C52_splat", "Fitsrs.C52_image", "Fitsrs.C52_samples"], "note": "Floating-point conversions (scaled values, 32- and 64-bit integers, doubles) are parameters; the layout is proved for all of them. Fewer values than announced leave the rest of the buffer unchanged."},
 {"property": "C53", "status": "proved", "theorems": ["Fitsrs.C53_accepted", "Fitsrs.C53_shapes"], "note": "The total is the saturating product computed by the image crate."},
 {"property": "C54", "status": "partial", "theorems": ["Fitsrs.C54_partial", "Fitsrs.C54_fails", "Fitsrs.C54_exact"], "note": "False once something has been read (witness C54_fails); C54_exact states which pixels a second get_data gives after any operations."},
 {"property": "C55", "status": "partial", "theorems": ["Fitsrs.C55_partial", "Fitsrs.C55_exact", "Fitsrs.C55_fails"], "note": "False (witness C55_fails): an announced size of 2^63 or more is cast to a negative offset; true under SizesFit. C55_exact: for every announced size and position of the reader in the data unit, where the next header is looked for, or that an error is returned, or that a checked build panics."},
 {"property": "C56", "status": "partial", "theorems": ["Fitsrs.C56_partial", "Fitsrs.C56_fails", "Fitsrs.C56_exact"], "note": "False for HDUs returned earlier (witness C56_fails); true for the last HDU returned. C56_exact states which pixels are given for any HDU."},
 {"property": "C57", "status": "proved", "theorems": ["Fitsrs.C57_taking"], "note": "Any number of values taken from each HDU; source always ready, however it cuts the file."},
 {"property": "C58", "status": "proved", "theorems": ["Fitsrs.C58_first_image"], "note": "For well-formed files (FileOf)."},
 {"property": "C59", "status": "partial", "theorems": ["Fitsrs.C59_exact", "Fitsrs.C59_partial", "Fitsrs.C59_order", "Fitsrs.C59_fails"], "note": "C59_statement fails (C59_fails): the decoder copies the pixels in the order of the tiles, so an image of 2 x 2 pixels with one tile per column is shown transposed. C59_exact states what is shown for tiles of any shape: sample i is that of the pixel that comes at that place in the order of the tiles (Spec.tileOrder). C59_order: that order is a permutation of the pixels, and the order of the image exactly when the tiles are runs of it (Spec.InOrder). C59_partial: the claim for such tiles. With the restrictions of C44_partial. Floating-point operations are parameters."},
 {"property": "C60", "status": "proved", "theorems": ["Fitsrs.C60_program", "Fitsrs.C60_hdus", "Fitsrs.C60_async", "Fitsrs.C60_values", "Fitsrs.C60_decoder"], "note": "For every sequence of calls of a session on a file in memory; asynchronous streams and decoder in separate theorems."},
 {"property": "C61", "status": "partial", "theorems": ["Fitsrs.C61_ready_partial", "Fitsrs.C61_once_partial", "Fitsrs.C61_fails", "Fitsrs.C61_exact", "Fitsrs.C61_checked", "Fitsrs.C61_first", "Fitsrs.C61_release", "Fitsrs.C61_fails_release", "Fitsrs.C61_tiles_partial"], "note": "C61_statement fails (C61_fails): after a data unit has been read to its end, opened again and read, the next HDU cannot be asked for in a build with overflow checks. It fails in release builds too (C61_fails_release), after a damaged 64-bit descriptor. C61_checked and C61_exact say what every program sees: the HDUs of the file, or a panic of the iterator in builds with overflow checks after the HDUs of the file (sizes that fit in 63 bits). C61_release: in release builds the claim for every program, on files without 64-bit descriptors, compressed images included (whatever their decompressors do), as long as the calls cannot move the reader by more than 4 EB. C61_ready_partial: the claim for every program that leaves the reader within the last data unit when it asks for an HDU (anywhere below 2^63 without overflow checks). C61_once_partial: no assumption on positions, for programs that open each data unit at most once and do not select columns nor call bytes, on files whose data units are complete; C61_tiles_partial: the same with compressed images that C44 covers."},
 {"property": "C62", "status": "partial", "theorems": ["Fitsrs.C62_ascii", "Fitsrs.C62_partial", "Fitsrs.C62_fails", "Fitsrs.C62_exact"], "note": "C62_ascii is complete. For binary tables C62_statement fails (C62_fails): bytes starts where the reader stands. C62_exact states what bytes gives after any calls of next and seek_to_row: the bytes from the next value on, as many as the main table has, as far as they are in the file. C62_partial: nothing read before."},
 {"property": "C63", "status": "partial", "theorems": ["Fitsrs.C63_partial", "Fitsrs.C63_exact", "Fitsrs.C63_iff", "Fitsrs.C63_plain", "Fitsrs.C63_checked", "Fitsrs.C63_fails"], "note": "C63_statement fails (C63_fails): only the first member is read. C63_exact: whatever follows the first member, the file opens as its content; C63_iff: it opens as the file that was compressed exactly if the other members are empty. C63_partial: one member, all optional fields; decompression is a parameter assumed to invert compression. C63_plain and C63_checked: plain and damaged files, complete."},
 {"property": "C64", "status": "partial", "theorems": ["Fitsrs.C64_history_partial", "Fitsrs.C64_partial", "Fitsrs.C64_fails", "Fitsrs.C64_exact", "Fitsrs.C64_iff"], "note": "C64_statement fails (C64_fails): on a crafted file of 36736 bytes the iterator goes round for ever in all builds. C64_partial, C64_history_partial: files of less than 2^63 bytes whose HDUs announce sizes that fit in 64 bits. C64_exact, C64_iff: for every file of n bytes and without conditions, one of the first n+2 calls returns no HDU, or every call returns one and they come round with a fixed period; the first is the case if and only if no HDU is returned twice."},
 {"property": "C65", "status": "partial", "theorems": ["Fitsrs.C65_fields", "Fitsrs.C65_parsed", "Fitsrs.C65_partial", "Fitsrs.C65_get_parsed", "Fitsrs.C65_scale", "Fitsrs.C65_fails"], "note": "C65_statement fails (C65_fails): a blank value of a field with #[serde(default)] (BZERO of the image decoder) is an error. C65_fields: exact behaviour, complete; C65_partial: the statement for structs without defaulted fields."},
 {"property": "C66", "status": "partial", "theorems": ["Fitsrs.C66_exact", "Fitsrs.C66_find", "Fitsrs.C66_ascii_exact", "Fitsrs.C66_columns", "Fitsrs.C66_partial", "Fitsrs.C66_fails", "Fitsrs.C66_ascii"], "note": "C66_statement fails (C66_fails): columns with an unknown TFORM are dropped and the following ones renumbered. C66_exact: the columns of the table are exactly those with a legal TFORM, in order, each with the TTYPE of its own number; C66_find: what a name finds then. C66_ascii_exact: the same for ASCII tables, whose columns need TBCOL and TFORM. C66_partial, C66_columns, C66_ascii: tables with legal TFORM keywords."},
 {"property": "C67", "status": "proved", "theorems": ["Fitsrs.C67_panic", "Fitsrs.C67_splice"], "note": "The exact panic condition, and agreement with the values of headers (extend, the specification of C17)."},
 {"property": "C68", "status": "proved", "theorems": ["Fitsrs.C68_history", "Fitsrs.C68_keyword", "Fitsrs.C68_position"], "note": "C68_keyword is for any equality of values (that of f64 is not modelled)."},
 {"property": "C69", "status": "proved", "theorems": ["Fitsrs.C69_file", "Fitsrs.C69_fitsfile", "Fitsrs.C69_cursor", "Fitsrs.C69_client", "Fitsrs.C69_client_cursor"], "note": "Simulation of the plain reader by a BufReader on a file with an arbitrary plan of short and interrupted reads, by GzReader around it, and by two versions of Cursor. std is modelled by reading its source. C69_client: also for programs whose calls depend on the results of the calls before, as those of the iterators do."},
 {"property": "C70", "status": "partial", "theorems": ["Fitsrs.C70_partial", "Fitsrs.C70_fitsfile_partial", "Fitsrs.C70_client_partial", "Fitsrs.C70_hdus_partial", "Fitsrs.C70_fails"], "note": "The simulation of C69 up to failed reads. Disproved for the iterators over values, which return None on a failed read (D35); proved for all programs with that exception, also for those that decide on their calls as they go (C70_client_partial)."},
 {"property": "C71", "status": "proved", "theorems": ["Fitsrs.C71_read_back"], "note": "Induction over the HDUs of the file; the header lines, values and data units are written independently of the reader."},
 {"property": "C72", "status": "partial", "theorems": ["Fitsrs.C72_partial", "Fitsrs.C72_exact_logical", "Fitsrs.C72_fails"], "note": "Disproved for binary tables with false logical values (C72_fails), bit columns and columns of no values (D6, D7, D8, D13); proved without these and without empty arrays (D9). Columns of arrays with a heap are included. C72_exact_logical: a file with false logical values is read back as it was written, except that these values are given as true."},
 {"property": "C73", "status": "proved", "theorems": ["Fitsrs.C73_cut"], "note": "Induction over the HDUs of the file, with the position of the cut."},
 {"property": "C74", "status": "proved", "theorems": ["Fitsrs.C74_cut", "Fitsrs.C74_struct"], "note": "Composition of C73 and of the written files of C71, C72; the formats of the lines are given independently."},
 {"property": "C75", "status": "proved", "theorems": ["Fitsrs.C75_prefix", "Fitsrs.C75_bytes"], "note": "Every step of the model commutes with appending bytes to the file as long as it succeeds. Bytes of tables are buffered ahead, so after them only further bytes are compared (C75_bytes)."},
 {"property": "C76", "status": "partial", "theorems": ["Fitsrs.C76_partial", "Fitsrs.C76_fails", "Fitsrs.C76_exact"], "note": "From the bytes of the file to the pixels: composition of the header round trip (C71), the tables (C72) and the tiles (C44). Missing: tiles cut at the edge, columns of several values before the compressed data (or, for floats, before the scalings), empty arrays, 8-bit pixels with GZIP_2, and large differences of pixels with RICE in checked builds; C76_fails has the first. C76_exact says what is given in release builds when tiles are cut: the tiles read as whole ones, up to the first one that is refused, and then the HDUs that follow."},
 {"property": "C77", "status": "partial", "theorems": ["Fitsrs.C77_partial", "Fitsrs.C77_tiles", "Fitsrs.C77_fails", "Fitsrs.C77_fails_far"], "note": "An invariant on the reader and the byte offset that holds on arbitrary contents until the first None (InStep); from there on the state does not change. Missing: pixels of compressed images, for which C77_tiles says exactly when None is final, and tables with 64-bit array descriptors; C77_fails and C77_fails_far are the counterexamples."},
 {"property": "C78", "status": "partial", "theorems": ["Fitsrs.C78_partial", "Fitsrs.C78_fails", "Fitsrs.C78_fails_gzip", "Fitsrs.C78_exact_gzip", "Fitsrs.C78_exact_narrow"], "note": "Proved for pixels compressed with four bytes (RICE without BYTEPIX or with BYTEPIX 4, GZIP of 32-bit integers and floats), by reduction to C44. False otherwise: RICE streams of bytes give wrong pixels (C78_fails), GZIP of shorts gives none (C78_fails_gzip). C78_exact_gzip: exactly what any GZIP tiles give, without conditions on what they hold; C78_exact_narrow: nothing if the first one holds numbers of fewer than four bytes."},
 {"property": "C79", "status": "proved", "theorems": ["Fitsrs.C79_same_headers", "Fitsrs.C79_next"], "note": "By the invariant of the positions (C02): each call of the iterator reads only the records from the end of the previous data unit on; those are the same in both files. The size of the file is the same; the readings of the data between the calls are arbitrary."},
 {"property": "C80", "status": "proved", "theorems": ["Fitsrs.C80_stream"], "note": "From the bytes of the file to the values: composition of the header round trip (C71) with the walk of an asynchronous stream (C57) and its values (C49), by induction over the HDUs of the file. Delays of the source: C49, C50."},
 {"property": "C81", "status": "proved", "theorems": ["Fitsrs.C81_embedded"], "note": "The induction of C71, C72 and C76 over the HDUs of a file, begun at any offset. Conditions on the data units as in C76_partial (the counterexamples are there). Through GzReader a plain file is always taken from the beginning of the source."},
 {"property": "C82", "status": "proved", "theorems": ["Fitsrs.C82_found", "Fitsrs.C82_other", "Fitsrs.C82_distinct", "Fitsrs.C82_sound", "Fitsrs.C82_panic_iff", "Fitsrs.C82_extension_names", "Fitsrs.C82_extension_text", "Fitsrs.C82_utf8"], "note": "check_card_keyword modelled as is (payload of the error dropped); panics exactly where C09_panic_iff says and the keyword matches."},
 {"property": "C83", "status": "proved", "theorems": ["Fitsrs.C83_no_panic", "Fitsrs.C83_quote_needed", "Fitsrs.C83_no_columns_needed", "Fitsrs.C83_empty_rows_needed", "Fitsrs.C83_selection_needed", "Fitsrs.C83_raw_needed"], "note": "Invariant over arbitrary programs on arbitrary bytes, builds without overflow checks (Profile.wrapping). The conditions are each shown to be needed by a concrete program (C83_*_needed; for the number of columns C26_ascii, C26_fails); conditions are exact causes, not a claim that each always panics. For compressed images the condition is TileSound (C84)."},
 {"property": "C84", "status": "proved", "theorems": ["Fitsrs.C84_no_panic", "Fitsrs.C84_open_iff", "Fitsrs.C84_no_pixel", "Fitsrs.C84_sample", "Fitsrs.C84_scale_needed", "Fitsrs.C84_tiles_needed", "Fitsrs.C84_data_needed", "Fitsrs.C84_one_value_needed"], "note": "TileSound is sufficient; C84_*_needed show panics when a clause fails (also without overflow checks). The bounds of 2^60 are not sharp. RICE in checked builds panics: C40/C41. Headers with PLIO_1, HCOMPRESS_1 or ZBITPIX 64 are not compressed images for the parser (C27)."},
 {"property": "C85", "status": "proved", "theorems": ["Fitsrs.C85_string", "Fitsrs.C85_continue", "Fitsrs.C85_hierarch", "Fitsrs.C85_keyword", "Fitsrs.C85_undefined", "Fitsrs.C85_outside"], "note": "The decoder of UTF-8 is that of the standard library, modelled after core::str; utf8Strict_iff and utf8Lossy_encode relate it to the encoding of RFC 3629."},
 {"property": "C86", "status": "partial", "theorems": ["Fitsrs.C86_partial", "Fitsrs.C86_eof", "Fitsrs.C86_fails", "Fitsrs.C86_final"], "note": "Partial: proved for errors of any kind but UnexpectedEof. False for that kind (C86_fails): in the fill after a data unit it is taken for the end of the file. C86_eof: that is all it can do. C86_final: after an error the stream of HDUs is at its end whatever the source does."},
 {"property": "C87", "status": "proved", "theorems": ["Fitsrs.C87_fields", "Fitsrs.C87_same"], "note": "The struct WCSParams and WCS::new of the crate wcs are parameters. Reduction to C65_fields."},
 {"property": "C88", "status": "partial", "theorems": ["Fitsrs.C88_exact", "Fitsrs.C88_partial", "Fitsrs.C88_fails"], "note": "False: after None a further poll may give an error (C88_fails). C88_exact: what every further poll gives, for every source that does not fail and every program; C88_partial: None for ever if all values of the last HDU were read or an error was told."},
 {"property": "C89", "status": "partial", "theorems": ["Fitsrs.C89_iff", "Fitsrs.C89_partial", "Fitsrs.C89_cut", "Fitsrs.C89_fails"], "note": "False for data units that are cut (C89_fails; C89_cut says exactly what is given). C89_iff: the stream ends exactly if the source holds the whole data unit."},
 {"property": "C90", "status": "proved", "theorems": ["Fitsrs.C90_cut"], "note": "For sources that are always ready (a poll that is Pending inside a header loses bytes, C50). Asynchronous counterpart of C73, which reports less: the iterator ends on a cut data unit (D21)."},
 {"property": "C91", "status": "proved", "theorems": ["Fitsrs.C91_no_panic", "Fitsrs.C91_quote_needed", "Fitsrs.C91_huge_needed"], "note": "Asynchronous counterpart of C83. C91_quote_needed and C91_huge_needed show that both exceptions are needed (D1 and D26)."},
 {"property": "C92", "status": "proved", "theorems": ["Fitsrs.C92_image", "Fitsrs.C92_ascii", "Fitsrs.C92_bintable", "Fitsrs.C92_commentary"], "note": "Non-interference of the other records with the layout; outcomes are compared whole, so refusals and errors too. OneBlockSize is needed because the first BLOCKSIZE in order of the records is taken."},
 {"property": "C93", "status": "proved", "theorems": ["Fitsrs.C93_prefix", "Fitsrs.C93_file", "Fitsrs.C93_fitsfile", "Fitsrs.C93_failing", "Fitsrs.C93_failing_fitsfile", "Fitsrs.C93_cursor"], "note": "Covers HDUs, images and uncompressed binary tables (values, rows, seek_to_row, select_fields, read_value); not the byte streams of ASCII tables, bytes(), raw_bytes() and compressed images. A failing read shows as the end of an iterator (D35)."},
 {"property": "C94", "status": "partial", "theorems": ["Fitsrs.C94_prefix", "Fitsrs.C94_partial", "Fitsrs.C94_fitsfile_partial", "Fitsrs.C94_cursor_partial", "Fitsrs.C94_failing_partial", "Fitsrs.C94_fails"], "note": "Partial because of D48: after a stream of bytes has been used a program may only go on to the next HDU; the stream must stay in the data unit (it does when it is opened before other reads). A failing read of a stream is an error, not the end."},
 {"property": "C95", "status": "proved", "theorems": ["Fitsrs.C95_prefix", "Fitsrs.C95_file", "Fitsrs.C95_fitsfile", "Fitsrs.C95_cursor"], "note": "Up to the first call in which a read, a move or a decompression fails. The decoders are given the bytes that reads deliver up to the end of the file; reads that fail are not covered (C93 and C94 cover them for the rest). The limits of C94 on programs that use bytes of tables are kept."},
 {"property": "C96", "status": "proved", "theorems": ["Fitsrs.C96_every_reader", "Fitsrs.C96_failing", "Fitsrs.C96_read_back", "Fitsrs.C96_as_written", "Fitsrs.C96_tiles", "Fitsrs.C96_tiles_read_back", "Fitsrs.C96_tiles_as_written"], "note": "Tables of written files have no columns of bits or of no values and no empty arrays, and logical values are given as true, as in C72 (exactly as written without false ones). Compressed images (C96_tiles and on) are those of C44 and C76; the case of failing reads (C96_failing) is for files without them."},
 {"property": "C97", "status": "partial", "theorems": ["Fitsrs.C97_exact", "Fitsrs.C97_never", "Fitsrs.C97_partial", "Fitsrs.C97_fails"], "note": "C97_statement fails in every file (C97_fails, C97_never): It::bytes gives the whole file (C97_exact), which has a header record before the data unit. C97_partial: the claim for an iterator that a program makes itself on the bytes of the pixels alone."},
 {"property": "C98", "status": "proved", "theorems": ["Fitsrs.C98_failing"], "note": "For sizes that fit in 63 bits. Reads fail at any point; seeks fail only for targets below 0 or from 2^63 on. The program ends at a panic of a request for an HDU."},
 {"property": "C99", "status": "partial", "theorems": ["Fitsrs.C99_exact", "Fitsrs.C99_partial", "Fitsrs.C99_bytes", "Fitsrs.C99_shifted", "Fitsrs.C99_between", "Fitsrs.C99_fails", "Fitsrs.C99_calls", "Fitsrs.C99_calls_partial"], "note": "C99_statement fails (C99_fails): a failed read counts as a pixel and its bytes are lost. C99_exact says which values are given after any failures: the values of the next bytes, less than one pixel being left out at each None. C99_partial: the claim holds as long as no call has given None. C99_bytes: pixels of one byte are given in order without a gap. C99_calls and C99_calls_partial: the same for calls of next and read_value (sizes below 2^62 bytes)."},
 {"property": "C100", "status": "partial", "theorems": ["Fitsrs.C100_exact", "Fitsrs.C100_partial", "Fitsrs.C100_bytes", "Fitsrs.C100_between", "Fitsrs.C100_fails"], "note": "C100_statement fails (C100_fails): bytes read before an error are lost. C100_exact says what is given for every source. C100_partial: the claim holds, also with delays, if the source stops only between values. C100_bytes: for single bytes it always holds."},
 {"property": "C101", "status": "partial", "theorems": ["Fitsrs.C101_partial", "Fitsrs.C101_exact", "Fitsrs.C101_iff", "Fitsrs.C101_witness", "Fitsrs.C101_fails"], "note": "C101_statement fails (C101_fails): a plain file after other bytes is rewound to the beginning of the source. C101_exact and C101_iff say what is read; C101_partial: compressed files are read after any bytes, plain ones at the beginning of the source. Decompression is a parameter."},
 {"property": "C102", "status": "proved", "theorems": ["Fitsrs.C102_position", "Fitsrs.C102_any_reader", "Fitsrs.C102_zero"], "note": "Proved: C102_position for programs on contents in memory, C102_zero says when it is 0, C102_any_reader for any reader and any failures."},
 {"property": "C103", "status": "proved", "theorems": ["Fitsrs.C103_values", "Fitsrs.C103_end", "Fitsrs.C103_index", "Fitsrs.C103_later", "Fitsrs.C103_contents"], "note": "Proved for any table state (C103_values, C103_end, C103_index, C103_later), and by the contents for the tables of C33 (C103_contents). The loop over the values of a row has a fuel; the theorems speak of calls that finish."},
 {"property": "C104", "status": "proved", "theorems": ["Fitsrs.C104_values", "Fitsrs.C104_opened", "Fitsrs.C104_rows", "Fitsrs.C104_rows_later", "Fitsrs.C104_select"], "note": "Proved: C104_opened and C104_rows for tables just opened, C104_select after selections, C104_values and C104_rows_later for any state before the end of the last row. An end is None or, where other properties say so, a panic."},
 {"property": "C105", "status": "partial", "theorems": ["Fitsrs.C105_tile_partial", "Fitsrs.C105_tile_fails", "Fitsrs.C105_pixels_partial", "Fitsrs.C105_fails"], "note": "C105_pixels_partial: all compressed images but those of RICE tiles of 2^31 - nblock pixels or more; C105_tile_partial: the decoding of a tile. C105_fails: a file with a tile of 2^31 pixels is decoded for ever (D54); C105_tile_fails: the same for the tile alone. An end is None, an error, or, where other properties say so, a panic."}
]}
