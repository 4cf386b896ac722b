# Formal model of fitsrs in Lean 4: design

Target: cds-astro/fitsrs 0.4.2 (`/repo`, Rust).  The model lives in `lean/Verif`.

## 1. Layout

| directory | content |
|---|---|
| `Verif/Model/*.lean` | functional model of the Rust code, function by function; each definition cites file and lines |
| `Verif/Spec/*.lean`  | small independent specifications (FITS writing rules, layout of cells, RICE encoder, ...); they do not mention the model |
| `Verif/Lemmas/*.lean`| helper lemmas |
| `Verif/Props/*.lean` | the property theorems `Cxx_...`, each followed by an `example` showing that its hypotheses are met by a concrete case |
| `Verif/Tests/*.lean` | the unit tests of the library that need no sample file, run on the model (evidence that the model is the code, no property) |

`properties.jsonl` lists the properties, `MANIFEST.json` maps each property to its theorems,
`seeded/LOG.jsonl` records the experiments in which the model was broken on purpose.

## 2. Trusted base

* Lean's kernel.  Axioms: every theorem of `MANIFEST.json` depends at most on `propext`, `Classical.choice`, `Quot.sound`
  (no `sorry`, no own axioms, no `native_decide`, no `bv_decide`).  As printed by `#print axioms`:
  * no axiom: C46_lookup, C100_between;
  * `propext` only: C16_no_panic, C16_error, C31_fails, C34_empty, C40_fails, C41_fails, C42_fails, C49_fails, C60_values, C65_get_parsed;
  * `propext`, `Quot.sound`: C21_integers, C21_bitpix, C21_option, C21_others, C21_real, C21_no_panic, C25_plain, C25_array, C25_only,
    C42_partial, C42_prefix_partial, C44_count, C52_luma, C52_samples, C54_partial, C63_partial, C63_plain, C63_checked, C63_fails,
    C67_panic, C67_splice, C105_tile_fails, C100_fails, C101_exact, C101_iff, C101_partial, C103_values, C103_end, C103_index, C103_later;
  * `propext`, `Classical.choice`, `Quot.sound`: all the others.
* The model is a hand translation of the Rust text.  The correspondence is by reading; it is not
  checked mechanically.  Citations are given so that it can be checked by eye.  The unit tests of the library with literal inputs
  (`src/card.rs`, `src/hdu/header/mod.rs`, `test_bad_bytes` of `src/lib.rs`) give the expected results on the model (`Verif/Tests/Upstream`).
* Rust standard library, `byteorder`, `indexmap`, `serde`, `serde_repr`, `futures`, and `total_bytes`/`bytes_per_pixel` of
  `image`, and the gzip headers and trailers of `flate2`: modelled by their documented behaviour.  The rest of `flate2`, `wcs`, the rest of `image`, `log` and the operating system: not
  modelled (gzip decompression is a parameter of the models of tiles and of compressed files; so are the bytes that a decoder which
  fails has put in the buffer and those it has taken from the reader).

### Conventions of the model

* Panics are values: every function that can panic returns `Res α` = `ok | err | panic`.  Index out of
  bounds, slicing, `unwrap`, `unreachable!`, `assert!` are explicit.
* Integer arithmetic: `Nat`/`Int`, with a parameter `Profile` (`checked` = overflow checks on, as in debug and
  test builds; `wrapping` = release builds) where the code can over- or underflow.  `usize` and `u64` are 64 bits.
  RICE decoding uses 32-bit bit vectors.
* A synchronous reader is a byte list with a position (`Reader`), which is how `Cursor<&[u8]>`,
  `BufReader<File>` and `GzReader` behave: `read_exact` returns the next bytes, or fails with `UnexpectedEof` and
  leaves the position at the end; seeking past the end is allowed, before the start is an error.  I/O errors other than
  EOF are modelled only in `Model/Input` and `Model/InputData` (C70, C93, C98, C99), and only in reads, and in asynchronous sources (C86, C100).
* Rust strings are lists of Unicode characters.  UTF-8 decoding (`from_utf8`, `from_utf8_lossy`) is modelled
  concretely.  `f64` values are modelled as the exact decimal number written (sign, digits, exponent), i.e. before
  the rounding done by `str::parse::<f64>`.
* The plain reader of the model delivers all the bytes it is asked for; C69, C93, C94, C95, C98 and C99 relate it to `BufReader`, `GzReader` and `Cursor`.  After
  a read that failed its position is that of `BufReader` and `GzReader` (`Cursor` differs, with the version of std, from there on).
* Texts of dynamically formatted error messages and `log` calls are dropped.
* An asynchronous reader is a sequence of events (Pending, a chunk of bytes, or a failure): a schedule.

### What is modelled

| code (`/repo/src`) | model | not modelled |
|---|---|---|
| `card.rs` | `Model/Text`, `Model/Card` | `Display`/`Debug`; text of error messages |
| `hdu/header/mod.rs` | `Model/Header`, `Model/Keyword`, `Model/Deserialize` (the code `serde_derive` generates for structs) | |
| `hdu/header/extension/*.rs` | `Model/Extension` | |
| `fits.rs`, `hdu/mod.rs`, `hdu/primary.rs` | `Model/Fits`, `Model/Input` (over any reader), `Model/Position` | |
| `hdu/data/mod.rs`, `image.rs`, `iter.rs`, `asciitable.rs` | `Model/Iter`, `Model/ItBytes`, `Model/Fits`, `Model/InputData` and `Model/InputBytes` (pixels and bytes, over any reader) | |
| `hdu/data/bintable/data.rs`, `row.rs`, `mod.rs` | `Model/Table`, `Model/RowViews`, `Model/Session` (`bytes`), `Model/InputData` and `Model/InputBytes` (values, rows and bytes, over any reader) | |
| `hdu/data/bintable/tile_compressed/rice.rs` | `Model/Rice` | |
| `.../dithering.rs` | `Model/Dither` | |
| `.../mod.rs`, `pixels.rs` | `Model/Tile`, `Model/InputTiles` (over any reader) | the bits of floating-point results (kept symbolic: `TilePixel`) |
| `async_fits.rs`, `hdu/data/stream.rs`, asynchronous parts of `hdu` | `Model/Async` | wakers and executors (a poll returns Pending or Ready; polls are counted) |
| `image_integration.rs` | `Model/ImageDecoder` | floating-point operations (`FloatOps`, a parameter); registration hook |
| programs using a file: any sequence of `next`, `get_data`, and calls on what was opened | `Model/Session` | keeping an HDU of another file |
| `gz.rs`, `file.rs` | `Model/Gz`, `Model/Input` (reading and seeking) | decompression (a parameter); `flate2`'s header and trailer as documented |
| `crates/cli/src/struct.rs` (relative to `/repo`) | `Model/Cli` | arguments, opening the file, failing writes to the standard output |
| `wcs.rs` | `Model/Wcs` | the crate `wcs` (`WCSParams`, `WCS::new`: parameters) |

## 3. Per property

"partial" means that the full statement (kept in the file as `Cxx_statement`, or its negation proved as `Cxx_fails`) is false of the code or
not proved in full; what is missing is said beside the `_partial` theorem and in `MANIFEST.json`.

| id | status | shape and proof |
|---|---|---|
| C01 | proved | refinement to a list of segments; induction over the list |
| C02 | proved | frame: `next` is a function of the end of the data unit, for any position inside it (sizes < 2^63, D24) |
| C03 | proved | invariant: the error flag is absorbing; induction over calls |
| C04 | proved | decision logic of the end of file, both directions |
| C05 | partial (D2) | release builds: proved; checked builds: condition and counterexample |
| C06 | proved | invariant; induction over histories of calls and reads |
| C07 | proved | decision logic, both directions |
| C08 | proved | refinement: cards = map of the record parser over the records up to END |
| C09 | partial (D1) | exact set of the panicking records; counterexample |
| C10 | proved | round trip with a FITS string writer; induction over the string |
| C11 | proved | round trip with a decimal writer, and soundness |
| C12 | proved | refinement to a grammar of reals, and soundness |
| C13, C14, C15 | proved | decision logic, round trip |
| C16 | proved | invariant of the automaton, refinement to "first slash outside quotes" |
| C17 | proved | refinement: the map is the fold of the records |
| C18 | proved | round trip: pieces → cards → concatenation |
| C19 | proved | invariant: the continued keyword is in the map and holds a string |
| C20 | partial (D3) | exact behaviour, counterexample |
| C21–C23 | proved | decision logic, exact conditions |
| C24 | partial (D6) | exact condition, counterexample |
| C25 | proved | round trip and soundness; exactly the texts accepted, for ASCII tables |
| C26 | partial (D26) | exact conditions of panics, counterexamples |
| C27 | proved | decision logic, both directions; `C27_blocksize`: the parameter `BLOCKSIZE` of RICE is found whatever its number |
| C28 | partial (D4) | counterexample; what is recorded instead |
| C29, C30, C32 | proved | refinement to an array with a cursor; induction over operations |
| C31 | partial (D5) | same, up to the first failed read; counterexample; after the end has been met, the exact place of the bytes returned (C31_shift) |
| C33–C36 | partial (D7, D8, D10–D12) | refinement to the layout of cells; invariant of the iterator over any history; rows iterated after any history, exactly (C36_exact); what is read for a repeat count 0, exactly (C33_exact_zero), and in tables with bit columns (C33_exact_plain); what any selection of plain columns gives, with repeated columns and after a seek (C34_exact, C35_exact_select) |
| C37, C38 | partial (D9, D10, D27) | same with descriptors and heap; what is read for an empty array, in each build, and for one not wholly in the file, exactly (C37_exact_checked, C37_exact_release, C37_exact_outside) |
| C39 | partial (D13) | exact behaviour, counterexample |
| C40 | partial (D28) | round trip with a bit-level encoder (any split per block); release builds in full; exactly which pixels are given back in checked builds |
| C41 | partial (D28) | invariant of the decoder on arbitrary bytes; release builds in full; exactly when checked builds agree with them |
| C42 | partial (D14) | reads of whole blocks; the first pixels, up to the first read that ends inside a block (`C42_prefix_partial`); counterexample |
| C43 | partial (D15) | refinement; counterexample |
| C44, C45 | partial (D16, D17) | refinement to tiles of the standard; exactly what is given with cut tiles, and which columns may come before the compressed data; counterexamples |
| C46 | proved | rounded double arithmetic proved equal to integer arithmetic; invariant over calls |
| C47 | proved | induction over buffers and delays |
| C48 | proved | simulation between the two readers; what they do where they differ is `C48_exact` |
| C49–C51 | partial (D19, D20) | for all schedules of a stated kind; counterexamples; for all schedules, exactly which bytes are lost (`kept`, induction on the polls and on the events; a poll either ends before the first delay whatever follows, or consumes all that precedes the delay); for always-ready sources, the stream accepts exactly the files with a true logical value in the first record that the iterator would accept with the keyword `SIMPLE` there (`C51_exact`) |
| C52, C53, C58 | proved | refinement of the buffer to planes/samples; search of the first image |
| C54 | partial (D22) | counterexample; the pixels given by a second `get_data`, exactly (C54_exact) |
| C55 | partial (D24) | counterexample; exactly where the next header is looked for, whatever the announced size (C55_exact) |
| C56 | partial (D23) | counterexample; the pixels given for any earlier HDU, exactly (C56_exact) |
| C57 | proved | invariant over the values taken |
| C59 | partial (D25) | order of pixels of tiles; exactly for tiles of any shape (permutation of the pixels); counterexample |
| C60 | proved | simulation between the two builds, call by call: the build without overflow checks agrees until the other one panics |
| C61 | partial (D29, D49) | invariant of sessions: the state of the HDU iterator but for the position; induction over calls; counterexamples; `C61_tiles_partial` (in `C96_Tiles.lean`) includes compressed images; `C61_exact` and `C61_checked`: for every program, the HDUs of the file or a panic of the iterator, after the HDUs of the file; `C61_release`: for every program in release builds, compressed images included, by an invariant that bounds how far each call moves the reader (`Lemmas/Reach.lean`, `Lemmas/ReachTiles.lean`) |
| C62 | partial (D30) | refinement to the bytes of the file; exactly after any calls; counterexample |
| C63 | partial (D32) | round trip: header and trailer of RFC 1952, decompression being a parameter; exactly what is read when anything follows the first member; counterexample |
| C64 | partial (D31) | measure: the start of the data unit grows by 2880 or more; counterexample; exactly: the iterator ends if and only if no HDU comes twice, and otherwise goes round for ever (`C64_exact`, `C64_iff`: the state after a call depends only on the HDU returned, and HDUs are read at places of the file, of which there are finitely many) |
| C65 | partial (D33) | refinement: the loop over the map, with its slots, against a look-up per field; counterexample |
| C66 | partial (D34) | induction over the columns; exactly for any TFORM keywords; counterexample |
| C67 | proved | decision logic and induction over the continuations |
| C68 | proved | induction over the records, over the map, and over the histories of calls |
| C69 | proved | simulation of the plain reader by other readers, call by call, for lists of calls and for programs that decide on each call by the results so far; invariant of the buffer |
| C70 | partial (D35) | the same simulation up to failed reads; counterexample |
| C71 | proved | round-trip: writing (`Spec/Writer`) then reading; induction over the HDUs of the file |
| C72 | partial (D6–D9, D13) | the same with binary tables, with fixed columns and arrays in a heap (`WrittenTable`); counterexample; exactly what files with false logical values give |
| C73 | proved | induction over the HDUs, with the position of the cut |
| C74 | proved | refinement: the loop of the command against a report made from what was written; by C71, C73 |
| C75 | proved | simulation: every successful step commutes with appending bytes to the file; for all programs and arbitrary bytes |
| C76 | partial (D9, D15, D16, D17, D28) | round-trip with compressed images (`WrittenTiles`); composition of C71, C72 and C44, with columns of several values after the ones that are needed; counterexample ; `C76_exact` (in `C76_Exact.lean`): in release builds, what is given of files with cut tiles, by composition with C44_exact, and that the HDUs after a refused tile are found |
| C77 | partial (D36, D37) | invariant on arbitrary contents (`InStep`) up to the first None, fixed point after it; exact for tiles; counterexamples |
| C78 | partial (D38, D39) | refinement to the formats of one, two and four bytes; reduction to C44 for four bytes; counterexamples for the others; for GZIP, exactly what any tiles give (`C78_exact_gzip`), and that narrower numbers give nothing (`C78_exact_narrow`) |
| C79 | proved | noninterference: simulation of one call on two files (`next_on`), induction over the history with the invariant of C02 |
| C80 | proved | round trip from written files (C71) to the asynchronous streams, induction over the HDUs with the state after the values taken (C57) |
| C81 | proved | the induction over the HDUs of C71, C72, C76 begun at any offset |
| C82 | proved | decision logic, both directions; round trip with the writers of C10, C11, C13 |
| C83 | proved (its conditions: D26, D27, D40–D42) | invariant (`Steady`) of arbitrary programs on arbitrary bytes; witnesses that the conditions are needed |
| C84 | proved (its conditions: D43, D44) | invariant (`TilesSafe`, over the rows of the table `InRow`/`Dead`) for arbitrary contents and decompressors; exact condition for opening; witnesses that the conditions are needed |
| C85 | proved | the decoder of UTF-8 related to the encoding (`utf8Strict_iff`, `utf8Lossy_encode`, `utf8Lossy_append`); induction over the scanner for arbitrary bytes; `C82_utf8` and `C21_real` added with it |
| C86 | partial (D45) | noninterference: a failing source and any other that begins alike (`Twins`) are in step until an error; the futures of the model give an error where the source fails (`OnFail`); counterexample |
| C87 | proved | reduction to the exact behaviour of deserialization (C65_fields), for any struct of parameters and any constructor |
| C88 | partial (D46) | a program of polls keeps a count of the bytes not yet read that is a function of what it has been told (`Told`); at the end of the source what every further poll gives is computed (`C88_exact`); counterexample |
| C89 | partial (D47) | reduction to the exact values of a cut data unit (C49_short); `C89_iff` says when the stream ends; counterexample |
| C90 | proved | induction over the HDUs of the file, with the two readers side by side (C48, C73) |
| C91 | proved | invariant: what a program has left of its source is an end of the bytes (`poll_drop`); cards read asynchronously are those of a header there (`cards_at`), whose parsing is C09 and C26; the other futures have enough fuel |
| C92 | proved | decision logic: the parsers look up only the listed keywords, only their values (`SameAt`), as many `NAXISn`, `TFORMn`, … as the counts say; the search of `BLOCKSIZE` over all keywords has at most one answer (`riceBlocksize_find`); commentary by induction over the loop that builds the map |
| C93 | proved | the iterators over pixels, values and rows as programs of reads and moves (`Prog`, Model/InputData); on the plain reader they are the functions of Model/Iter and Model/Table (`*_val`); simulation of the plain reader by the others over a whole program (`Prog.sim`), then over sessions (`call_same`, `run_same`) |
| C94 | partial (D48) | as C93; while a stream of bytes is opened the readers are at different places of the same data unit, with the same bytes to come (`Loose`); from any place in it the next HDU is the same (`next_anywhere`); counterexample |
| C95 | proved | as C94, with `jump_to_location` over any reader: what reads give up to the end of the file is the rest of its bytes (`drain_is`), the decoder has the same bytes, and the reader is moved back to the same position (`fillTile_same`); programs by induction |
| C96 | proved | the reader stays at or before the end of complete data units and no call fails (`Stays.useP`), and parsing HDUs stays below the limit (`next_below`), so such programs are in the range of C94 (`tidy_within`, by induction on the program, as C61); written files have complete data units (`file_tame`, by induction on the file), so C72 carries over; `C96_Tiles.lean` adds the compressed images of C44 and C76 in the same way (`tidyAll_within`, `file_tameAll`), on top of C95; reads that fail are then not covered |
| C97 | partial (D50) | `It::bytes` of readers in memory; the position of the data unit of every HDU that is returned is after a header record; counterexample in every file |
| C98 | proved | programs that go on after failed calls, on `BufReader` and `GzReader` over a file with any plan of failing reads: an invariant of the buffer kept by every call, also by those that fail; at a request for an HDU the simulation of C69 from wherever the reader stands, and the skip to the next HDU, which does not depend on that place (or panics, with overflow checks) |
| C99 | partial (D51) | iterators over pixels on `BufReader` and `GzReader` over a file with any plan of failing reads, after any calls: where a read that fails leaves the reader; the values given are an inductive relation on the bytes of the file (C99_exact); before the first `None` they are the pixels, for single bytes always the first pixels in order; the same for calls of `next` and `read_value`, with the distance of the reader from its place as the invariant (C99_calls) |
| C100 | partial (D52) | polling for the values of a data unit, for any source: what one poll of a read gives and where it leaves the reader, by induction on the read; the values given are an inductive relation on the bytes to come (C100_exact); if the source stops only between values, and for single bytes always, they are the values in order, all of them if there are enough polls |
| C101 | partial (D53) | `GzReader::new` on a source at any place, by the cases of its header; gzip headers and trailers as in C63, decompression a parameter |
| C102 | proved | the programs of C60 on contents in memory (`Session`), and the calls of C98 on any reader (`Input`), asked for the position after each call; induction on the calls |
| C103 | proved | a machine holding the values or the rows of a table (`Model/RowViews`); refinement to the iteration over the values, by induction on the calls and on the loop over a row |
| C104 | proved | a measure: rows left, columns left, bytes of the file left for the cell being read; the move to the end of the main table arrives there also when it wraps around; rows by induction on the values left |
| C105 | partial (D54) | RICE: by induction on the pixels left when blocks have pixels, on the bits left when they have none; pixels: a measure (values of the table left, rows to catch up with, pixels of the tile left) on top of C104 |

## 4. Where the code and the properties disagree

Items D1–D54 are theorems with a concrete witness (`Cxx_fails` and the like); the positive part is proved as a `_partial` theorem.

* D1 (C09) a record such as `KEY     = '` (a lone quote), `XTENSION= '` or `CONTINUE  '` panics (slice `[1..0]`).
* D2 (C05) after `None`, one more call computes `num_bytes - (cur_pos - start)` with `cur_pos` past the data: underflow, a panic
  with overflow checks when the data size is not a multiple of 2880 (wraps to the right offset otherwise).
* D3 (C20) the comment keeps its leading blank, so `unit()` is `None` for `/ [unit] ...`; it only works for `/[unit]`.
* D4 (C28) `ZQUANTIZ` is deserialized through `deserialize_any`, which a derived enum visitor rejects: the parsed method
  is always `None`, so dithering is never undone.  (Relies on the semantics of `serde_derive`.)
* D5 (C31) after a failed read the pixel index and the reader position are out of step; a later `read_value` returns a wrong pixel. C31_shift: after `next` has returned `None` `f` times, `read_value(i)` returns the bytes at the place of pixel `i - f`, shifted by the bytes of the pixel that is cut.
* D6 (C24) bit columns: the row width check rounds the total number of bits down; legal tables are rejected (`1X`), illegal
  ones accepted.
* D7 (C33) `X` columns: `repeat/8+1` bytes are read, one too many when the repeat count is a multiple of 8. The
  cells after it are then taken from one row further for each such cell (C33_exact_plain); when the bytes of the whole
  scan are in the file, the last step makes checked builds panic (C38_fails_bits: a row of `8X` and `1B`).
* D8 (C33) columns with repeat count 0: reading never advances to the next column.
* D9 (C37, C38) empty variable-length arrays: an element is read anyway, then the byte counter underflows: a panic in
  checked builds; in release builds everything from the place of the array to the end of the file is given as its
  elements, and nothing of the table after it.
* D10 (C34, C38) selecting no valid column: index out of bounds; selecting a column twice skips to the next row: each cell is
  read at the first place, after the end of the last one, where its column is found (C34_exact).
* D11 (C35) `select_fields` then `seek_to_row`: the offset of the first column is applied twice
  (C35_exact_select says what is then read); `seek_to_row` while inside
  a variable-length array does not leave the heap.
* D12 (C36) `seek_to_row(r)` and then row iteration first yields `r` empty rows. C36_exact: after any calls, the iteration gives an empty row for each row before the current one, the values left of this row, and the rows after it.
* D13 (C39) any non-zero byte is read as true (`C39_exact`), so the FITS false value `F` is read as true.
* D14 (C42) the RICE decoder does not save its state when a buffer is filled in the middle of a block.
* D15 (C43) GZIP_2 with 8-bit pixels is not unshuffled: such tiles are read as GZIP_1 tiles (C43_exact_bytes).
* D16 (C44) tiles at the border are decoded as if they were full. `C44_exact` says what is given then: the pixels of a cut tile
  are followed by others, and the iteration ends at the first cut tile that the decoder refuses; with GZIP it refuses them all.
* D17 (C44, C45) the values of a row are indexed by column number although a column contributes `repeat` values; columns after the last one used do no harm (`Aligned`).
* D18 (C46) blank pixels do not advance the random sequence.
* D19 (C51) the asynchronous primary header does not check that the keyword is SIMPLE; this is the only difference (`C51_exact`).
* D20 (C49, C50) futures are dropped on Pending: bytes already read are lost.  Which ones is proved for every schedule (`C49_kept`,
  `C49_short`, `C49_exact`, `C50_pending`, `C50_first`, `C50_next`).
* D21 (C48, `C48_exact`) truncated data, or 1 to 79 bytes after the last block: the synchronous iterator ends, the asynchronous stream reports an error.
* D22 (C54) `get_data` continues at the current reader position. C54_exact: it gives the pixels not yet read, then as many values from the bytes after the data unit.
* D23 (C56) `get_data` on an HDU returned earlier uses the position of the HDU returned last. C56_exact: it gives its number of pixels, of its type, from the data unit of the HDU returned last.
* D24 (C55) an announced size of 2^63 bytes or more is cast to `i64`: the seek goes backwards, and headers already read are read
  again.  This is why C02, C04–C08 ask for `SizesFit`.  `C55_exact` says where the next header is looked for: `2^64` bytes before its place.
* D25 (C59) the image decoder copies the pixels of a compressed image in the order of the tiles: tiles that are not runs of rows
  scramble the image. `C59_exact` and `C59_order` say how: the samples are those of the pixels in the order of the tiles, a permutation
  that is the identity exactly when the tiles are runs of the image.
* D26 (C26) `Vec::with_capacity` of a huge TFIELDS or ZNAXIS panics in all builds; in checked builds the default of THEAP, the bits of
  a row, and (C22) products of axes of which a later one is 0 overflow.
* D27 (C38) TFIELDS = 0: `next` panics in all builds.
* D28 (C40, C41) RICE: `lastpix + diff` overflows in checked builds for legal streams (differences wrap around 2^32 by design).
* D29 (C61) a data unit read to its end, then opened again and read: the reader goes past the data unit, and the next HDU panics in checked
  builds (builds without overflow checks find it: the offset wraps to the right one).
* D30 (C62) `bytes()` of a binary table starts where the reader stands but counts from the start of the table: called after a value has been
  read it skips bytes, and runs into what follows the table. `C62_exact` says which bytes it gives after any calls.
* D31 (C64) a file of 36736 bytes on which the iterator never ends, in all builds: its headers announce sizes whose skipping wraps around
  2^64 and goes back (a consequence of D24).
* D32 (C63) of a gzip file with several members only the first is read, without an error (`C63_exact`; the right file is read exactly if the others are empty, `C63_iff`).
* D33 (C65) a keyword without a value is treated like a missing keyword by `get_parsed` and by `Option` fields, but it is an error for a
  field with `#[serde(default)]`: an image with a blank `BZERO` is refused by the image decoder.
* D34 (C66) columns whose TFORM is unknown are dropped from the table and the following columns are renumbered, so that
  `find_field_by_ttype` and the row fields disagree with the numbers in the header; names are compared with case, where the FITS
  standard recommends without. `C66_exact` and `C66_find` say which columns are left and what a name finds among them,
  `C66_ascii_exact` which are left in ASCII tables.
* D35 (C70) the iterators over pixels use `.ok()` on the result of a read (src/hdu/data/iter.rs:121): a failing read ends the
  iteration, as if the data were over, instead of reporting the error.  So do the iterators over the values and the rows of
  binary tables (an example of C93).
* D36 (C77) when the tile of a row cannot be decompressed or reached, `next` returns `None` after `remaining_pixels` has been set
  (src/hdu/data/bintable/tile_compressed/pixels.rs:197-199, 240): the following calls return the pixels of the buffer as it was
  left, one tile's worth of them: those of the tile before, but for what the failed decoder had put at the beginning.
* D37 (C77) when a 64-bit array descriptor points beyond what can be reached, the seek fails after the descriptor has been
  counted (src/hdu/data/bintable/data.rs:834-838): `None` is returned, and the next call goes on with the bytes that follow as if
  they were the descriptor of the same column.
* D38 (C78) RICE streams are decoded as 32-bit integers whatever BYTEPIX (src/hdu/header/extension/bintable.rs:250-253,
  pixels.rs:228-235): those written with BYTEPIX 1 or 2 give wrong pixels.
* D39 (C78) GZIP tiles are read as four bytes per pixel (pixels.rs:92-97, 217-226): the tiles of 8- and 16-bit images, which hold one or
  two bytes per pixel in the FITS standard, end the iteration or give wrong pixels.
* D40 (C83, `C83_selection_needed`) `select_fields` in the middle of a row does not reset the current column
  (src/hdu/data/bintable/data.rs:255-287): when fewer columns are selected than have been read, the next call of `next` panics.
* D41 (C83, `C83_raw_needed`) `raw_bytes` on a data unit that is truncated panics (src/hdu/data/image.rs:91-107,
  src/hdu/data/bintable/data.rs:165-173): the slice is taken without a check.
* D42 (C83, `C83_empty_rows_needed`) without overflow checks, a TFORM count chosen so that the bits of a row overflow to 0 passes the
  comparison with NAXIS1 = 0 (src/hdu/header/extension/bintable.rs:346-470), and iterating divides by zero.
* D43 (C84, `C84_scale_needed`, `C84_open_iff`) `get_data` on a compressed image of floats without columns `ZSCALE` and `ZZERO` panics
  (src/hdu/data/bintable/tile_compressed/mod.rs:167-249), although the convention allows such images (unquantized floats, or the keywords `ZSCALE` and `ZZERO` in the header).
* D44 (C84, `C84_tiles_needed`, `C84_no_pixel`) a tile size of 0 in the header is accepted; the first pixel then panics on an index out of bounds.
* D45 (C86) an error of kind `UnexpectedEof` returned by the source in the fill after a data unit is taken for the end of the file
  (src/async_fits.rs:75-87), as is a file that really ends there: the HDUs that follow are not given and no error is reported.
* D46 (C88) the count of the bytes of the data unit still to be read is not reset when they have been skipped (src/async_fits.rs:56-66): polling
  the stream of HDUs again after None tries to skip them once more and gives an error "The file has reached EOF" (and None from then on).
* D47 (C89) an error does not end the asynchronous stream of values (src/hdu/data/stream.rs:71-81): on a data unit that is cut, a loop that
  goes on after errors gets the same error for ever.
* D48 (C94) the streams of bytes of tables have a buffer of 8192 bytes of their own, which takes from the reader as much as the reader
  gives (src/hdu/data/asciitable.rs:23, src/hdu/data/bintable/data.rs:190-191), and is lost when the stream is dropped: where a second
  `get_data` on the same HDU begins depends on the kind of reader, the size of its buffer and the operating system.
* D49 (C61, `C61_fails_release`) in release builds, a compressed image with a damaged 64-bit descriptor: the reader is left where the
  descriptor points to when the decompression fails, and opening the image again and going to a row moves it further, until it is more
  than 2^63 bytes after the next HDU; asking for that HDU then gives an error instead of the HDU.
* D50 (C97, `C97_fails`, `C97_never`, `C97_exact`) `It::bytes` (src/hdu/data/iter.rs:60-88) gives all the bytes under the cursor, that is the whole
  file with its headers, whatever image the iterator is over: never the bytes of the pixels.  `raw_bytes` of the image data (C32) gives those.
* D51 (C99, `C99_fails`, `C99_shifted`, `C99_between`, `C99_exact`, `C99_calls`) `It::next` (src/hdu/data/iter.rs:114-123) counts a read that fails as a pixel, and
  the bytes that it has taken are lost. A program that goes on after `None` gets the pixels at later places than they have, or, if the read failed
  in the middle of a pixel, values made of the bytes of two pixels; so does `read_value`, which moves from where the iterator takes itself to be.
* D52 (C100, `C100_fails`, `C100_between`, `C100_exact`) a value whose read fails in an asynchronous stream (src/hdu/data/stream.rs:57-263) loses the
  bytes already read: the values given after the error are made of the bytes of two values, and at the end bytes after the data unit are read.
* D53 (C101, `C101_fails`, `C101_exact`, `C101_iff`) `GzReader::new` rewinds a source that is not compressed to its beginning (src/gz.rs:114), not
  to where it was given: a plain file that follows other bytes (C81) cannot be read through it, while a compressed one can.
* D54 (C105, `C105_fails`, `C105_tile_fails`) The RICE decoder keeps the number of pixels of a tile in an `i32` (src/hdu/data/bintable/tile_compressed/rice.rs:71,
  pixels.rs:223-226).  From `2^31` pixels on (ZTILEn, a buffer of 8 GiB) it is negative: the end of a block comes before its beginning, and the
  test `i == imax` (rice.rs:236) is never true, so that the loop turns for ever instead of returning an error
  (witness: a file of 5774 bytes, whose first pixel is never given).

### Other remarks made while reading (no theorem, or only part of one)

* Cards: a value beginning with T or F is a logical whatever follows; `inf`, `infinity`, `nan` with a sign are accepted as reals; an
  unterminated string `'ab''` is accepted as `ab`; bytes 8–9 of XTENSION and byte 8 of HIERARCH records are not looked at; the comment of an
  undefined value is lost; commentary records between a continued string and its CONTINUE do not end the continuation.
* Text: commentary records replace each byte that is not printable ASCII by U+FFFD, values each character or ill-formed sequence (C85);
  HIERARCH keywords keep characters outside ASCII.
* TFORM: counts of 2^64 or more are read as 1; the count of P and Q is ignored.
* ZCMPTYPE: PLIO_1 is misspelt as PLI0_1 (not supported anyway). 
* Tables: an X column followed by another column panics in checked builds at the last row, and gives wrong values in release builds.
  An empty table with a selection at an offset reads
  outside and underflows.  Arrays of X read n bytes for n bits.  Offsets of Q descriptors can overflow.
* RICE: the number of pixels is truncated to 32 bits; a read whose buffer length is not a multiple of 4 panics; a run of 2^28 zero bytes overflows the bit counter in checked builds; the result is written with
  the byte order of the machine and read as little-endian.
* Tiles of 0 pixels panic.
* Dithering (unreachable because of D4): the sequence restarts at 0 instead of at the offset prescribed; a negative ZDITHER0
  overflows in checked builds.
* README describes cubes that the image decoder rejects.
