{"id": "C01", "title": "Iterating a well-formed file returns every HDU, once, in order", "statement": "If a file is the concatenation of a primary HDU and any number of extension HDUs, each made of 80-byte header records ending with END, padded to 2880 bytes, followed by a data unit of the size announced by the header, padded to 2880 bytes, then successive calls of the HDU iterator return exactly those HDUs in file order (kind, header records, size and byte offset of the data unit), and then None.", "quantifier": "every number of HDUs, every header content accepted by the header parsers, every data content", "why_tests_cant": "the chain of offsets depends on every earlier header and size; tests only walk a handful of sample files", "anchors": ["src/fits.rs::Fits::next", "src/fits.rs::Fits::consume_until_next_hdu", "src/fits.rs::HDU::new", "src/hdu/mod.rs::HDU::new_primary", "src/hdu/mod.rs::HDU::new_xtension"]}
{"id": "C02", "title": "The next HDU does not depend on how much of the current data unit was read", "statement": "After an HDU has been returned, whatever part of its data unit the caller has read (any reader position from the start to the end of the data unit), the next call of the HDU iterator returns the same result as if nothing had been read, without panicking.", "quantifier": "every file, every HDU reached, every number of data bytes consumed between two calls", "why_tests_cant": "the number of interleavings of partial reads and iteration is unbounded", "anchors": ["src/fits.rs::Fits::consume_until_next_hdu", "src/fits.rs::Fits::next"]}
{"id": "C03", "title": "After an error the HDU iterator is finished", "statement": "Once the HDU iterator has returned an error, every later call returns None and leaves the reader untouched; nothing after a malformed header is ever reported as an HDU.", "quantifier": "every byte sequence, every history of calls", "why_tests_cant": "it must hold after every possible error position and any number of later calls", "anchors": ["src/fits.rs::Fits::next"]}
{"id": "C04", "title": "Clean end of file is None, a truncated header is an error", "statement": "After an HDU, the iterator returns None exactly when fewer than 80 bytes remain from the start of the next HDU (in particular at end of file, and when the final padding is absent); if at least one more record is there but no END record is found, it returns an I/O unexpected-EOF error.", "quantifier": "every file content and every truncation point", "why_tests_cant": "every possible truncation point of every file must be classified", "anchors": ["src/fits.rs::Fits::next", "src/hdu/mod.rs::consume_cards", "src/hdu/header/mod.rs::consume_next_card"]}
{"id": "C05", "title": "Calling the HDU iterator again after None is harmless", "statement": "If the HDU iterator has returned None at end of file, calling it again returns None again and does not panic.", "quantifier": "every file, every number of further calls, with and without overflow checks", "why_tests_cant": "tests use `while let Some` loops and never call the iterator after None", "anchors": ["src/fits.rs::Fits::next", "src/fits.rs::Fits::consume_until_next_hdu"]}
{"id": "C06", "title": "Data units start on 2880-byte boundaries and never overlap", "statement": "Every data unit offset reported by the iterator over a file read from its beginning is a multiple of 2880, and each HDU's header starts at the end of the previous data unit rounded up to 2880, so reported data units are disjoint and in increasing order.", "quantifier": "every byte sequence (well-formed or not) and every history of iterator calls and data reads within the data unit", "why_tests_cant": "it is an invariant over unbounded histories", "anchors": ["src/fits.rs::HDU::new", "src/fits.rs::Fits::next"]}
{"id": "C07", "title": "What is accepted as primary header and as extension header", "statement": "The first header is accepted only if its first record is SIMPLE with logical value true; a later header is accepted only if its first record is XTENSION with value IMAGE, IUEIMAGE, TABLE or BINTABLE, and the HDU kind returned matches that value. Otherwise an error is returned.", "quantifier": "every sequence of header records", "why_tests_cant": "the space of first records is 256^80", "anchors": ["src/hdu/mod.rs::HDU::new_primary", "src/hdu/mod.rs::HDU::new_xtension", "src/card.rs::parse_extension"]}
{"id": "C08", "title": "Every record up to END is kept, in order", "statement": "The cards of a returned header are in one-to-one correspondence, in order, with the 80-byte records of the header up to and including the first END record; a record that cannot be parsed is kept as an undefined card holding its text.", "quantifier": "every byte sequence", "why_tests_cant": "tests check a few headers, not that no record can be dropped or merged whatever its bytes", "anchors": ["src/hdu/mod.rs::consume_cards", "src/hdu/header/mod.rs::Header::cards"]}
{"id": "C09", "title": "Parsing a card never panics", "statement": "Converting any 80 bytes to a Card returns a card or an error, and never panics.", "quantifier": "all 256^80 records", "why_tests_cant": "the domain cannot be enumerated", "anchors": ["src/card.rs::TryFrom<&CardBuf> for Card", "src/card.rs::parse_string", "src/card.rs::parse_extension", "src/card.rs::split_value_and_comment"]}
{"id": "C10", "title": "String values survive quoting", "statement": "A string of printable ASCII characters written in a value record as FITS prescribes (enclosed in quotes, inner quotes doubled, optional blanks, slash and comment after it) is read back as the same string without its trailing blanks (one blank if it was all blanks, empty if it was empty), and the comment is read back verbatim without trailing blanks.", "quantifier": "all printable strings that fit, containing any quotes and slashes, all paddings, all comments", "why_tests_cant": "quote and slash interplay is unbounded in depth", "anchors": ["src/card.rs::split_value_and_comment", "src/card.rs::parse_string", "src/card.rs::parse_value"]}
{"id": "C11", "title": "Integers survive", "statement": "Every 64-bit signed integer written in decimal in a value record, with or without leading blanks, plus sign, leading zeros and comment, is read back as exactly that integer; a decimal integer outside the 64-bit range is never read as an integer.", "quantifier": "all integers, all widths and paddings", "why_tests_cant": "2^64 values times the layouts", "anchors": ["src/card.rs::parse_number", "src/card.rs::parse_value"]}
{"id": "C12", "title": "FORTRAN D exponents read like E exponents", "statement": "A real number written with exponent letter D denotes the same value as with exponent letter E; a text that is not a number is returned as invalid, never as a wrong number.", "quantifier": "all numerals of the FITS real syntax", "why_tests_cant": "infinitely many numerals", "anchors": ["src/card.rs::parse_number"]}
{"id": "C13", "title": "Logical and blank values", "statement": "A value field T or F (followed by blanks or a comment) is read as the logical true or false with that comment, and a value field consisting only of blanks is read as undefined.", "quantifier": "all positions in the value field and all comments", "why_tests_cant": "positions and comments are unbounded in combination", "anchors": ["src/card.rs::parse_value"]}
{"id": "C14", "title": "Commentary text is kept", "statement": "The text of a COMMENT, HISTORY or blank-keyword record is returned with trailing blanks removed, each printable ASCII byte unchanged and every other byte replaced by U+FFFD; a blank record is a Space card.", "quantifier": "all 72-byte texts", "why_tests_cant": "256^72 texts", "anchors": ["src/card.rs::parse_comment_text", "src/card.rs::parse_empty_keyword_card"]}
{"id": "C15", "title": "HIERARCH keywords", "statement": "A HIERARCH record whose tokens before the first '=' are t1 ... tn is read as a value named t1.\u2026.tn with the value of the rest of the record; without '=' or without token it is an error.", "quantifier": "all token lists and separators that fit, all values", "why_tests_cant": "unbounded token structure", "anchors": ["src/card.rs::parse_hierarch"]}
{"id": "C16", "title": "Slashes and quotes are classified correctly (no internal failure)", "statement": "Splitting any value field into value and comment never reaches the code's unreachable states, a comment is reported exactly when there is a slash outside quotes, and the comment is what follows the first such slash.", "quantifier": "all byte strings of any length", "why_tests_cant": "the automaton must be right for every byte string", "anchors": ["src/card.rs::split_value_and_comment"]}
{"id": "C17", "title": "Lookup returns the last value record; keywords are listed once, in order of first appearance", "statement": "For every header, get(key) is the value of the last value/HIERARCH/XTENSION record with that name (extended by its CONTINUE records), None if there is none, and keywords() lists each such name exactly once in order of first appearance.", "quantifier": "all card sequences, all keys", "why_tests_cant": "all interleavings of duplicate keywords", "anchors": ["src/hdu/header/mod.rs::process_cards", "src/hdu/header/mod.rs::ValueMap::get", "src/hdu/header/mod.rs::ValueMap::keywords"]}
{"id": "C18", "title": "Long strings are reassembled", "statement": "A string cut into pieces, written as a first value record whose string ends with '&' and CONTINUE records whose strings end with '&' except the last, is returned by get as the concatenation of the pieces.", "quantifier": "all numbers of pieces, all pieces, all positions in a header", "why_tests_cant": "the number of CONTINUE records is unbounded", "anchors": ["src/hdu/header/mod.rs::process_cards", "src/card.rs::Value::append", "src/card.rs::append_string"]}
{"id": "C19", "title": "Processing a header never panics; orphan CONTINUE records change nothing", "statement": "For every header read from bytes, building the keyword map never panics and always succeeds; CONTINUE records not following a continued string leave the map unchanged.", "quantifier": "all card sequences produced by reading bytes", "why_tests_cant": "unbounded card sequences", "anchors": ["src/hdu/header/mod.rs::process_cards", "src/card.rs::Value::append"]}
{"id": "C20", "title": "Units in comments", "statement": "For a value record with comment '/ [unit] text', unit() returns the text between the first '[' and the following ']'.", "quantifier": "all units and comments", "why_tests_cant": "all texts", "anchors": ["src/card.rs::parse_unit", "src/card.rs::Value::unit"]}
{"id": "C21", "title": "Typed access", "statement": "get_parsed to an unsigned or signed integer type succeeds exactly for integer values in range and returns that integer; to Option it returns None exactly for missing or blank values; to Bitpix exactly for 8, 16, 32, 64, -32, -64.", "quantifier": "all header contents, all keys, all integers", "why_tests_cant": "all 2^64 values and all value kinds", "anchors": ["src/hdu/header/mod.rs::ValueMap::get_parsed", "src/card.rs::Deserializer for &Value"]}
{"id": "C22", "title": "Data size of an image", "statement": "For an image HDU the data unit size is |BITPIX|/8 times the product of the NAXISn (0 when NAXIS = 0), for all headers where the products of the leading axes and the size fit in 64 bits (in builds without overflow checks: where the size fits); parsing succeeds exactly when BITPIX, NAXIS and all NAXISn are present and legal.", "quantifier": "all headers", "why_tests_cant": "all dimensions", "anchors": ["src/hdu/header/extension/image.rs::Image::parse", "src/hdu/header/extension/image.rs::Image::get_num_bytes_data_block"]}
{"id": "C23", "title": "Data size of tables", "statement": "For an ASCII table the data unit size is NAXIS1*NAXIS2, for a binary table NAXIS1*NAXIS2+PCOUNT, for all headers where this fits in 64 bits; a table header is accepted only with BITPIX=8, NAXIS=2, GCOUNT=1 (and PCOUNT=0 for ASCII tables).", "quantifier": "all headers", "why_tests_cant": "all dimensions", "anchors": ["src/hdu/header/extension/asciitable.rs::AsciiTable::parse", "src/hdu/header/extension/bintable.rs::BinTable::parse"]}
{"id": "C24", "title": "Row width of a binary table agrees with its columns", "statement": "A binary table header is accepted exactly when NAXIS1 is the sum of the byte widths of its columns as defined by the FITS standard (bit columns rounded up to whole bytes), the mandatory keywords being legal; otherwise it is rejected with an error.", "quantifier": "all column lists", "why_tests_cant": "all TFORM combinations", "anchors": ["src/hdu/header/extension/bintable.rs::BinTable::parse", "src/hdu/header/extension/bintable.rs::TFormType::num_bits_field"]}
{"id": "C25", "title": "TFORM codes are read correctly", "statement": "A binary table TFORM written as optional repeat count and type letter (with element letter for P and Q) is decoded to that count (1 if absent) and type; an ASCII table TFORM Aw, Iw, Fw.d, Ew.d, Dw.d is decoded to its letter, w and d.", "quantifier": "all counts, widths, letters", "why_tests_cant": "infinitely many codes", "anchors": ["src/hdu/header/extension/bintable.rs::BinTable::parse", "src/hdu/header/extension/asciitable.rs::TFormAsciiTable::deserialize"]}
{"id": "C26", "title": "Parsing a header never panics", "statement": "Parsing the mandatory keywords of an image, ASCII table or binary table header returns a value or an error and never panics, whatever the header contains.", "quantifier": "all keyword maps", "why_tests_cant": "all header contents including hostile ones", "anchors": ["src/hdu/header/extension/image.rs::Image::parse", "src/hdu/header/extension/asciitable.rs::AsciiTable::parse", "src/hdu/header/extension/bintable.rs::BinTable::parse"]}
{"id": "C27", "title": "Tile compressed images are recognised", "statement": "A binary table header is treated as a tile compressed image exactly when ZCMPTYPE is GZIP_1, GZIP_2, RICE_1 or RICE_ONE, ZBITPIX is legal and not 64, ZNAXIS and all ZNAXISn are present and a COMPRESSED_DATA or GZIP_COMPRESSED_DATA column exists; tile sizes default to one image row.", "quantifier": "all headers", "why_tests_cant": "all combinations of Z keywords", "anchors": ["src/hdu/header/extension/bintable.rs::BinTable::parse"]}
{"id": "C28", "title": "The quantization method keyword is honoured", "statement": "When ZQUANTIZ is NO_DITHER, SUBTRACTIVE_DITHER_1 or SUBTRACTIVE_DITHER_2, the parsed header records that method.", "quantifier": "all headers with such a keyword", "why_tests_cant": "needs the semantics of the deserializer for every value kind", "anchors": ["src/hdu/header/extension/bintable.rs::BinTable::parse", "src/hdu/header/extension/bintable.rs::ZQuantiz", "src/card.rs::Deserializer for &Value"]}
{"id": "C29", "title": "Image pixels are the big-endian decoding of the data unit", "statement": "For a complete file, iterating the pixels of an image yields exactly the number of pixels announced by the header, pixel i being the big-endian value at bytes [i*size,(i+1)*size) of the data unit, and never reads outside the data unit.", "quantifier": "all images of all six pixel types, all contents", "why_tests_cant": "all sizes and contents", "anchors": ["src/hdu/data/iter.rs::It::next", "src/hdu/data/image.rs::ImageData::new"]}
{"id": "C30", "title": "Random access to pixels", "statement": "For a complete file, in any sequence of next and read_value calls on a pixel iterator, read_value(i) returns pixel i (None when i is out of range), and next returns the pixel following the last one returned.", "quantifier": "all sequences of operations, all indices", "why_tests_cant": "unbounded histories", "anchors": ["src/hdu/data/iter.rs::It::read_value", "src/hdu/data/iter.rs::It::next"]}
{"id": "C31", "title": "Pixels of a truncated image", "statement": "If the file ends inside the data unit of an image, the iterator yields exactly the pixels that are entirely in the file and then None, and never a partial or wrong pixel.", "quantifier": "all truncation points, all histories of next/read_value", "why_tests_cant": "every truncation point", "anchors": ["src/hdu/data/iter.rs::It::next", "src/hdu/data/iter.rs::It::read_value"]}
{"id": "C32", "title": "raw_bytes is the data unit", "statement": "For a complete in-memory file, raw_bytes of an image or table returns exactly the bytes of the data unit.", "quantifier": "all files and HDUs", "why_tests_cant": "all offsets and sizes", "anchors": ["src/hdu/data/image.rs::ImageData::raw_bytes", "src/hdu/data/bintable/data.rs::TableData::raw_bytes"]}
{"id": "C33", "title": "Scanning a binary table yields every cell once, in row-major order, from the right bytes", "statement": "For a complete binary table without variable-length arrays, iterating the table data yields for every row, every column and every repeat index exactly one value, in row, column, index order, decoded big-endian from byte row*NAXIS1 + (sum of the widths of the columns before) + index*size.", "quantifier": "all column lists (all types and repeat counts), all numbers of rows, all contents", "why_tests_cant": "all combinations of columns", "anchors": ["src/hdu/data/bintable/data.rs::TableData::next", "src/hdu/data/bintable/data.rs::TableData::seek_to_next_col"]}
{"id": "C34", "title": "Selecting columns is a projection", "statement": "Selecting a list of columns before iterating yields exactly the values of a full scan that belong to the selected columns, in row then column order.", "quantifier": "all tables, all column selections", "why_tests_cant": "exponentially many selections", "anchors": ["src/hdu/data/bintable/data.rs::TableData::select_fields", "src/hdu/data/bintable/data.rs::TableData::seek_to_next_col"]}
{"id": "C35", "title": "Seeking to a row", "statement": "After seek_to_row(r) at any moment of an iteration, the values returned next are those of row r and the following rows.", "quantifier": "all tables, all histories of next, select and seek calls", "why_tests_cant": "unbounded histories", "anchors": ["src/hdu/data/bintable/data.rs::TableData::seek_to_row", "src/hdu/data/bintable/data.rs::TableData::next"]}
{"id": "C36", "title": "Row iteration", "statement": "Iterating a binary table by rows yields exactly NAXIS2 rows, the i-th holding exactly the values of row i of the selected columns in order.", "quantifier": "all tables", "why_tests_cant": "all sizes", "anchors": ["src/hdu/data/bintable/row.rs::TableRowData::next"]}
{"id": "C37", "title": "Variable-length arrays", "statement": "For a variable-length array cell with descriptor (n, offset), the scan yields exactly the n elements found at heap offset `offset` (heap at THEAP), with indices 0..n-1, and then continues with the next cell of the main table.", "quantifier": "all descriptors within the heap, all element types, all tables", "why_tests_cant": "all layouts of heap and rows", "anchors": ["src/hdu/data/bintable/data.rs::TableData::jump_to_heap", "src/hdu/data/bintable/data.rs::TableData::jump_to_main_table", "src/hdu/data/bintable/data.rs::TableData::next"]}
{"id": "C38", "title": "Scanning a table never panics", "statement": "Iterating the data of an accepted binary table never panics, whatever the header and data bytes.", "quantifier": "all headers accepted, all data contents", "why_tests_cant": "all contents", "anchors": ["src/hdu/data/bintable/data.rs::TableData::next", "src/hdu/data/bintable/data.rs::TableData::seek_to_next_col", "src/hdu/data/bintable/data.rs::TableData::jump_to_heap"]}
{"id": "C39", "title": "Logical cells", "statement": "A logical ('L') cell is true exactly when its byte is 'T'.", "quantifier": "all byte values in all tables", "why_tests_cant": "needs the decoding of every byte in every position", "anchors": ["src/hdu/data/bintable/data.rs::TableData::next"]}
{"id": "C40", "title": "RICE decoding inverts RICE encoding", "statement": "For every list of 32-bit pixels, every block size and every choice of the split parameter per block permitted by the RICE_1 format, decoding the encoded bytes yields the original pixels.", "quantifier": "all pixel lists, all block sizes, all parameter choices", "why_tests_cant": "infinitely many streams", "anchors": ["src/hdu/data/bintable/tile_compressed/rice.rs::RICEDecoder"]}
{"id": "C41", "title": "RICE decoding never reads or indexes out of bounds", "statement": "On arbitrary compressed bytes, the RICE decoder either fills the output or reports an error; it never panics and never writes past the output.", "quantifier": "all byte strings, all output sizes and block sizes", "why_tests_cant": "all corrupted inputs", "anchors": ["src/hdu/data/bintable/tile_compressed/rice.rs::RICEDecoder"]}
{"id": "C42", "title": "RICE decoding does not depend on the size of the reads", "statement": "Reading the decoded bytes through any sequence of read calls with any buffer sizes gives the same bytes as one read of the whole tile.", "quantifier": "all chunkings", "why_tests_cant": "unbounded chunkings", "anchors": ["src/hdu/data/bintable/tile_compressed/rice.rs::Read for RICEDecoder"]}
{"id": "C43", "title": "GZIP_2 byte unshuffling", "statement": "For every tile of 8-, 16- and 32-bit integers and 32-bit floats, the pixels of a GZIP_2 tile are the pixels of the GZIP_1 tile whose bytes are shuffled by significance, until the iteration ends.", "quantifier": "all tiles, all pixel types", "why_tests_cant": "all tile sizes and contents", "anchors": ["src/hdu/data/bintable/tile_compressed/pixels.rs::Iterator for It"]}
{"id": "C44", "title": "Every pixel of a tile compressed image is returned once, in tile order", "statement": "Iterating a tile compressed image yields, tile after tile in row order of the table, the pixels of each tile in order, as many as the image has.", "quantifier": "all tile counts, sizes and image sizes (including sizes that are not multiples of the tile size)", "why_tests_cant": "all tilings", "anchors": ["src/hdu/data/bintable/tile_compressed/pixels.rs::It::new", "src/hdu/data/bintable/tile_compressed/pixels.rs::Iterator for It"]}
{"id": "C45", "title": "Each tile is decompressed from its own heap range", "statement": "The compressed bytes used for tile k are those of the heap described by row k of the compressed data column, and afterwards the reader is back at the start of row k+1.", "quantifier": "all tables, all descriptors", "why_tests_cant": "all layouts", "anchors": ["src/hdu/data/bintable/tile_compressed/pixels.rs::jump_to_location"]}
{"id": "C46", "title": "The dithering sequence is the Park-Miller sequence", "statement": "The random sequence used for subtractive dithering is seed_{k+1} = 16807*seed_k mod (2^31-1) from seed 1, its values lie in (0,1), and it has 10000 terms with final seed 1043618065, as the standard prescribes; lookups into it are always in bounds.", "quantifier": "every term of the sequence, every tile row and seed keyword", "why_tests_cant": "lookups must be in bounds for every row and pixel count", "anchors": ["src/hdu/data/bintable/tile_compressed/dithering.rs", "src/hdu/data/bintable/tile_compressed/mod.rs::Keywords::unquantize"]}
{"id": "C47", "title": "Skipping bytes in an asynchronous stream is exact", "statement": "Skipping n bytes of an asynchronous stream consumes exactly n bytes whatever the sizes of the buffers delivered by the reader, and fails exactly when fewer than n bytes remain.", "quantifier": "all chunkings of the stream and all n", "why_tests_cant": "all schedules of buffer sizes", "anchors": ["src/hdu/data/mod.rs::read_n_bytes_exact"]}
{"id": "C48", "title": "Asynchronous and synchronous reading agree", "statement": "On a reader that is always ready, the asynchronous HDU stream returns the same HDUs as the synchronous iterator for every well-formed file.", "quantifier": "all files, all chunkings", "why_tests_cant": "all files and buffer sizes", "anchors": ["src/async_fits.rs::AsyncFits::poll_next", "src/hdu/mod.rs::AsyncHDU::new_primary", "src/hdu/mod.rs::AsyncHDU::new_xtension"]}
{"id": "C49", "title": "Asynchronous pixels do not depend on the schedule", "statement": "The values produced by the asynchronous data streams are the same for every schedule of Pending and partial deliveries by the reader.", "quantifier": "all schedules", "why_tests_cant": "all interleavings of readiness", "anchors": ["src/hdu/data/stream.rs::St::poll_next"]}
{"id": "C50", "title": "Asynchronous HDUs do not depend on the schedule", "statement": "The HDUs produced by the asynchronous stream are the same for every schedule of Pending results of the reader.", "quantifier": "all schedules", "why_tests_cant": "all interleavings of readiness", "anchors": ["src/async_fits.rs::AsyncFits::poll_next"]}
{"id": "C51", "title": "The same files are accepted synchronously and asynchronously", "statement": "The asynchronous stream accepts a primary header exactly when the synchronous iterator does.", "quantifier": "all header bytes", "why_tests_cant": "all first records", "anchors": ["src/hdu/mod.rs::AsyncHDU::new_primary", "src/hdu/mod.rs::HDU::new_primary"]}
{"id": "C52", "title": "RGB planes become interleaved pixels", "statement": "Decoding a W x H x 3 image fills the output buffer so that channel c of pixel i is value c*W*H+i of the data unit; gray images are copied in order, and gray values are replicated to three channels in the splat mode.", "quantifier": "all sizes, all contents", "why_tests_cant": "all sizes", "anchors": ["src/image_integration.rs::write_rgb", "src/image_integration.rs::write_luma", "src/image_integration.rs::write_splat"]}
{"id": "C53", "title": "Colour type and buffer size agree with the data", "statement": "For every accepted image the number of values in the HDU is width*height*planes, with one plane for gray and three for colour images, and the reported total number of bytes is width*height*channels*bytes per sample for the reported colour type, which has as many channels as planes or shows a gray image in three equal channels; other shapes are rejected with an error.", "quantifier": "all shapes and pixel types", "why_tests_cant": "all dimensions", "anchors": ["src/image_integration.rs::is_rgb", "src/image_integration.rs::color_type", "src/image_integration.rs::FitsDecoder::new"]}
{"id": "C54", "title": "get_data starts at the start of the data unit", "statement": "Each call of get_data on the current HDU gives access to the data unit from its first byte, whatever was read before.", "quantifier": "all histories of get_data calls and reads on the current HDU", "why_tests_cant": "unbounded histories", "anchors": ["src/fits.rs::Fits::get_data", "src/hdu/data/mod.rs::FitsRead::read_data_unit"]}
{"id": "C55", "title": "Files announcing huge data units", "statement": "A header that announces a data unit of 2^63 bytes or more never makes the HDU iterator go backwards: the header of the following HDU is searched at or after the end of the header read last.", "quantifier": "all files, all histories of calls", "why_tests_cant": "needs all sizes up to 2^64; the case is a crafted header", "anchors": ["src/fits.rs::Fits::consume_until_next_hdu"]}
{"id": "C56", "title": "get_data on an HDU returned earlier", "statement": "get_data on an HDU that the iterator returned earlier gives access to the data unit of that HDU, not to that of the HDU returned last.", "quantifier": "all files, all HDUs returned so far", "why_tests_cant": "all histories; the tests only use the current HDU", "anchors": ["src/fits.rs::Fits::get_data", "src/hdu/data/image.rs::ImageData::raw_bytes"]}
{"id": "C57", "title": "Reading values between asynchronous HDUs does not disturb the stream", "statement": "A caller that takes any number of values (from none to all, or more) of each HDU of the asynchronous stream before asking for the next one gets all the HDUs of a well-formed file, in order.", "quantifier": "all well-formed files, all numbers of values taken from each HDU, all cuts of the file into buffers", "why_tests_cant": "all combinations of partial reads and buffer sizes", "anchors": ["src/async_fits.rs::AsyncFits::get_data", "src/async_fits.rs::AsyncFits::consume_until_next_hdu", "src/hdu/data/stream.rs::St::poll_next"]}
{"id": "C58", "title": "The decoder of images shows the first image of the file", "statement": "Decoding a well-formed file for the image crate uses the first HDU that is an image with a non-empty data unit or a tile-compressed image, whatever HDUs precede it, and fails with an error when there is none.", "quantifier": "all well-formed files", "why_tests_cant": "all sequences of HDUs", "anchors": ["src/image_integration.rs::FitsDecoder::new"]}
{"id": "C59", "title": "Compressed images are decoded like plain ones", "statement": "Decoding a tile-compressed image for the image crate puts in the buffer the same samples at the same places as decoding the image that was compressed, whatever the shape of the tiles.", "quantifier": "all images, all tilings", "why_tests_cant": "all shapes of images and tiles; the tests only look at the dimensions", "anchors": ["src/image_integration.rs::FitsDecoder::read_image", "src/hdu/data/bintable/tile_compressed/pixels.rs::It"]}
{"id": "C60", "title": "Builds with and without overflow checks agree", "statement": "Whatever a program does with a file (asking for HDUs, opening their data, iterating, seeking, selecting columns, reading rows, pixels of compressed images or raw bytes, in any order), what it sees in a build without overflow checks is what it sees in a build with overflow checks, up to the first panic of the latter. The same holds for the asynchronous streams and for the decoder of images.", "quantifier": "all files, all sequences of calls, all schedules of an asynchronous source", "why_tests_cant": "tests run in one build, on files where nothing overflows", "anchors": ["src/fits.rs::Fits", "src/hdu/data/iter.rs::It::read_value", "src/hdu/data/bintable/data.rs::TableData", "src/hdu/data/bintable/row.rs::TableRowData", "src/hdu/data/bintable/tile_compressed/pixels.rs", "src/async_fits.rs::AsyncFits", "src/image_integration.rs::FitsDecoder"]}
{"id": "C61", "title": "Using the data does not change which HDUs follow", "statement": "Whatever a program does with the data of the HDUs it gets (pixels in or out of order, values, rows, arrays, raw bytes, partly or not at all, any number of times), the HDUs that it sees afterwards are those that are returned when the data are not touched.", "quantifier": "all files, all sequences of calls", "why_tests_cant": "tests read the data of an HDU in one way, from start to end or not at all; here all interleavings of calls are covered", "anchors": ["src/fits.rs::Fits::next", "src/fits.rs::consume_until_next_hdu", "src/fits.rs::Fits::get_data", "src/hdu/data/bintable/data.rs::TableData", "src/hdu/data/iter.rs::It"]}
{"id": "C62", "title": "The bytes of tables", "statement": "get_data on an ASCII table, and bytes on a binary table, give the bytes of the data unit, respectively of the main table, one by one and in order, and then end; nothing else of the file is given.", "quantifier": "all files, all tables, all numbers of bytes asked for, all states of the table when bytes is called", "why_tests_cant": "all sizes with respect to the buffer, truncated files, and calls made after values have been read", "anchors": ["src/hdu/data/asciitable.rs::read_data_unit", "src/hdu/data/bintable/data.rs::TableData::bytes"]}
{"id": "C63", "title": "Files compressed as a whole", "statement": "FITSFile::open on a gzip file (any number of members, any optional header fields) opens the file that was compressed; a file that is not gzip is read as it is, from its start; a gzip file whose content does not agree with its CRC or length is not opened.", "quantifier": "all gzip files and all plain files, all contents, all header fields", "why_tests_cant": "tests open one compressed file made by one program; the optional fields, several members and damaged trailers are not covered", "anchors": ["src/gz.rs::GzReader::new", "src/file.rs::FITSFile::open"]}
{"id": "C64", "title": "Iterating over the HDUs ends", "statement": "A file of n bytes has at most n/2880 HDUs: among the first n/2880+1 calls of the iterator there is one that returns no HDU, whatever the bytes of the file.", "quantifier": "all files, in builds with and without overflow checks", "why_tests_cant": "non-termination needs a file made for it; no finite set of files excludes it", "anchors": ["src/fits.rs::Fits::next", "src/fits.rs::consume_until_next_hdu"]}
{"id": "C65", "title": "Structs filled from a header", "statement": "Deserialising a user's struct from the values of a header succeeds exactly if all its fields can be read; each field is what its type makes of the last record with its keyword, and a keyword that is missing or has no value gives what the struct prescribes for missing fields. The order of the records and other records do not matter, and the fields are those get_parsed gives one by one.", "quantifier": "all structs of plain, optional and defaulted fields, all headers", "why_tests_cant": "structs are written by users; the tests use a few of them on a few headers", "anchors": ["src/hdu/header/mod.rs::ValueMapDeserializer", "src/hdu/header/mod.rs::ValueMap::get_parsed", "src/card.rs::impl Deserializer for Value", "src/image_integration.rs::Scale"]}
{"id": "C66", "title": "Columns are numbered as in the header", "statement": "find_field_by_ttype gives the number of the first column whose TTYPE keyword has the given text, or None if there is none; the formats and positions listed for a table are those of the keywords with the same numbers.", "quantifier": "all accepted binary and ASCII tables, all names", "why_tests_cant": "the numbering depends on all the TFORM and TTYPE keywords together; tests have well-formed tables only", "anchors": ["src/hdu/header/extension/bintable.rs::BinTable::find_field_by_ttype", "src/hdu/header/extension/bintable.rs::BinTable::parse", "src/hdu/header/extension/asciitable.rs::AsciiTable::parse"]}
{"id": "C67", "title": "Joining cards by hand", "statement": "Card::append and Card::splice panic exactly if the first card is not a continued string value or the second is not a continuation; appending the continuations of a value one after the other gives the value that the header gives for its keyword.", "quantifier": "all cards and all sequences of cards", "why_tests_cant": "any number of continuations with any texts and comments", "anchors": ["src/card.rs::Card::append", "src/card.rs::Card::splice", "src/card.rs::Value::append"]}
{"id": "C68", "title": "History, keyword of a value, and position of the data", "statement": "history() lists the texts of the HISTORY records in order and nothing else; get_keyword gives the first keyword whose current value is the given one, or None; after any use of the iterator get_position_data_unit is the offset of the data unit of the last HDU returned.", "quantifier": "all headers, all values, all sequences of calls and reads on all files", "why_tests_cant": "the position depends on the whole history of calls, failed ones included", "anchors": ["src/hdu/header/mod.rs::Header::history", "src/hdu/header/mod.rs::ValueMap::get_keyword", "src/fits.rs::Fits::get_position_data_unit"]}
{"id": "C69", "title": "The kind of reader does not matter", "statement": "Any program that asks for HDUs, reads bytes and moves the reader gets the same results, up to and including the first call that fails or ends, from a BufReader with any buffer size on a file whose reads are short or interrupted in any way, from FITSFile, and from a Cursor, as from all the bytes at once.", "quantifier": "all files of less than 2^63 bytes, all buffer sizes, all sequences of short and interrupted reads, all programs that stay at positions below 2^63", "why_tests_cant": "short and interrupted reads depend on the operating system; buffer boundaries fall anywhere in records and values", "anchors": ["src/fits.rs::impl Read for Fits", "src/fits.rs::Fits::next", "src/gz.rs::impl Read for GzReader", "src/gz.rs::impl Seek for GzReader", "src/hdu/header/mod.rs::consume_next_card"]}
{"id": "C70", "title": "Failed reads are reported", "statement": "If a read of the file fails, a program that asks for HDUs, reads bytes or values and moves the reader gets the results it would have got without the failure, up to some call which reports an error: a failure is never taken for the end of the file or of the data, nor are wrong bytes delivered.", "quantifier": "all files of less than 2^63 bytes, all buffer sizes, all sequences of short, interrupted and failing reads, all programs that stay at positions below 2^63", "why_tests_cant": "read errors of the operating system can occur at any call and cannot be provoked at each of them", "anchors": ["src/fits.rs::Fits::next", "src/fits.rs::impl Read for Fits", "src/hdu/data/iter.rs::It::next", "src/hdu/header/mod.rs::consume_next_card", "src/gz.rs::impl Read for GzReader"]}
{"id": "C71", "title": "What is written is read back: images and ASCII tables", "statement": "A file with a primary image, image extensions and ASCII tables, whose headers hold any legal lines (integers, reals, strings, long strings, logical values, undefined values, HIERARCH, comments, history, blanks) in any layout, is read back as written: iterating over the HDUs, opening each data unit and asking for any number of its values gives the HDUs with their cards and the values of all their keywords, their dimensions, the place of their data, the pixels and bytes in order, None after the last value, and None after the last HDU.", "quantifier": "all numbers of HDUs, all legal headers and layouts, all sizes below 2^60 bytes, all numbers of values asked for, both build profiles", "why_tests_cant": "covers every legal file and every way of stopping in the middle of a data unit; tests hold a few files read in one way", "anchors": ["src/fits.rs::Fits::next", "src/fits.rs::Fits::get_data", "src/hdu/header/mod.rs::Header", "src/card.rs::Card", "src/hdu/data/iter.rs::It"]}
{"id": "C72", "title": "What is written is read back: binary tables", "statement": "The same holds of files that also have binary tables, with fixed columns and with columns of arrays whose values are in the heap, at any offset and possibly shared, after any gap: iterating over a table gives the values of its rows in order, with their column and their index.", "quantifier": "all numbers of HDUs, all legal headers and layouts, all types and repeat counts of columns, all arrays and descriptors (arrays of bits excepted), all rows, all heaps and gaps, all sizes below 2^60 bytes, all numbers of values asked for, both build profiles", "why_tests_cant": "covers every legal file and every combination of columns; tests hold a few files", "anchors": ["src/fits.rs::Fits::next", "src/fits.rs::Fits::get_data", "src/hdu/header/extension/bintable.rs::BinTable::parse", "src/hdu/data/bintable/data.rs::TableData::next"]}
{"id": "C73", "title": "Files cut short", "statement": "Iterating over a file cut after any number of bytes gives exactly the HDUs whose headers are complete, whatever is left of their data and however much of it the program reads, then one error if a part of a header is left (at least one record of it, or anything for the first header), then None.", "quantifier": "all well-formed files, all numbers of bytes left, all amounts of data read between the calls, both build profiles", "why_tests_cant": "a download or a copy can stop after any byte; tests cut a file at a few places", "anchors": ["src/fits.rs::Fits::next", "src/hdu/header/mod.rs::Header::parse", "src/hdu/mod.rs::HDU::new_xtension", "src/hdu/primary.rs::consume_next_card"]}
{"id": "C74", "title": "The command fits struct tells the structure of the file", "statement": "For a written file, whole or cut after any number of bytes, the command prints for every HDU whose header is complete, in order, its number, its kind, its dimensions (or the numbers of columns and rows), the offset and the size of its data as they are in the file; it succeeds exactly if no part of a header is left over, and otherwise reports an error after these lines.", "quantifier": "all written files (images, ASCII tables, binary tables), all numbers of bytes left, both build profiles", "why_tests_cant": "the output must be right for every file and every place where the file is cut; there are no tests of the command", "anchors": ["crates/cli/src/struct.rs::Struct::exec", "crates/cli/src/struct.rs::print_hdu_struct", "src/fits.rs::Fits::next"]}
{"id": "C75", "title": "Programs on truncated files", "statement": "Whatever a program sees of the beginning of a file (HDUs, pixels, values, rows, pixels of tiles, raw bytes) is what it would see of the whole file, up to the first call that fails or returns None; for the bytes of tables, as long as the program only reads on. No value is ever made up because a file ends early.", "quantifier": "all files, well-formed or not, all places where they are cut, all programs of calls, both build profiles, all decoders of GZIP that produce their output as the input comes", "why_tests_cant": "ranges over every damaged file, every cut and every sequence of calls; tests truncate a few files and read them in one way", "anchors": ["src/fits.rs::Fits::next", "src/fits.rs::Fits::get_data", "src/hdu/data/iter.rs::It::next", "src/hdu/data/bintable/data.rs::TableData::next", "src/hdu/data/bintable/row.rs::TableRowData::next", "src/hdu/data/bintable/tile_compressed/pixels.rs::It::next"]}
{"id": "C76", "title": "What is written is read back: compressed images", "statement": "The same holds of files that also have tile-compressed images (RICE, GZIP_1, GZIP_2): from the bytes of the file, with keywords in any legal layout, the table of tiles, descriptors and heap, iterating over the image gives the pixels of its tiles in order, integers as they are and floats scaled with the ZSCALE, ZZERO and ZBLANK of their tile, and the next HDU is found after it however many pixels have been read.", "quantifier": "all numbers of HDUs, all legal headers and layouts, all images and tiles, all RICE encodings of them and all gzip streams that decompress to them, all orders of columns, all sizes below 2^60 bytes, all numbers of pixels asked for, both build profiles", "why_tests_cant": "composes the header parser, the table reader, the decompressors and the iterator over HDUs for every legal file; tests hold a few compressed files and never read on after a part of one", "anchors": ["src/fits.rs::Fits::next", "src/fits.rs::Fits::get_data", "src/hdu/header/extension/bintable.rs::BinTable::parse", "src/hdu/data/bintable/tile_compressed/pixels.rs::It::next"]}
{"id": "C77", "title": "The end of an iteration is final", "statement": "Once an iteration over pixels, bytes, values or rows of a table, or pixels of tiles has returned None, every later call of next returns None, whatever the file holds and however short it is.", "quantifier": "all files below 2^60 bytes, damaged or truncated in any way, all HDUs of them, all selections of columns, seeks and other calls before the iteration, all numbers of calls, both build profiles", "why_tests_cant": "needs arbitrary damage: tests stop at the first None; loops that poll again, chained or flattened iterators, and counting adapters depend on what comes after it", "anchors": ["src/hdu/data/iter.rs::It::next", "src/hdu/data/bintable/data.rs::TableData::next", "src/hdu/data/bintable/data.rs::TableData::jump_to_heap", "src/hdu/data/bintable/row.rs::TableRowData::next", "src/hdu/data/bintable/tile_compressed/pixels.rs::It::next"]}
{"id": "C78", "title": "Compressed pixels of one or two bytes", "statement": "The pixels of a tile-compressed image are found whatever the width with which they have been compressed: with RICE the number of bytes given by the parameter BYTEPIX (1, 2 or 4; 4 when absent), with GZIP_1 and GZIP_2 the number of bytes of the integers of ZBITPIX.", "quantifier": "all files with a tile-compressed image of whole tiles, all pixels, widths, block sizes and ways of coding each block, all gzip decoders, both build profiles", "why_tests_cant": "needs every combination of pixel type, compression and width, with all pixel values and all encodings permitted by the format; the sample files of the repository cover a few", "anchors": ["src/hdu/header/extension/bintable.rs::BinTable (bytepix)", "src/hdu/data/bintable/tile_compressed/pixels.rs::It::next", "src/hdu/data/bintable/tile_compressed/rice.rs::RICEDecoder"]}
{"id": "C79", "title": "The HDUs do not depend on the data", "statement": "The HDUs that the iterator returns, and how the iteration ends, depend only on the records of the headers and on the size of the file: changing any bytes of the data units, or the bytes that fill headers and data units up to a block, changes neither the HDUs returned nor the result of the next call.", "quantifier": "all files below 2^63 bytes, damaged or not, all prefixes of an iteration with any readings of the data between two calls, all changes of the bytes of data units and fill, both build profiles", "why_tests_cant": "noninterference: it compares every pair of files that differ in the data, for instance data that look like a header, with END or XTENSION at the beginning of a block; tests compare a few files", "anchors": ["src/fits.rs::Fits::next", "src/fits.rs::Fits::consume_until_next_hdu", "src/hdu/header/mod.rs::Header::parse", "src/hdu/header/mod.rs::consume_next_card"]}
{"id": "C80", "title": "A written file is read back from an asynchronous source", "statement": "A file of images, ASCII tables, binary tables and compressed images, with any legal lines in the headers and in any layout, delivered by an asynchronous source that is always ready, is read back as written: a caller that takes any number of values of each HDU before it asks for the next sees the HDUs as written (cards, values of the keywords, description), the pixels of the images and the bytes of the tables in order, and then the end of the stream.", "quantifier": "all files of written HDUs below 2^63 bytes without bytes after the last block, all sizes of the buffers in which the source delivers them, all numbers of values taken from each HDU, both build profiles", "why_tests_cant": "needs all headers, pixel values, shapes, sequences of HDUs, places at which the buffers end (inside a record, a pixel, the fill) and numbers of values taken; tests use a few files and one buffer size", "anchors": ["src/async_fits.rs::AsyncFits::poll_next", "src/async_fits.rs::AsyncFits::consume_until_next_hdu", "src/async_fits.rs::AsyncFits::get_data", "src/hdu/data/stream.rs::St::poll_next", "src/hdu/mod.rs::AsyncHDU::new_xtension"]}
{"id": "C81", "title": "A file that begins after other bytes", "statement": "When a FITS file is part of a larger source (an archive, a stream with a preamble), an iterator made on a reader placed at its first byte reads it as if it were alone: the same HDUs, with the places of their data in the source, the same values of their data units, and then the end of the file.", "quantifier": "all bytes before the file, all files of written HDUs that C76 covers, together below 2^60 bytes, all numbers of values asked for in each HDU, both build profiles", "why_tests_cant": "tests open files at their beginning; any computation that takes a position in the source for an offset in the file, in headers, tables, heaps or tiles, shows only with bytes before it, and depends on their number", "anchors": ["src/fits.rs::Fits::from_reader", "src/fits.rs::Fits::consume_until_next_hdu", "src/fits.rs::Fits::next", "src/hdu/mod.rs::HDU::new_primary", "src/hdu/data/bintable/data.rs::TableData::jump_to_heap", "src/hdu/data/bintable/tile_compressed/pixels.rs::It::next"]}
{"id": "C82", "title": "Looking for a keyword in one record", "statement": "check_card_keyword returns the value of a record (string, integer, logical or blank, with any layout and comment) when it is asked for the keyword of that record, padded to eight bytes; asked for any other keyword it returns FailFindingKeyword; it never takes a commentary, END, CONTINUE, HIERARCH or XTENSION record for a value, and panics only where parsing the record does. The names of the kinds of extensions written by XtensionType::as_str are read back by from_str, which accepts nothing else but IUEIMAGE.", "quantifier": "all 80-byte records and all keywords; all values, layouts and comments of written records; all texts for the names of extensions", "why_tests_cant": "the only test looks for one string in one record; that no other record is ever mistaken for the one asked for is a statement on all pairs of records and keywords", "anchors": ["src/hdu/header/mod.rs: check_card_keyword", "src/hdu/header/extension/mod.rs: XtensionType::as_str, XtensionType::from_str", "src/card.rs: TryFrom<&CardBuf> for Card"]}
{"id": "C83", "title": "In builds without overflow checks, programs do not panic on damaged files", "statement": "On an arbitrary sequence of bytes (damaged, truncated, or not a FITS file at all), a program that asks for HDUs, opens their data, reads pixels, bytes, values or rows, reads pixels by index, seeks rows and selects columns, in any order, never panics in a build without overflow checks, unless one of its calls runs into one of these: a header record whose value is a lone quote; a header announcing more columns or axes than memory can hold; a binary table without columns or with empty rows; a selection of fewer columns than have been read in the current row; a compressed image whose header is not sound in the sense of C84; raw bytes asked for of a data unit that is not in the file. Each of these does cause a panic.", "quantifier": "all byte sequences, all finite sequences of calls on images, ASCII and binary tables and compressed images, all selections, rows and indices", "why_tests_cant": "a test reads a few files in a few orders; that there is no other cause of panics is a statement on all byte sequences and all programs", "anchors": ["src/fits.rs: Fits, Iterator for Fits, get_data", "src/hdu/data/bintable/data.rs: TableData::next, seek_to_row, select_fields, seek_to_next_col, jump_to_heap, raw_bytes", "src/hdu/data/bintable/row.rs: TableRowData", "src/hdu/data/iter.rs: It", "src/hdu/data/image.rs: ImageData::raw_bytes"]}
{"id": "C84", "title": "Compressed images do not panic on damaged contents", "statement": "A compressed image whose header is sound can be opened and its pixels asked for any number of times without panic, whatever the rows of its table, its heap and the decompressed bytes are, and wherever the file ends. Sound means: tiles that are not empty and fit in memory; one value per column; compressed data in a column of arrays; for floats, columns ZSCALE and ZZERO of floats and, if there is one, a column ZBLANK of integers; with overflow checks, moreover GZIP compression, 32-bit descriptors, and a moderate heap offset and dithering seed. Without overflow checks, opening a compressed image panics exactly when its pixels are floats and one of these two columns is missing or a tile does not fit in memory. An image with an empty tile size never gives a pixel.", "quantifier": "all files, all headers of compressed images, both kinds of builds, all decompressors, all numbers of calls", "why_tests_cant": "damaged tiles are of any content and length; a test tries a few; the absence of other causes of panics is about all of them", "anchors": ["src/hdu/data/bintable/tile_compressed/pixels.rs: It::new, Pixels::new, It::next, jump_to_location", "src/hdu/data/bintable/tile_compressed/mod.rs: F32Keywords::new, F64Keywords::new, unquantize", "src/hdu/data/bintable/tile_compressed/rice.rs: RICEDecoder::read", "src/hdu/data/bintable/row.rs: TableRowData::next"]}
{"id": "C85", "title": "Characters that are not printable ASCII never disturb the rest of a record", "statement": "Whatever bytes a quoted string, and the comment after it, are made of, a value, CONTINUE or HIERARCH record is read as a string: a text in UTF-8 is given character by character, printable ASCII characters as they are and each other character as one U+FFFD; for bytes that are not UTF-8 the printable characters are all kept, in order, and nothing else appears but U+FFFD, at most one for each other byte. The words of HIERARCH keywords in UTF-8 are kept as they are, and so are records without value indicator. Outside quotes such a character makes the record an error. A record is refused as not being UTF-8 exactly when the eight bytes of its keyword are not.", "quantifier": "all byte strings, layouts, comments and keywords", "why_tests_cant": "There are infinitely many texts and ill-formed byte sequences; tests try a few accented letters, and a decoder that swallows the quote after a truncated sequence passes them.", "anchors": ["src/card.rs: Card::try_from, split_value_and_comment, parse_string, parse_hierarch, parse_continuation", "src/hdu/header/mod.rs: check_card_keyword"]}
{"id": "C86", "title": "A failing asynchronous source is reported, not taken for a shorter or different file", "statement": "A program on an asynchronous file - any sequence of requests for the next HDU and for the next value of the last HDU - whose source fails at some point with an I/O error is told exactly what it would be told by any other source that began with the same events, up to the moment when an error is reported to it: it is never given an HDU or a value that the bytes delivered do not hold, nor the end of the file, before that. After an error of the stream of HDUs the stream gives None for ever, even if the source works again.", "quantifier": "all byte sources and schedules of Pending, chunks and failures, all continuations of the source, all kinds of errors, all programs, both kinds of builds", "why_tests_cant": "the failure may come at any byte and at any poll, and the comparison is with all the sources that go on otherwise; tests use sources that never fail", "anchors": ["src/async_fits.rs: AsyncFits::poll_next, consume_until_next_hdu", "src/hdu/mod.rs: AsyncHDU::new_primary, AsyncHDU::new_xtension", "src/hdu/data/stream.rs: St::poll_next", "src/hdu/data/mod.rs: AsyncDataBufRead::read_n_bytes_exact"]}
{"id": "C87", "title": "The world coordinate system of an HDU depends only on its own keywords", "statement": "A world coordinate system is found for an image or a (compressed image) binary table exactly if each field of its parameters can be read from the last record of the header with its keyword (or may be missing) and the crate wcs accepts them; it is then what that crate builds. Two headers, of images or of tables, with the same values for these keywords give the same one or none, whatever the other records are and in whatever order.", "quantifier": "all headers that parse, all sets of fields of any types, all constructors of coordinate systems", "why_tests_cant": "tests use a few headers of real files; the other records, their order and repeated keywords vary without bound", "anchors": ["src/wcs.rs: HDU::wcs, TryFrom for WCS", "src/hdu/header/mod.rs: IntoDeserializer for &ValueMap", "src/card.rs: Deserializer for &Value"]}
{"id": "C88", "title": "The end of the asynchronous stream of HDUs is final", "statement": "A program on an asynchronous file whose source does not fail, that has been told None by the stream of HDUs, is told None each time it polls the stream again, whatever values of the last HDU it asks for in between.", "quantifier": "all byte sources and schedules of Pending and chunks, all programs before and after the first None, both kinds of builds", "why_tests_cant": "it ranges over all files, schedules and programs; tests stop at the first None", "anchors": ["src/async_fits.rs: AsyncFits::poll_next, consume_until_next_hdu", "src/hdu/data/stream.rs: St::poll_next"]}
{"id": "C89", "title": "Iterating over the values of an asynchronous data unit ends", "statement": "The stream of the values of an image read asynchronously gives None after finitely many polls, whatever the bytes of the source are and whether or not the data unit is complete, so that a loop over it ends.", "quantifier": "all pixel types and sizes of data units, all byte sources and schedules of Pending and chunks, both kinds of builds", "why_tests_cant": "termination is not observable by a test, and the data unit may be cut after any byte", "anchors": ["src/hdu/data/stream.rs: St::poll_next", "src/async_fits.rs: AsyncFits::get_data"]}
{"id": "C90", "title": "A cut file is noticed by the asynchronous stream of HDUs", "statement": "If a file that consists of HDUs is cut after any number of bytes and what is left is read from an asynchronous source, the stream gives exactly the HDUs whose headers are complete, in order, and then an error exactly if bytes of a header or of a data unit are missing (not if only the fill after a data unit is missing, or whole HDUs), and nothing after it.", "quantifier": "all files that consist of HDUs, all positions of the cut, all ways the source cuts the bytes into buffers, both kinds of builds", "why_tests_cant": "the cut may be at any byte of any file and the buffers of any sizes", "anchors": ["src/async_fits.rs: AsyncFits::poll_next, consume_until_next_hdu", "src/hdu/mod.rs: AsyncHDU::new_primary, AsyncHDU::new_xtension"]}
{"id": "C91", "title": "In builds without overflow checks, asynchronous programs do not panic on damaged files", "statement": "On an arbitrary sequence of bytes (damaged, truncated, or not a FITS file at all) delivered by an asynchronous source in any pieces, with any delays and failures, a program that polls for HDUs and for their values, in any order, never panics in a build without overflow checks, unless the bytes hold somewhere a header record whose value is a lone quote, or a header announcing more columns or axes than memory can hold. Each of these does cause a panic.", "quantifier": "all byte sequences, all schedules of Pending, chunks and failures, all programs", "why_tests_cant": "the bytes, the schedule and the program are arbitrary; a fuzzer samples them", "anchors": ["src/async_fits.rs: AsyncFits::poll_next, consume_until_next_hdu", "src/hdu/mod.rs: consume_cards_async, AsyncHDU::new_primary, AsyncHDU::new_xtension", "src/hdu/data/mod.rs: AsyncDataBufRead::read_n_bytes_exact", "src/hdu/data/stream.rs: St::poll_next"]}
{"id": "C92", "title": "The layout of the data depends only on the keywords that describe it", "statement": "Two headers of images that give the same values to BITPIX, NAXIS and one NAXISn for each axis (to the last record of each of these keywords, whatever its comment is) are both accepted, with the same type and axes of the data, or both refused with the same error, whatever the other records and the order of the records are. The same holds of ASCII tables and of binary tables (with or without a compressed image) for their own keywords, if not more than one parameter of the compression is called BLOCKSIZE. Records of comments, history or blanks change nothing, wherever they are put, even between a long string and its continuation.", "quantifier": "all pairs of headers, of any length and with any records", "why_tests_cant": "the other records, their order and the numbers of axes and columns are arbitrary", "anchors": ["src/hdu/header/extension/image.rs: Image::parse", "src/hdu/header/extension/asciitable.rs: AsciiTable::parse", "src/hdu/header/extension/bintable.rs: BinTable::parse", "src/hdu/header/mod.rs: process_cards, Header::parse"]}
{"id": "C93", "title": "The data of images and binary tables do not depend on the kind of reader", "statement": "A program that asks for HDUs, opens images and binary tables, and asks for pixels, values, single pixels, rows, selected columns and given rows, in any order, sees the same through a BufReader with any buffer size on a file whose reads are short or interrupted in any way, through FITSFile and through a Cursor as from all the bytes at once, up to and including the first call in which a read or a move of the reader fails. If a read of the file fails, the program sees the same up to some call, and that call gives an error or says that there is nothing more: no wrong value is ever given.", "quantifier": "all files of less than 2^63 bytes, all buffer sizes, all sequences of short, interrupted and failing reads, all programs that stay at positions below 2^63 (any position for a Cursor)", "why_tests_cant": "short, interrupted and failing reads depend on the operating system; buffer boundaries fall anywhere in values, descriptors and arrays; the sequence of calls is arbitrary", "anchors": ["src/fits.rs: Fits::next, Fits::get_data", "src/hdu/data/iter.rs: It::next, It::read_value", "src/hdu/data/bintable/data.rs: TableData::next, seek_to_row, jump_to_heap, jump_to_main_table, select_fields", "src/hdu/data/bintable/row.rs: TableRowData::next", "src/gz.rs: impl Read for GzReader, impl Seek for GzReader"]}
{"id": "C94", "title": "The bytes of tables do not depend on the kind of reader", "statement": "A program that asks for HDUs, uses images and binary tables, and reads the bytes of ASCII tables and of binary tables one by one, in any order, sees the same through a BufReader with any buffer size on a file whose reads are short or interrupted in any way, through FITSFile and through a Cursor as from all the bytes at once, up to and including the first call in which a read or a move of the reader fails.", "quantifier": "all files of less than 2^63 bytes, all buffer sizes, all sequences of short, interrupted and failing reads, all programs that stay at positions below 2^63", "why_tests_cant": "how many bytes a read delivers depends on the operating system and on where the buffers end; the sequence of calls is arbitrary", "anchors": ["src/hdu/data/asciitable.rs: FitsRead::read_data_unit", "src/hdu/data/bintable/data.rs: TableData::bytes", "src/fits.rs: Fits::next, Fits::get_data, consume_until_next_hdu", "src/gz.rs: impl Read for GzReader"]}
{"id": "C95", "title": "The pixels of compressed images do not depend on the kind of reader", "statement": "A program that asks for HDUs and uses images, tables, bytes of tables and the pixels of compressed images, sees the same through a BufReader with any buffer size on a file whose reads are short or interrupted in any way, through FITSFile and through a Cursor as from all the bytes at once, up to and including the first call in which a read, a move of the reader or the decompression of a tile fails: however much of the file the decompressors take, the reader comes back to the next row.", "quantifier": "all files of less than 2^63 bytes, all buffer sizes, all sequences of short and interrupted reads, all gzip decoders, all programs that stay at positions below 2^63 and go on to the next HDU after they have used bytes of tables", "why_tests_cant": "how much a decompressor takes from the reader depends on its own buffer, on the buffer of the reader and on the operating system; tiles lie anywhere in the heap; the sequence of calls is arbitrary", "anchors": ["src/hdu/data/bintable/tile_compressed/pixels.rs: Iterator for It, jump_to_location", "src/hdu/data/bintable/data.rs: BinaryTableData::row_iter, table_data", "src/gz.rs: impl Read for GzReader, impl Seek for GzReader"]}
{"id": "C96", "title": "A well-formed file is read back through every kind of reader", "statement": "A file made of a primary image, images, ASCII tables, binary tables and compressed images, with any legal lines in the headers and in any layout, is read back as written (the HDUs, the items of their data units in order and the end of the file) through a BufReader with any buffer size on a file whose reads are short or interrupted in any way, through FITSFile and through a Cursor. More generally, for any file whose data units are complete, a program that opens each data unit at most once, when it is the last one returned, and uses it in order, sees the same through all of them until it asks for an HDU and gets none; if reads may fail it sees the same or the first of it and then an error or nothing.", "quantifier": "all files of less than 2^60 bytes made of such HDUs (less than 2^63 for the general form), all buffer sizes, all sequences of short, interrupted and failing reads, all such programs, both build profiles", "why_tests_cant": "the layouts of files, the ways in which a file is delivered and the programs are unbounded", "anchors": ["src/fits.rs: Fits::next, Fits::get_data, consume_until_next_hdu", "src/hdu/mod.rs: HDU::new_primary, HDU::new_xtension", "src/hdu/data/image.rs: ImageData", "src/hdu/data/bintable/data.rs: TableData", "src/gz.rs: GzReader", "src/hdu/data/bintable/tile_compressed/pixels.rs: Pixels"]}
{"id": "C97", "title": "The bytes of an iterator over pixels", "statement": "For an image of a file in memory, bytes of the iterator over its pixels gives the bytes of these pixels, before and after any calls of the iterator.", "quantifier": "all files in memory, all images, all sequences of calls of the iterator, both build profiles", "why_tests_cant": "all layouts of files and all histories; the tests call bytes of the data units of ASCII tables only", "anchors": ["src/hdu/data/iter.rs: It::bytes, It::new", "src/hdu/data/image.rs: ImageData::new", "src/fits.rs: Fits::get_data"]}
{"id": "C98", "title": "The HDUs after failed reads", "statement": "A program opens a file, asks for the first HDU and goes on in any way after calls that fail. Whatever reads of the file fail, its requests for HDUs give the HDUs of the file, in order, each as if nothing else had been done with the file, until a request reports a failed read; after that there are no HDUs any more. In builds with overflow checks a request can panic instead; in builds without it never does so on account of what happened before.", "quantifier": "all files with sizes that fit in 63 bits, all sizes of the buffer, all sequences of short, interrupted and failing reads, all sequences of calls beginning with a request for an HDU, BufReader and FITSFile, both build profiles", "why_tests_cant": "failing reads at every point of every program; the tests use files whose reads do not fail", "anchors": ["src/fits.rs: Fits::next, Fits::consume_until_next_hdu, HDU::new", "src/hdu/mod.rs: consume_cards", "src/gz.rs: GzReader", "src/hdu/data/iter.rs: It::next"]}
{"id": "C99", "title": "The pixels after a failed read", "statement": "An iterator over the pixels of an image returns None when a read of the file fails. If the program goes on and asks for the next pixels, each pixel it gets is the pixel of its place in the image: the k-th call gives the k-th pixel or None.", "quantifier": "all files with sizes that fit in 63 bits, all pixel types and values, all sizes of the buffer, all sequences of short, interrupted and failing reads, all sequences of calls before, all numbers of calls, BufReader and FITSFile, both build profiles", "why_tests_cant": "failing reads at every byte of every image; the tests use files whose reads do not fail", "anchors": ["src/hdu/data/iter.rs: It::next", "src/hdu/data/image.rs: ImageData::new", "src/hdu/data/iter.rs: Value::read_be", "src/gz.rs: GzReader"]}
{"id": "C100", "title": "The values of an asynchronous data unit after errors", "statement": "A program that polls for the values of a data unit of an asynchronous file and goes on after errors of the source gets the values of the data unit, in order and without gaps.", "quantifier": "all byte sources and schedules of chunks and failures (and, for what is proved, of delays), all value types and values, all numbers of polls, both build profiles", "why_tests_cant": "a failure may come at any byte and any number of times; the tests use sources that do not fail", "anchors": ["src/hdu/data/stream.rs: St::poll_next", "src/async_fits.rs: AsyncFits::get_data"]}
{"id": "C101", "title": "A file after other bytes, through the decompressing reader", "statement": "A program that reads a FITS file, compressed with gzip or not, through GzReader::new on a source placed at the first byte of the file sees the file whatever comes before it in the source: if it is not compressed, what it sees without GzReader, and if it is, the file that was compressed.", "quantifier": "all bytes before the file, all files, plain or with any gzip header fields and any bytes after the first member, all programs using the file, both build profiles", "why_tests_cant": "tests open files at their beginning; what comes before the file and how much of it matters", "anchors": ["src/gz.rs: GzReader::new", "src/fits.rs: Fits::from_reader"]}
{"id": "C102", "title": "The position of the data unit", "statement": "At any moment, Fits::get_position_data_unit gives the offset of the data of the HDU that the iterator gave last, and 0 exactly as long as it gave none: nothing that is done with data units, no end of the file and no failed read changes it.", "quantifier": "all readers and contents, with any failing reads and moves, all sequences of calls on the HDU iterator and on the data units, both build profiles", "why_tests_cant": "the position is kept in the iterator and has to be right after every history of calls, also after those that fail half-way", "anchors": ["src/fits.rs: Fits::get_position_data_unit", "src/fits.rs: Fits::next", "src/fits.rs: Fits::from_reader"]}
{"id": "C103", "title": "Values and rows of one table", "statement": "A program may go from the values of a binary table to its rows (row_iter) and back (table_data) at any moment, also in the middle of a row: as long as every call gives something, the values it gets, by rows or one by one, are those that the table gives one by one, in order, none lost and none given twice. When the rows end, so does the table, and only values of the row that could not be finished were read and not given. get_row_idx counts the rows given since row_iter, which begins by an empty row for each row already finished.", "quantifier": "all tables in any state and any contents, whole or cut, all sequences of next, row_iter and table_data, both build profiles", "why_tests_cant": "all interleavings of the two iterators, at every value of every table", "anchors": ["src/hdu/data/bintable/row.rs: TableRowData::next", "src/hdu/data/bintable/row.rs: TableRowData::table_data", "src/hdu/data/bintable/row.rs: TableRowData::get_row_idx", "src/hdu/data/bintable/data.rs: TableData::row_iter"]}
{"id": "C104", "title": "Iterating over a binary table ends", "statement": "Iterating over the values of a binary table, or over its rows, comes to an end, and so does each call of the iteration over the rows, whatever the header and the contents: also when the file is cut, arrays overlap or have absurd lengths, and repeat counts are 0.", "quantifier": "all headers and contents, all tables just opened, after any selection of columns (of tables with rows) or after seek_to_row, or in any state before the end of the last row, both build profiles", "why_tests_cant": "a hanging iteration needs one particular damaged file; all damaged files are covered", "anchors": ["src/hdu/data/bintable/data.rs: TableData::next", "src/hdu/data/bintable/data.rs: seek_to_next_col", "src/hdu/data/bintable/row.rs: TableRowData::next"]}
{"id": "C105", "title": "Iterating over the pixels of a compressed image ends", "statement": "Iterating over the pixels of a tile-compressed image comes to an end, and so does each call, whatever the header, the table and the bytes of the tiles; in particular decoding a RICE tile ends, by pixels or by an error, also when it is cut or when its blocks are said to have no pixel.", "quantifier": "all headers, tables and contents of tiles, all compressions, any results of the gzip decoder, all numbers of pixels and block sizes, both build profiles", "why_tests_cant": "the decoder is a state machine whose loop has no bound: a hang needs particular bytes or sizes, and one of them needs a buffer of 8 GiB", "anchors": ["src/hdu/data/bintable/tile_compressed/rice.rs: RICEDecoder::read", "src/hdu/data/bintable/tile_compressed/pixels.rs: Pixels::next", "src/hdu/data/bintable/row.rs: TableRowData::next"]}
