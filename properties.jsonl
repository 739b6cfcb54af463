{"id": "C01", "title": "UTF-8 append/iterate round trip", "statement": "Appending any sequence of Unicode scalar values one by one to an empty std::u8string with append_code_point and then iterating the string with by_code_point from begin to end yields exactly that sequence, with no exception and no access outside the string.", "quantifier": "all finite sequences of Unicode scalar values", "why_tests_cant": "There are 1,112,064 scalar values and unboundedly many sequences; the sequence-level claim needs induction because a decoder can resynchronise wrongly only in certain contexts.", "anchors": ["api/src/cmp/unicode/algorithms.ipp: insert_code_point, append_code_point", "api/src/cmp/unicode/by_code_point.cpp: by_code_point<char8_t>::const_iterator, reference::operator char32_t", "api/src/cmp/unicode/impl/impl.cpp: initialize_utf8_sequence"]}
{"id": "C02", "title": "is_code_point_valid recognises exactly the Unicode scalar values", "statement": "is_code_point_valid(c) returns true if and only if c is a Unicode scalar value: c <= 0x10FFFF and c is not in 0xD800..0xDFFF.", "quantifier": "all 2^32 values of char32_t", "why_tests_cant": "Sampling a few code points misses whole planes of values on which an implicit narrowing conversion changes the answer.", "anchors": ["api/src/cmp/unicode/examiners.ipp: is_code_point_valid, is_surrogate", "api/include/cmp/unicode/constants.hpp"]}
{"id": "C03", "title": "UTF-8 encoder emits the standard well-formed encoding", "statement": "Whenever append_code_point on a std::u8string accepts a code point, the bytes it adds are exactly the well-formed UTF-8 encoding of that code point defined by the Unicode Standard (shortest form, correct lead and continuation bytes), and code points that are not scalar values are always rejected with invalid_code_point.", "quantifier": "all 2^32 char32_t values and all prior string contents", "why_tests_cant": "Boundary errors live at a handful of the 2^32 inputs; only a proof covers every boundary.", "anchors": ["api/src/cmp/unicode/algorithms.ipp: insert_code_point, append_code_point"]}
{"id": "C04", "title": "UTF-16 encoder emits the standard encoding", "statement": "For every Unicode scalar value, append_code_point on a std::u16string adds exactly the one- or two-unit UTF-16 encoding defined by the Unicode Standard.", "quantifier": "all Unicode scalar values and all prior string contents", "why_tests_cant": "Too many code points to enumerate by hand-written cases; surrogate arithmetic is easy to get wrong at plane boundaries.", "anchors": ["api/src/cmp/unicode/algorithms.ipp: insert_code_point (u16string branch)"]}
{"id": "C05", "title": "Forward iteration over UTF-16 text visits every code point once", "statement": "Iterating a well-formed std::u16string with by_code_point from begin to end yields exactly its sequence of code points, including supplementary-plane ones, with no exception.", "quantifier": "all well-formed UTF-16 strings", "why_tests_cant": "Tests use BMP text; the claim is about every mixture of single units and surrogate pairs.", "anchors": ["api/src/cmp/unicode/by_code_point.cpp: by_code_point<char16_t>::const_iterator::advance, finish_sequence"]}
{"id": "C06", "title": "Forward iteration over UTF-8 text visits every code point once", "statement": "Iterating a well-formed std::u8string with by_code_point yields exactly the code points it encodes, in order, ending precisely at the end iterator.", "quantifier": "all well-formed UTF-8 byte strings (encodings of arbitrary scalar value sequences, however they were produced)", "why_tests_cant": "Unbounded strings; iterator arithmetic must stay synchronised after every prefix.", "anchors": ["api/src/cmp/unicode/by_code_point.cpp: by_code_point<char8_t>::const_iterator::advance, finish_sequence, operator*"]}
{"id": "C07", "title": "Backward iteration over UTF-8 mirrors forward iteration", "statement": "On a well-formed std::u8string, decrementing an iterator that was just incremented returns to the same place, and traversing with the reverse iterators yields exactly the reverse of the forward traversal.", "quantifier": "all well-formed UTF-8 strings and all positions in them", "why_tests_cant": "The step back scans a data-dependent number of bytes; only a proof covers all neighbours.", "anchors": ["api/src/cmp/unicode/by_code_point.cpp: by_code_point<char8_t>::const_iterator::retreat, crbegin, crend"]}
{"id": "C08", "title": "Backward iteration over UTF-16 mirrors the code point sequence", "statement": "On a well-formed std::u16string, traversing with the reverse iterators (or repeated --) yields exactly the reverse of its code point sequence.", "quantifier": "all well-formed UTF-16 strings", "why_tests_cant": "Unbounded strings with arbitrary mixtures of surrogate pairs and single units.", "anchors": ["api/src/cmp/unicode/by_code_point.cpp: by_code_point<char16_t>::const_iterator::retreat(), crbegin, crend"]}
{"id": "C09", "title": "Moving an iterator by n equals n single steps", "statement": "For every by_code_point iterator it and n >= 0, 'it += n' is the same as n increments and 'it -= n' is the same as n decrements (likewise it + n, it - n).", "quantifier": "all strings of each encoding, all positions, all n", "why_tests_cant": "n and the string are unbounded.", "anchors": ["api/src/cmp/unicode/by_code_point.cpp: advance(difference_type), retreat(difference_type), operator+=, operator-="]}
{"id": "C10", "title": "Decoding never reads outside the string view", "statement": "For every byte string, well-formed or not, dereferencing or incrementing a by_code_point iterator that lies strictly before the end never accesses memory outside the viewed range: malformed input is reported by an exception instead.", "quantifier": "all byte strings, all iterator positions before the end", "why_tests_cant": "Memory safety on malformed input requires considering every truncation and corruption.", "anchors": ["api/src/cmp/unicode/by_code_point.cpp: reference::finish_sequence, const_iterator::finish_sequence"]}
{"id": "C11", "title": "convert_string preserves the text", "statement": "convert_string between any two of std::u8string, std::u16string and std::u32string maps the encoding of a sequence of scalar values in the source form to the encoding of the same sequence in the target form.", "quantifier": "all finite sequences of Unicode scalar values, all nine source/target pairs", "why_tests_cant": "Unbounded texts; requires composition of decoder and encoder correctness.", "anchors": ["api/src/cmp/unicode/algorithms.ipp: convert_string, to_u8string, to_u16string, to_u32string"]}
{"id": "C12", "title": "validate_string accepts all well-formed text", "statement": "validate_string returns the end iterator for every well-formed UTF-8, UTF-16 or UTF-32 string, and never throws.", "quantifier": "all well-formed strings of each encoding form", "why_tests_cant": "Unbounded strings.", "anchors": ["api/src/cmp/unicode/algorithms.ipp: validate_string"]}
{"id": "C13", "title": "validate_string rejects all ill-formed text at the first ill-formed sequence", "statement": "For every string that is not well-formed, validate_string returns a non-end iterator placed just past the last valid code point of the longest well-formed prefix.", "quantifier": "all ill-formed strings", "why_tests_cant": "The space of malformations (overlong forms, encoded surrogates, out-of-range values, stray and missing continuation units) is unbounded.", "anchors": ["api/src/cmp/unicode/algorithms.ipp: validate_string", "api/src/cmp/unicode/by_code_point.cpp"]}
{"id": "C14", "title": "starts_with is prefix testing on code points", "statement": "For well-formed content and substring in any encodings (possibly different), starts_with returns true iff the substring's code point sequence is a prefix of the content's.", "quantifier": "all pairs of well-formed strings", "why_tests_cant": "Quantifies over pairs of unbounded strings in different encodings.", "anchors": ["api/src/cmp/unicode/algorithms.ipp: starts_with"]}
{"id": "C15", "title": "ends_with is suffix testing on code points", "statement": "For well-formed content and substring in any encodings (possibly different), ends_with returns true iff the substring's code point sequence is a suffix of the content's.", "quantifier": "all pairs of well-formed strings", "why_tests_cant": "Quantifies over pairs of unbounded strings in different encodings.", "anchors": ["api/src/cmp/unicode/algorithms.ipp: ends_with"]}
{"id": "C16", "title": "Insertion is exact and failure leaves the string unchanged", "statement": "insert_code_point at any index <= size places the encoded units contiguously at that index and leaves every other unit unchanged and in order; if it throws because the code point is invalid or the index is past the end, the string is unchanged. append_code_point and prepend_code_point are insertion at size and at 0.", "quantifier": "all strings, indices and char32_t values, for u8string, u16string and u32string", "why_tests_cant": "Multi-unit insertion is done by several separate inserts; exception safety and ordering must hold for every index.", "anchors": ["api/src/cmp/unicode/algorithms.ipp: insert_code_point, append_code_point, prepend_code_point"]}
{"id": "C17", "title": "is_whitespace is the Unicode White_Space property", "statement": "is_whitespace(c) is true iff c has the Unicode White_Space property (PropList.txt ranges 0009..000D, 0020, 0085, 00A0, 1680, 2000..200A, 2028, 2029, 202F, 205F, 3000).", "quantifier": "all 2^32 char32_t values", "why_tests_cant": "2^32 inputs.", "anchors": ["api/src/cmp/unicode/examiners.ipp: is_whitespace"]}
{"id": "C18", "title": "is_radix_digit recognises exactly the digits of the radix", "statement": "For radix 2..36 and every character, is_radix_digit(c, r) is true iff c is an ASCII digit or letter (either case) whose digit value is below r, and it is defined (no undefined behaviour) for every character.", "quantifier": "all char32_t values and radices 2..36", "why_tests_cant": "35 radices times 2^32 characters; includes the domain restriction of std::tolower.", "anchors": ["api/src/cmp/unicode/examiners.ipp: is_radix_digit", "api/src/cmp/unicode/parsers.cpp: number_parser::digit_character_to_integer"]}
{"id": "C19", "title": "format_integer denotes the integer", "statement": "For every representable integer and valid format, format_integer produces an optional sign followed by digits 0-9A-Z of the radix with no leading zero whose positional value is the absolute value of the input; '-' appears iff the input is negative and '+' iff it is positive and always_show is set.", "quantifier": "all values of every signed and unsigned integer type, all radices 2..36, all sign and separator settings", "why_tests_cant": "Unbounded family of inputs and formats; extreme values of each type are special.", "anchors": ["api/src/cmp/unicode/formatters.ipp: number_formatter::format_integer"]}
{"id": "C20", "title": "Thousands grouping", "statement": "With a thousands separator configured, format_integer puts that separator between digits exactly at every third place counted from the right, never at the left end; with none configured there is no separator.", "quantifier": "all integers, radices and separators", "why_tests_cant": "Position-dependent loop counter; needs induction over digit count.", "anchors": ["api/src/cmp/unicode/formatters.ipp: number_formatter::format_integer"]}
{"id": "C21", "title": "parse_integer inverts format_integer", "statement": "For every value of the integer type, parse_integer with the same format applied to the output of format_integer returns the value.", "quantifier": "all values of every integer type, all formats with radix 2..36, all output encodings", "why_tests_cant": "Product of all values, radices, signs and separators; overflow at extreme values.", "anchors": ["api/src/cmp/unicode/formatters.ipp: format_integer", "api/src/cmp/unicode/parsers.ipp: number_parser::parse_integer, prepend_digit"]}
{"id": "C22", "title": "parse_integer value is the positional value", "statement": "When parse_integer accepts an input of digits (optionally signed, optionally correctly grouped), the value returned is the positional value of the digits, upper and lower case letters being equivalent.", "quantifier": "all digit strings whose value fits, all radices 2..36, all formats", "why_tests_cant": "Unbounded strings.", "anchors": ["api/src/cmp/unicode/parsers.ipp: number_parser::parse_integer, prepend_digit", "api/src/cmp/unicode/parsers.cpp: digit_character_to_integer, check_for_sign"]}
{"id": "C23", "title": "parse_integer rejects every string that does not conform to the format", "statement": "If the input is not an optional leading sign followed by (correctly grouped) digits of the radix, parse_integer throws parse_failed.", "quantifier": "all strings and all formats", "why_tests_cant": "The set of malformed strings is unbounded.", "anchors": ["api/src/cmp/unicode/parsers.ipp: number_parser::parse_integer"]}
{"id": "C24", "title": "parse_integer reports the right failure kind", "statement": "Empty input is reported as empty_input; a second sign as multiple_signs; a character that is no digit where a digit is due as digit_character_expected; a missing separator as thousands_separator_missing; a minus sign for an unsigned type as negative_unsigned.", "quantifier": "all inputs and formats", "why_tests_cant": "Priority among failure kinds depends on the whole string.", "anchors": ["api/src/cmp/unicode/parsers.cpp", "api/src/cmp/unicode/parsers.ipp: number_parser::parse_integer"]}
{"id": "C25", "title": "parse_integer never overflows silently", "statement": "parse_integer either returns the exact mathematical value of the numeral or throws; it never invokes undefined behaviour and never returns a wrapped value.", "quantifier": "all numerals, however long, and all integer types", "why_tests_cant": "Overflow occurs only beyond type limits and depends on intermediate results.", "anchors": ["api/src/cmp/unicode/parsers.ipp: number_parser::prepend_digit"]}
{"id": "C26", "title": "Boolean formatting and parsing are inverse", "statement": "For every bool_format whose true and false strings are distinct, non-empty, well-formed UTF-8, parse_bool(format_bool(b)) = b, and parse_bool throws neither_boolean for every other non-empty string and empty_input for the empty one.", "quantifier": "both booleans, all format string pairs, all input strings", "why_tests_cant": "Unbounded format strings.", "anchors": ["api/src/cmp/unicode/parsers.ipp: parse_bool", "api/src/cmp/unicode/formatters.ipp: format_bool", "api/src/cmp/unicode/formats.cpp: bool_format"]}
{"id": "C27", "title": "format_floating_point denotes the number", "statement": "With no place limit, the string produced by format_floating_point for a number with a finite expansion in the radix denotes exactly that number; with a place limit of n it denotes the number truncated to n places.", "quantifier": "all finite floating-point values, negative ones included, all radices 2..36", "why_tests_cant": "Unbounded value set.", "anchors": ["api/src/cmp/unicode/formatters.ipp: number_formatter::format_floating_point"]}
{"id": "C28", "title": "parse_floating_point denotes the numeral", "statement": "parse_floating_point of a conforming numeral returns the number the numeral denotes (up to rounding).", "quantifier": "all conforming numerals, negative ones included", "why_tests_cant": "Unbounded numerals.", "anchors": ["api/src/cmp/unicode/parsers.ipp: number_parser::parse_floating_point, append_digit"]}
{"id": "C29", "title": "A number format always has a usable radix", "statement": "Every integer_format or floating_point_format object, after any history of construction and setter calls, has a radix between 2 and 36; attempts to set another radix fail with invalid_radix.", "quantifier": "all histories of constructor and setter calls", "why_tests_cant": "Invariant over arbitrary call histories.", "anchors": ["api/src/cmp/unicode/formats.cpp: integer_format, floating_point_format, set_radix"]}
{"id": "C30", "title": "count_digits counts the digits", "statement": "For every integer n >= 0 and radix r >= 2, count_digits(n, r) is the number of digits of n in base r (1 for zero).", "quantifier": "all n and r", "why_tests_cant": "Unbounded; needs induction.", "anchors": ["api/src/cmp/core/general.ipp: count_digits"]}
{"id": "C31", "title": "Buffered output loses and reorders nothing", "statement": "For every buffer capacity and every sequence of writes and flushes on an output-only resource whose device accepts everything, the bytes that have reached the device followed by the bytes pending in the buffer are exactly all bytes written so far, in order; after a flush (or destruction of the stream) the device holds exactly all bytes written.", "quantifier": "all capacities, all sequences of write and flush calls of all sizes, at every intermediate point", "why_tests_cant": "Interleavings of request sizes with buffer fill level are unbounded; also a crash-point property.", "anchors": ["api/src/cmp/io/output_resource.cpp: write, flush, write_buffered", "api/src/cmp/io/io_buffer.cpp", "api/src/cmp/io/output_stream.ipp: flush, ~output_stream"]}
{"id": "C32", "title": "Buffered output never touches memory outside the buffer", "statement": "On an output-only resource no sequence of writes and flushes makes the library copy outside its internal buffer, and the buffer position never exceeds its capacity.", "quantifier": "all capacities and operation sequences", "why_tests_cant": "Invariant over unbounded histories.", "anchors": ["api/src/cmp/io/io_buffer.cpp: write", "api/src/cmp/io/output_resource.cpp: write_buffered"]}
{"id": "C33", "title": "Buffered input delivers the source in order", "statement": "For every buffer capacity and every sequence of reads on an input-only seekable resource, the concatenation of the data returned is a prefix of the source, nothing duplicated or skipped, and a read returns fewer bytes than requested only at the end of the source.", "quantifier": "all sources, capacities and sequences of read sizes", "why_tests_cant": "Interleaving of read sizes with buffer refills is unbounded.", "anchors": ["api/src/cmp/io/input_resource.cpp: read, fill, read_buffered", "api/src/cmp/io/impl/ctr_essence.ipp: read_raw", "api/src/cmp/io/impl/unix_like/unix_like_file.cpp: read_raw"]}
{"id": "C34", "title": "Reads no larger than the buffer deliver the source in order", "statement": "For every capacity c (0 meaning unbuffered) and every sequence of reads of at most c bytes each on a container of elements of any size (reads of any size when unbuffered), the data returned is exactly the next bytes of the content, and a short count occurs only at the end.", "quantifier": "all contents, capacities and read sequences with sizes at most the capacity", "why_tests_cant": "Unbounded histories; refinement of the buffered machine to a plain cursor.", "anchors": ["api/src/cmp/io/input_resource.cpp: read_buffered", "api/src/cmp/io/impl/ctr_essence.ipp: read_raw"]}
{"id": "C35", "title": "get_position and is_at_end report the logical position", "statement": "After any sequence of reads on an input container resource, get_position equals the number of bytes delivered and is_at_end is true exactly when all content has been delivered.", "quantifier": "all contents, element sizes, capacities and read sequences", "why_tests_cant": "Depends on the buffer state after arbitrary histories.", "anchors": ["api/src/cmp/io/impl/ctr_essence.ipp: get_position, is_at_end", "api/src/cmp/io/seekable_transfer_resource.ipp: go_back, go_forward"]}
{"id": "C36", "title": "Seeking from the beginning", "statement": "After set_position(k, begin) with 0 <= k <= size on a container input resource, the next reads deliver the content from element k on, whatever was read before, buffered or not.", "quantifier": "all contents, positions, capacities and prior histories", "why_tests_cant": "Stale-buffer errors depend on history.", "anchors": ["api/src/cmp/io/seekable_input_resource.ipp: set_position", "api/src/cmp/io/impl/ctr_essence.ipp: set_position_raw"]}
{"id": "C37", "title": "Relative seeking", "statement": "set_position(d, current), go_forward(d) and go_back(d) move the logical read position by exactly d elements from where the last read stopped.", "quantifier": "all contents, capacities, histories and offsets staying inside the content", "why_tests_cant": "Depends on buffered state after arbitrary histories.", "anchors": ["api/src/cmp/io/seekable_transfer_resource.ipp: go_back, go_forward", "api/src/cmp/io/impl/ctr_essence.ipp: set_position_raw"]}
{"id": "C38", "title": "Container output writes like a byte array", "statement": "Writing n bytes at position p <= size of a container resource overwrites content[p, p+n), growing the container to exactly max(size, p+n).", "quantifier": "all contents, positions and data", "why_tests_cant": "Unbounded; the overlap case between overwrite and growth is easily missed.", "anchors": ["api/src/cmp/io/impl/ctr_essence.ipp: write_raw"]}
{"id": "C39", "title": "Appending through a container output resource", "statement": "For every element size, initial content and sequence of writes of whole elements starting at the end of the content (any buffering), after a flush the container equals its initial content followed by all data written.", "quantifier": "all element sizes, contents, capacities and write sequences", "why_tests_cant": "Unbounded histories.", "anchors": ["api/src/cmp/io/impl/ctr_essence.ipp: write_raw, set_position_raw", "api/src/cmp/io/output_resource.cpp", "api/src/cmp/io/transparent_container_output_resource.ipp"]}
{"id": "C40", "title": "Mixed reads and writes behave like a byte array with a cursor", "statement": "On a buffered read/write container or file, any sequence of reads, writes, seeks and flushes is observably the same as on an unbuffered byte array with a single cursor, and never accesses memory outside the buffer.", "quantifier": "all capacities, contents and operation sequences", "why_tests_cant": "Shared buffer for both directions: correctness depends on unbounded interleavings.", "anchors": ["api/src/cmp/io/seekable_io_resource.ipp: set_position", "api/src/cmp/io/input_resource.cpp", "api/src/cmp/io/output_resource.cpp", "api/src/cmp/io/io_buffer.cpp"]}
{"id": "C41", "title": "A read on a tied input first flushes the tied output", "statement": "Whenever input_resource::read is called on a resource tied to an output resource, everything written to that output before is on its device before any byte is requested from the input source.", "quantifier": "all histories of writes to the output and reads of the input", "why_tests_cant": "Ordering property over interleavings of two resources.", "anchors": ["api/src/cmp/io/input_resource.cpp: read, tie", "api/src/cmp/io/impl/unix_like/unix_like_uin.cpp: stdin_resource"]}
{"id": "C42", "title": "Standard input delivers bytes in order for every chunking", "statement": "Whatever short counts the operating system returns from ::read on standard input, the concatenation of data returned by stdin_resource::read is a prefix of the bytes the system supplied, in order, and bytes supplied but not yet returned are still in the buffer.", "quantifier": "all read-size sequences, all capacities and all schedules of short reads without error", "why_tests_cant": "Nondeterministic chunking by the environment.", "anchors": ["api/src/cmp/io/impl/unix_like/unix_like_uin.cpp: stdin_resource::read_raw", "api/src/cmp/io/input_resource.cpp: read_buffered"]}
{"id": "C43", "title": "Standard output delivers every byte", "statement": "After flush, every byte written to stdout_resource has been accepted by the descriptor, for every behaviour of ::write that accepts at least one byte per call.", "quantifier": "all write sequences and all schedules of partial writes", "why_tests_cant": "Nondeterministic partial writes by the environment.", "anchors": ["api/src/cmp/io/impl/unix_like/unix_like_uout.cpp: stdout_resource::write_raw", "api/src/cmp/io/output_resource.cpp: flush"]}
{"id": "C44", "title": "File access mode is enforced", "statement": "Reading from a file opened write_only and writing to a file opened read_only throw invalid_access_mode and change neither the file, its position nor the buffer.", "quantifier": "all file states and requests", "why_tests_cant": "All reachable states, not just fresh ones.", "anchors": ["api/src/cmp/io/file.cpp: basic_file::read, write"]}
{"id": "C45", "title": "A file read fills the caller's buffer for every short-read schedule", "statement": "If ::read returns fewer bytes than asked before end of file, file::read still returns the next bytes of the file in order.", "quantifier": "all schedules of short reads", "why_tests_cant": "Short reads are chosen by the kernel and do not occur in tests on local regular files.", "anchors": ["api/src/cmp/io/impl/unix_like/unix_like_file.cpp: read_block", "api/src/cmp/io/impl/windows/windows_file.cpp: read_block"]}
{"id": "C46", "title": "Re-opening a file starts afresh", "statement": "After open on an already used file object, reads deliver the newly opened file from its beginning, and position and end tests refer to the new file.", "quantifier": "all prior histories and file contents", "why_tests_cant": "Depends on the buffer state left by arbitrary prior histories.", "anchors": ["api/src/cmp/io/impl/unix_like/unix_like_file.cpp: open, close", "api/src/cmp/io/file.cpp: is_at_end"]}
{"id": "C47", "title": "Endianness inversion", "statement": "invert_endianness reverses the byte order of the given block, so applying it twice restores it, and it touches no byte outside the block.", "quantifier": "all blocks of at least one byte", "why_tests_cant": "Unbounded block sizes; two-pointer loop needs an invariant.", "anchors": ["api/src/cmp/io/general.cpp: invert_endianness"]}
{"id": "C48", "title": "Data stream round trip", "statement": "A sequence of fundamental-type values written to a data_output_stream and read back through a data_input_stream with the same endianness yields the same values, for native and for opposite endianness.", "quantifier": "all value sequences, both endiannesses, all value sizes", "why_tests_cant": "Unbounded sequences and both endiannesses; tests cover native only.", "anchors": ["api/src/cmp/io/data_output_stream.ipp: operator<<", "api/src/cmp/io/data_input_stream.ipp: operator>>", "api/src/cmp/io/input_stream.ipp: read", "api/src/cmp/io/output_stream.ipp: reverse_write"]}
{"id": "C49", "title": "Wire format of data_output_stream", "statement": "data_output_stream writes each value as its bytes in the configured endianness (big: most significant first), regardless of the host's endianness.", "quantifier": "all values of all sizes, both stream and both host endiannesses", "why_tests_cant": "Host endianness cannot be varied in a test.", "anchors": ["api/src/cmp/io/data_output_stream.ipp: operator<<", "api/src/cmp/io/output_stream.ipp: write, reverse_write"]}
{"id": "C50", "title": "Text stream round trip", "statement": "Writing any sequence of scalar values to a text_output_stream and reading it with a text_input_stream of the same encoding form and endianness yields the same sequence (texts without carriage returns), for UTF-8, UTF-16 and UTF-32, little and big endian.", "quantifier": "all scalar value sequences, three encoding forms, two stream endiannesses, two host endiannesses", "why_tests_cant": "Unbounded texts; host endianness cannot be varied in a test.", "anchors": ["api/src/cmp/io/text_output_stream.ipp: write_code_point*", "api/src/cmp/io/text_input_stream.ipp: read_code_point, finish_*_sequence"]}
{"id": "C51", "title": "Text output bytes conform to the Unicode encoding schemes", "statement": "The bytes text_output_stream produces for a scalar value are exactly the standard UTF-8, UTF-16BE/LE or UTF-32BE/LE serialisation of it.", "quantifier": "all scalar values, encodings, stream and host endiannesses", "why_tests_cant": "Same as above.", "anchors": ["api/src/cmp/io/text_output_stream.ipp: write_code_point_in_utf8, write_code_point_in_utf16, write_code_point_in_utf32"]}
{"id": "C52", "title": "Byte order mark detection", "statement": "If a UTF-16 or UTF-32 stream begins with the byte order mark in either byte order, read_bom returns the mark and sets the stream's endianness so that the text after it is read correctly, whatever endianness was configured before.", "quantifier": "all texts following the mark, both byte orders, all configured and host endiannesses", "why_tests_cant": "Unbounded following texts.", "anchors": ["api/src/cmp/io/text_input_stream.ipp: read_bom, read_utf16_bom, read_utf32_bom", "api/src/cmp/io/text_output_stream.ipp: write_bom"]}
{"id": "C53", "title": "read_bom without a mark returns the first code point", "statement": "If the stream does not begin with a byte order mark, read_bom returns the first code point of the stream decoded in the configured encoding form and endianness.", "quantifier": "all first code points", "why_tests_cant": "Tests use streams that begin with a mark.", "anchors": ["api/src/cmp/io/text_input_stream.ipp: read_utf16_bom, read_utf32_bom"]}
{"id": "C54", "title": "Lines are split at LF and CRLF, losslessly", "statement": "Repeated read_line on a text whose lines contain no CR or LF and are joined by LF or CRLF (mixed) returns exactly the lines.", "quantifier": "all lists of lines and all choices of terminators", "why_tests_cant": "Unbounded texts and terminator mixtures.", "anchors": ["api/src/cmp/io/text_input_stream.ipp: append_line, read_line, read_filtered_code_point"]}
{"id": "C55", "title": "Only CRLF pairs are translated", "statement": "Reading text changes nothing except that the two-character sequence CR LF is read as LF; a CR not followed by LF is delivered.", "quantifier": "all texts", "why_tests_cant": "Unbounded texts.", "anchors": ["api/src/cmp/io/text_input_stream.ipp: read_filtered_code_point"]}
{"id": "C56", "title": "Word extraction splits at whitespace", "statement": "Repeated extraction into strings with operator>> yields exactly the maximal runs of non-whitespace code points of the text, in order.", "quantifier": "all texts", "why_tests_cant": "Unbounded texts.", "anchors": ["api/src/cmp/io/text_input_stream.ipp: operator>> (T&)"]}
{"id": "C57", "title": "Integers survive a trip through a text stream", "statement": "Writing integers separated by whitespace to a text_output_stream and extracting them with operator>> from a text_input_stream of the same encoding and endianness gives the same integers.", "quantifier": "all sequences of integers (each type), encodings and endiannesses", "why_tests_cant": "Unbounded sequences.", "anchors": ["api/src/cmp/io/text_output_stream.ipp: operator<< (T)", "api/src/cmp/io/text_input_stream.ipp: operator>> (T&)"]}
{"id": "C58", "title": "Truncated input is reported, never fabricated", "statement": "If a stream ends inside an encoded code point or value, reading it throws read_past_end; no code point or value is ever delivered that is not completely present in the source.", "quantifier": "all byte sources, cut at every point", "why_tests_cant": "Every truncation point of every text.", "anchors": ["api/src/cmp/io/text_input_stream.ipp: read_utf8_code_point, read_utf16_code_point, read_utf32_code_point", "api/src/cmp/io/data_input_stream.ipp: operator>>"]}
{"id": "C59", "title": "Copies of an opaque container resource are independent", "statement": "After copying or moving an opaque container resource, operations on the new object act on its own content and remain valid after the original is destroyed.", "quantifier": "all histories before and after the copy", "why_tests_cant": "Object lifetime property over histories.", "anchors": ["api/include/cmp/io/opaque_container_io_resource.hpp", "api/src/cmp/io/impl/ctr_essence.ipp"]}
{"id": "C60", "title": "A moved-from file object no longer owns the file", "statement": "Moving a file transfers ownership of the descriptor: afterwards exactly one object closes it and no descriptor is closed twice.", "quantifier": "all histories of open, move and destruction", "why_tests_cant": "Ownership property over histories.", "anchors": ["api/include/cmp/io/impl/unix_like/unix_like_file.hpp", "api/src/cmp/io/impl/unix_like/unix_like_file.cpp: close, ~file"]}
{"id": "C61", "title": "Test runner totals", "statement": "run_tests runs every registered test function exactly once in order, returns the number of tests whose result was failure, and lists exactly those.", "quantifier": "all lists of test functions and results", "why_tests_cant": "Unbounded lists.", "anchors": ["api/src/cmp/core/test_module.ipp: run_tests, end_test"]}
{"id": "C62", "title": "Test message queue is first-in first-out", "statement": "pop_message returns messages in the order pushed and the designated empty message when none is left; ending a test discards leftovers so the next test starts with an empty queue.", "quantifier": "all histories of push, pop and clear", "why_tests_cant": "Histories are unbounded.", "anchors": ["api/src/cmp/core/test_module.ipp: push_message, pop_message, clear_message_queue, end_test"]}
{"id": "C63", "title": "Zero padding", "statement": "The padded rendering of a test number has the width of the total's decimal representation, consists of decimal digits and denotes the number, and is produced without out-of-bounds access.", "quantifier": "all numbers and totals with number <= total", "why_tests_cant": "Unbounded.", "anchors": ["api/src/cmp/core/test_module.ipp: zero_pad, count_digits"]}
{"id": "C64", "title": "Native events reach exactly the right window object", "statement": "After any history of opening, closing and moving window objects, an event for an open native window is delivered to the one window object that currently owns it, and to no other.", "quantifier": "all histories of open, close and move operations", "why_tests_cant": "Histories unbounded, moves re-point a global registry.", "anchors": ["api/src/cmp/desktop_gui/impl/gtk/gtk_window.cpp: open, window(window&&), operator=, fix_association, forward_*"]}
{"id": "C65", "title": "Close requests can be vetoed and otherwise close the window", "statement": "When a close request arrives, the window's close handler decides: if it vetoes, the window stays open and keeps receiving events; otherwise it is unregistered and receives no further events.", "quantifier": "all handlers and histories", "why_tests_cant": "All reachable registry states.", "anchors": ["api/src/cmp/desktop_gui/impl/gtk/gtk_window.cpp: forward_close_event", "api/src/cmp/desktop_gui/close_event.cpp"]}
{"id": "C66", "title": "A closed window can be opened again", "statement": "After a window has been closed, open() on the same object opens it again and returns true.", "quantifier": "all histories", "why_tests_cant": "State left by arbitrary histories.", "anchors": ["api/src/cmp/desktop_gui/impl/gtk/gtk_window.cpp: open, close"]}
{"id": "C67", "title": "Key translation and naming", "statement": "Distinct printable keys reported by each platform are translated to the key they denote (letters regardless of case), every other code to unknown, and each key has a distinct display name.", "quantifier": "all native key codes on the three platforms", "why_tests_cant": "2^32 native codes.", "anchors": ["api/src/cmp/desktop_gui/impl/gtk/gtk_window.cpp: translate_key_code", "api/src/cmp/desktop_gui/general.cpp: to_u8string"]}
{"id": "C68", "title": "Frame times add up", "statement": "For every sequence of clock readings, the total time passed to a window's update equals the sum of all delta times since its start, and deltas are the differences of consecutive readings.", "quantifier": "all clock sequences", "why_tests_cant": "Unbounded sequences.", "anchors": ["api/src/cmp/desktop_gui/impl/common/common_window.cpp: update_window"]}
{"id": "C69", "title": "The application accessor returns the application object", "statement": "cmp::app() returns the application object most recently constructed, for every history of application construction and moves.", "quantifier": "all histories", "why_tests_cant": "Histories.", "anchors": ["api/src/cmp/core/application.cpp"]}
{"id": "C70", "title": "Floating-point text round trip in binary radices", "statement": "In a radix that is a power of two, formatting a finite floating-point number with no place limit and no thousands separator and parsing the result with the same format returns exactly that number.", "quantifier": "all finite values of float and double, radices 2, 4, 8, 16, 32, all encodings of the text", "why_tests_cant": "2^64 values; the result depends on no operation of either loop rounding.", "anchors": ["api/src/cmp/unicode/formatters.ipp: number_formatter::format_floating_point", "api/src/cmp/unicode/parsers.ipp: number_parser::parse_floating_point"]}
{"id": "C71", "title": "Approximate comparison is an equivalence", "statement": "For a fixed number of decimal places cmp_equal is reflexive, symmetric and transitive, cmp_not_equal is its negation, and where multiplication by the power of ten is exact two numbers compare equal just if they have the same integral part after moving the decimal point.", "quantifier": "all pairs and triples of finite numbers, all roundings", "why_tests_cant": "Unbounded pairs and triples of values.", "anchors": ["api/src/cmp/core/general.ipp: cmp_equal, cmp_not_equal"]}
{"id": "C72", "title": "An error on standard input is not reported as data", "statement": "If the operating system reports an error when standard input is read, stdin_resource::read reports that no bytes were read.", "quantifier": "all capacities, request sizes and points in the schedule at which the error occurs", "why_tests_cant": "Errors of the system cannot be provoked at every point by a test.", "anchors": ["api/src/cmp/io/impl/unix_like/unix_like_uin.cpp: stdin_resource::read_raw", "api/src/cmp/io/input_resource.cpp: fill"]}
{"id": "C73", "title": "A file read is right for every size", "statement": "file::read on an unbuffered file returns the next bytes of the file however many are asked for, also when the operating system transfers only a limited number of bytes per call.", "quantifier": "all file contents and request sizes", "why_tests_cant": "The interesting sizes are above 4 GiB (Windows) or 8 EiB (Unix).", "anchors": ["api/src/cmp/io/impl/windows/windows_file.cpp: read_raw", "api/src/cmp/io/impl/unix_like/unix_like_file.cpp: read_raw"]}
{"id": "C74", "title": "A file for reading and writing acts like an array of bytes", "statement": "For every sequence of read, write, set_position and flush on a file opened read_and_write, each read returns what an array of bytes with a cursor would, after a flush the file has the content of that array, and no other file has changed.", "quantifier": "all file contents, buffer capacities, operation sequences and schedules of short reads", "why_tests_cant": "Unbounded interleavings of operations through one shared buffer.", "anchors": ["api/src/cmp/io/file.cpp: read, write", "api/src/cmp/io/seekable_io_resource.ipp: set_position", "api/src/cmp/io/impl/unix_like/unix_like_file.cpp", "api/src/cmp/io/impl/windows/windows_file.cpp"]}
{"id": "C75", "title": "String output is transcoded to the stream's encoding", "statement": "Writing a well-formed string of any character type (char, char8_t, char16_t, char32_t, wchar_t of 2 or 4 bytes) to a text_output_stream appends exactly the encoding scheme's serialisation of its text, whatever the stream's encoding form and byte order.", "quantifier": "all texts, six character types, three encoding forms, stream and host byte orders", "why_tests_cant": "Unbounded texts times all combinations of encodings; host byte order cannot be varied in a test.", "anchors": ["api/src/cmp/io/text_output_stream.ipp: operator<< for string views"]}
{"id": "C76", "title": "Applications carry their command line and notice", "statement": "For every history of constructing, moving, assigning and destroying application objects and setting copyright notices, get_argc and get_argv return the arguments the object (or the one it was moved from) was constructed with, and get_copyright_notice returns the notice last set on it, or on the object it was moved from before the move, or empty text.", "quantifier": "all histories, all numbers of objects", "why_tests_cant": "Unbounded histories of moves between objects.", "anchors": ["api/src/cmp/core/application.cpp", "api/include/cmp/core/application.hpp"]}
{"id": "C77", "title": "Output operators write the text of their argument", "statement": "For every sequence of output operators applied to a text_output_stream, the bytes appended are the encoding, in the stream's encoding form and endianness, of the concatenated texts: an ASCII char or a char32_t scalar value stands for itself, a bool for 1 or 0, an integer for its decimal notation without superfluous zeros, a null-terminated array for the characters before the first null, a string view for its characters.", "quantifier": "all argument sequences and values of all integer types, three encoding forms, both stream and host byte orders, every output resource", "why_tests_cant": "Unbounded sequences and values; host endianness cannot be varied in a test.", "anchors": ["api/src/cmp/io/text_output_stream.ipp: operator<< (char, char32_t, const CharT*, string views, bool, integral)"]}
{"id": "C78", "title": "Floating-point numbers survive a trip through a text stream", "statement": "Finite floating-point numbers written to a text_output_stream, separated by whitespace, and extracted with operator>> from a text_input_stream of the same encoding form and endianness come back exactly if they are integers, and otherwise with a relative error of at most 2^-46 (double) or 2^-17 (float).", "quantifier": "all sequences of finite values with few binary places whose integral part fits long long, negative ones included; three encoding forms; both byte orders; every IEEE-like rounding", "why_tests_cant": "Unbounded sequences and 2^64 values; the error bound depends on the rounding of every operation in two loops.", "anchors": ["api/src/cmp/io/text_output_stream.ipp: operator<< (floating_point)", "api/src/cmp/io/text_input_stream.ipp: operator>> (floating_point)", "api/src/cmp/unicode/formatters.ipp: format_floating_point", "api/src/cmp/unicode/parsers.ipp: parse_floating_point"]}
{"id": "C79", "title": "A failed increment leaves the iterator where it was", "statement": "If incrementing a by_code_point iterator throws because the text is malformed, the iterator still refers to the position it had before, so that the caller can report or skip the offending code unit.", "quantifier": "all strings of each character type, well-formed or not, all positions before the end", "why_tests_cant": "The state after an exception must be considered for every malformed string.", "anchors": ["api/src/cmp/unicode/by_code_point.cpp: operator++, advance, finish_sequence"]}
{"id": "C80", "title": "Signed offsets move in either direction", "statement": "For every by_code_point iterator it and every offset n of difference_type, negative ones included, 'it += n' moves it n code points forward if n >= 0 and -n code points back otherwise, and 'it -= n' does the opposite.", "quantifier": "all strings of each character type, all positions, all offsets", "why_tests_cant": "Offsets and strings are unbounded.", "anchors": ["api/src/cmp/unicode/by_code_point.cpp: operator+=, operator-=, advance(difference_type), retreat(difference_type)"]}
{"id": "C81", "title": "Postfix operators and comparison", "statement": "it++ and it-- return the position before and change the iterator exactly as ++it and --it do; a loop 'while (it != range.end()) use(*it++)' visits the code points a range-based for loop visits, whenever the latter reaches the end.", "quantifier": "all strings of each character type, all positions", "why_tests_cant": "All strings and positions.", "anchors": ["api/src/cmp/unicode/by_code_point.cpp: operator++(int), operator--(int), operator==, operator!=, begin, end"]}
{"id": "C82", "title": "string_size counts the code units before the terminator", "statement": "string_size of a pointer to a zero-terminated array is the number of code units before the first zero and nothing behind that zero is read; for a string or string view it is the number of its code units; the two agree on a text exactly if it contains no zero unit.", "quantifier": "all texts of each character type", "why_tests_cant": "Texts are unbounded.", "anchors": ["api/src/cmp/unicode/algorithms.cpp: string_size"]}
{"id": "C83", "title": "Dialogues on the standard streams", "statement": "A program that alternately prints with uout << ... and reads with uin.read_line(string), uin >> string or uin >> integer gets exactly what the user typed for each question, in order, and whenever the program makes the system wait for input, everything it has printed so far (as UTF-8, without explicit flush) has already reached standard output. Reading a word or number takes the line end behind it too, so that a following read_line gets the next line.", "quantifier": "for all sequences of turns (printed arguments of any kind; lines, words and integers typed with LF or CR LF), both platforms (UTF-8 input on Unix, UTF-16 console input on Windows), all buffer capacities of both streams including 0, all portions in which the system hands out the input, and whatever input follows", "why_tests_cant": "The order of events depends on the interleaving of two buffers and on how the terminal hands out input; a test with redirected streams sees neither the order nor the portions.", "anchors": ["api/src/cmp/io/uio.cpp", "api/src/cmp/io/impl/unix_like/unix_like_uin.cpp: stdin_resource", "api/src/cmp/io/impl/windows/windows_uin.cpp: stdin_resource", "api/src/cmp/io/input_resource.cpp: read, tie", "api/src/cmp/io/text_input_stream.ipp: read_line, operator >>"]}
{"id": "C84", "title": "Reading an answer does not wait for more input than the answer", "statement": "Reading a line, a word or a number from uin never makes the system wait for input behind the end of the line the user typed for it: while the program waits, the end of that line has not been handed out yet.", "quantifier": "for all sequences of turns as in C83, both platforms, all buffer capacities, all portions in which the system hands out the input, and any non-empty further input", "why_tests_cant": "Tests read from files or pipes whose content is already there, so a read too many never blocks.", "anchors": ["api/src/cmp/io/impl/unix_like/unix_like_uin.cpp: stdin_resource::read_raw", "api/src/cmp/io/input_resource.cpp: read", "api/src/cmp/io/text_input_stream.ipp: append_line, read_filtered_code_point, operator >>"]}
{"id": "C85", "title": "Files and containers report the right position and end", "statement": "After any sequence of read, write, set_position and flush on a file opened read_and_write or on a container of bytes, get_position is the position of the cursor of an array of bytes subjected to the same operations, and is_at_end says whether that cursor is at the end of the array.", "quantifier": "all contents, all operation sequences, all buffer capacities including 0, both platforms for files", "why_tests_cant": "The answer is computed from the device's position and the buffer's, in every combination of pending input, pending output and seek.", "anchors": ["api/src/cmp/io/impl/unix_like/unix_like_file.cpp: get_position", "api/src/cmp/io/impl/windows/windows_file.cpp: get_position", "api/src/cmp/io/file.cpp: is_at_end", "api/src/cmp/io/impl/ctr_essence.ipp: get_position, is_at_end"]}
{"id": "C86", "title": "Records of fixed size in a random access file", "statement": "A program that keeps records of fixed layout in a container of bytes or a file through a data_io_stream (moving the resource to i times the record size, then writing the fields with << or reading them with >>), may mix loading, replacing, appending and asking for the size in any order: every load delivers the record stored last under that number, the size is the number of records times the record size, and after the stream is destroyed the container or file holds exactly the current records, in the stream's byte order.", "quantifier": "all layouts, all initial records, all sequences of operations on records in range, all buffer capacities including 0, both byte orders, containers and files on both platforms", "why_tests_cant": "Whether a load sees an earlier store depends on what is pending in the buffer, which depends on the whole history.", "anchors": ["api/src/cmp/io/data_io_stream.ipp", "api/src/cmp/io/data_input_stream.ipp: operator >>", "api/src/cmp/io/data_output_stream.ipp: operator <<", "api/src/cmp/io/output_stream.ipp: ~output_stream", "api/src/cmp/io/seekable_io_resource.ipp: set_position", "api/src/cmp/io/file.cpp: is_at_end", "api/src/cmp/io/impl/ctr_essence.ipp"]}
{"id": "C87", "title": "Notes in a text file for reading and writing", "statement": "A program that keeps text in a container of bytes or a file through a text_io_stream, going to the end and asking for the position before writing a note (integers and booleans separated by whitespace), and going back to a remembered position to read a note with >>, reads every note exactly as written, in any order and as often as it likes, and after the stream is destroyed the container or file holds the earlier content followed by all notes in the chosen encoding form and byte order.", "quantifier": "all sequences of adding and reading, all notes, all earlier contents, all five encoding forms and byte orders, all buffer capacities that hold a character or none, containers and files on both platforms", "why_tests_cant": "Adding while something is still in the read buffer, and reading while something is unwritten, depend on the whole history, on the buffer size and on the encoding.", "anchors": ["api/src/cmp/io/text_io_stream.ipp", "api/src/cmp/io/text_input_stream.ipp: operator >>", "api/src/cmp/io/text_output_stream.ipp: operator <<", "api/src/cmp/io/output_stream.ipp: ~output_stream", "api/src/cmp/io/seekable_io_resource.ipp: set_position", "api/src/cmp/io/impl/unix_like/unix_like_file.cpp: get_position", "api/src/cmp/io/impl/windows/windows_file.cpp: get_position", "api/src/cmp/io/impl/ctr_essence.ipp: get_position"]}
{"id": "C88", "title": "Positions counted from the end", "statement": "After any sequence of reads, writes, seeks and flushes, set_position(-d, position_reference::end) with d not above the size makes the following reads deliver the last d bytes of what is then the content, in files as in containers.", "quantifier": "all histories, contents, buffer capacities, d up to the size, sizes of the following reads", "why_tests_cant": "The repository's tests use one distance for files and 0 for containers; data that are still in the buffer count for the end.", "anchors": ["api/src/cmp/io/seekable_io_resource.ipp: set_position", "api/src/cmp/io/impl/ctr_essence.ipp: set_position", "api/src/cmp/io/impl/unix_like/unix_like_file.cpp: set_position", "api/src/cmp/io/impl/windows/windows_file.cpp: set_position"]}
{"id": "C89", "title": "Positions outside of the content are harmless", "statement": "After any sequence of reads, writes, seeks and flushes, set_position(k, position_reference::begin) with any k is defined: a negative k means the beginning, and behind the end reads deliver no bytes and is_at_end says yes.", "quantifier": "all histories, contents, buffer capacities, all k, sizes of the following reads", "why_tests_cant": "The tests use positions inside the content only.", "anchors": ["api/src/cmp/io/seekable_io_resource.ipp: set_position", "api/src/cmp/io/impl/ctr_essence.ipp: set_position, read_raw", "api/src/cmp/io/impl/unix_like/unix_like_file.cpp: set_position", "api/src/cmp/io/file.cpp: is_at_end", "api/src/cmp/io/impl/windows/windows_file.cpp: set_position"]}
{"id": "C90", "title": "Windows have the title they were given last", "statement": "get_title returns exactly the text last given to the window the object shows, by the constructor, by open or by set_title, for every Unicode text without NUL, also after the window was moved from one object to another; an object without a window has an empty title.", "quantifier": "all titles, all histories of constructions, moves, opening, closing, events, show and hide, all three toolkits", "why_tests_cant": "The titles and the histories are unbounded, and no test opens a window.", "anchors": ["api/src/cmp/desktop_gui/impl/gtk/gtk_window.cpp: get_title, set_title, open", "api/src/cmp/desktop_gui/impl/macos/macos_window.mm: get_title, set_title, open", "api/src/cmp/desktop_gui/impl/windows/windows_window.cpp: get_title, set_title, open"]}
{"id": "C91", "title": "Windows are visible as they were last told, in their mode", "statement": "A window is visible exactly if the last call of show and hide for it was show; whenever it is visible it is in the mode given when it was opened, or in the one the user has put it into since.", "quantifier": "all histories, modes, all three toolkits", "why_tests_cant": "Histories are unbounded; no test opens a window.", "anchors": ["api/src/cmp/desktop_gui/impl/gtk/gtk_window.cpp: show, hide, open", "api/src/cmp/desktop_gui/impl/macos/macos_window.mm: show, hide, open", "api/src/cmp/desktop_gui/impl/windows/windows_window.cpp: show, hide, open"]}
{"id": "C92", "title": "The application runs until the last window is gone", "statement": "run of a desktop application returns 0, as soon as and only when no window is open, whatever events are still in store; until then every event was delivered to the window object it was meant for, and every idle turn updated all of them.", "quantifier": "all programs and all sequences of events and idle turns, of any length", "why_tests_cant": "Event sequences are unbounded and come from the user.", "anchors": ["api/src/cmp/desktop_gui/impl/gtk/gtk_desktop_gui_application.cpp: run", "api/src/cmp/desktop_gui/impl/macos/macos_desktop_gui_application.mm: run", "api/src/cmp/desktop_gui/impl/windows/windows_desktop_gui_application.cpp: run", "api/src/cmp/desktop_gui/impl/common/common_window.cpp: update_window"]}
{"id": "C93", "title": "Handlers may use the library", "statement": "What a window object does inside of a handler of a key, resize or update event, such as closing its own window, opening others, moving objects or changing titles, has the effect it has after the event.", "quantifier": "all histories before, all actions programs may do at that time, all toolkits", "why_tests_cant": "Every action in every reachable state would have to be tried; no test has handlers.", "anchors": ["api/src/cmp/desktop_gui/impl/gtk/gtk_window.cpp: forward_key_down_event_to_window, forward_key_up_event_to_window, forward_resize_event_to_window", "api/src/cmp/desktop_gui/impl/windows/windows_window.cpp: forward_key_down_event_to_window", "api/src/cmp/desktop_gui/impl/macos/macos_window.mm: forward_key_down_event_to_window", "api/src/cmp/desktop_gui/impl/gtk/gtk_desktop_gui_application.cpp: run"]}
{"id": "C94", "title": "The examiners of code units tell where characters begin", "statement": "In every well-formed UTF-8 text, is_standalone_byte, is_leading_byte and is_trailing_byte hold exactly for the units that are a character of their own, begin a longer character, or continue one. In every well-formed UTF-16 text the same holds of not is_surrogate, is_leading_surrogate and is_trailing_surrogate. Hence the number of units that do not trail is the number of code points, and fits_in_7_bits says which code points take one unit of UTF-8.", "quantifier": "for all sequences of Unicode scalar values and their encodings in UTF-8 and UTF-16; for all 32-bit values in case of fits_in_7_bits", "why_tests_cant": "The claim is about every position of every text; a test looks at a few characters of a few lengths.", "anchors": ["api/src/cmp/unicode/examiners.ipp: fits_in_7_bits, is_standalone_byte, is_leading_byte, is_trailing_byte, is_leading_surrogate, is_trailing_surrogate, is_surrogate"]}
{"id": "C95", "title": "A file object opened later behaves like one constructed with the path", "statement": "A file object that is default-constructed and then opened successfully cannot be told apart from one constructed with the same path, access mode and policy: every sequence of read, write, flush, set_position, open and close gives the same bytes, counts, exceptions, positions, modes and end tests.", "quantifier": "all file systems, capacities, modes, schedules of short reads and operation sequences", "why_tests_cant": "Two objects must agree on every history, including those with exceptions that are caught.", "anchors": ["api/src/cmp/io/file.cpp: basic_file constructors, is_at_end", "api/src/cmp/io/impl/unix_like/unix_like_file.cpp: file, open", "api/src/cmp/io/impl/windows/windows_file.cpp: file, open"]}
{"id": "C96", "title": "What is saved to a file is what is loaded from it", "statement": "After a file is opened for writing with creation, written in any pieces with flushes in between and closed, opening it again and reading delivers exactly the bytes written and then nothing, and no other file has changed.", "quantifier": "all file systems, capacities of both objects, pieces, flushes and read requests, on both platforms", "why_tests_cant": "Unbounded sequences of writes through buffers of any size, and files of any earlier content.", "anchors": ["api/src/cmp/io/impl/unix_like/unix_like_file.cpp: open, close, write_raw, read_raw", "api/src/cmp/io/impl/windows/windows_file.cpp: open, close, write_raw, read_raw", "api/src/cmp/io/file.cpp: write, read"]}
{"id": "C97", "title": "A text saved with a byte order mark is loaded on any machine", "statement": "A program that writes a byte order mark and prints values and line ends to a file, in any encoding form and byte order, leaves a file that holds the mark and the text and nothing else; a program on any platform and host that reads the mark and then lines gets the mark and the lines printed, whatever byte order its stream was configured with.", "quantifier": "all encoding forms, byte orders of both hosts, of the text and of the configuration, platforms, capacities, values and lines", "why_tests_cant": "Combines two programs on different machines; texts of any length and content.", "anchors": ["api/src/cmp/io/text_output_stream.ipp: write_bom, operator<<", "api/src/cmp/io/text_input_stream.ipp: read_bom, read_line", "api/src/cmp/io/file.cpp"]}
{"id": "C98", "title": "An object that has no file neither delivers nor accepts bytes", "statement": "A file object made without a path, or whose file could not be opened, delivers no bytes when read, returns 0 for every write its access mode permits, reports that it is not open, and no file is changed, in whatever order it is used until a file is opened; operations its access mode forbids throw.", "quantifier": "all platforms, buffer capacities, access modes, file systems and finite sequences of operations without an open", "why_tests_cant": "Any sequence of operations; the failure shows only in return values and files that are not changed.", "anchors": ["api/src/cmp/io/file.cpp: read, write", "api/src/cmp/io/impl/unix_like/unix_like_file.cpp", "api/src/cmp/io/impl/windows/windows_file.cpp", "api/src/cmp/io/output_resource.cpp: write"]}
{"id": "C99", "title": "Counts returned by standard output tell what the system accepted", "statement": "A program that offers again whatever was not counted as accepted by a write to standard output, and flushes at the end, has everything accepted by the system, in order and once, even if the system accepts less than it is offered or calls fail.", "quantifier": "all byte sequences, schedules of accepted amounts and failures, buffer capacities, both platforms", "why_tests_cant": "Depends on partial transfers and failures of the operating system.", "anchors": ["api/src/cmp/io/output_resource.cpp: write, flush", "api/src/cmp/io/impl/unix_like/unix_like_uout.cpp: write_raw", "api/src/cmp/io/impl/windows/windows_uout.cpp: write_raw"]}
{"id": "C100", "title": "Container resources for one direction act like an array with a cursor", "statement": "Any sequence of reads and changes of position on an input container resource delivers what an array of bytes with a cursor delivers; any sequence of writes, changes of position and flushes on an output container resource leaves, after a final flush, the content such an array has; get_position is the position of the cursor.", "quantifier": "all element sizes, contents, buffer capacities and finite sequences of operations", "why_tests_cant": "Unbounded interleavings; data waiting in the buffer must be written where the cursor was.", "anchors": ["api/src/cmp/io/seekable_input_resource.ipp: set_position", "api/src/cmp/io/seekable_output_resource.ipp: set_position", "api/src/cmp/io/impl/ctr_essence.ipp", "api/src/cmp/io/input_resource.cpp", "api/src/cmp/io/output_resource.cpp"]}
{"id": "C101", "title": "Reading and writing in portions makes a copy", "statement": "A program that reads portions of any size from a file or container until it is at its end, writes each portion to another and flushes, makes the other an exact copy and leaves the source and all other files as they are.", "quantifier": "all contents, portion sizes, buffer capacities of both, platforms, access modes that permit it", "why_tests_cant": "Combines reading, end test and writing for every content and every ratio of portion to buffer.", "anchors": ["api/src/cmp/io/input_resource.cpp: read", "api/src/cmp/io/output_resource.cpp: write, flush", "api/src/cmp/io/impl/ctr_essence.ipp: is_at_end", "api/src/cmp/io/file.cpp"]}
{"id": "C102", "title": "Copying a text changes its encoding and nothing else", "statement": "A program that reads code points from one text stream until the end and writes them to another leaves there the same text in the encoding form and byte order of the target, except that CR LF becomes LF; a byte order mark read from the source and written to the target marks it in its own byte order.", "quantifier": "all texts, encoding forms and byte orders of source, target and host, buffer capacities, resources", "why_tests_cant": "Nine pairs of forms, four of byte orders, two hosts, texts of any length.", "anchors": ["api/src/cmp/io/text_input_stream.ipp: operator>>, read_bom", "api/src/cmp/io/text_output_stream.ipp: operator<<"]}
{"id": "C103", "title": "Streams with different settings share a resource", "statement": "Any number of data and text output streams may be used on one resource in any order, be copied, given another byte order or encoding form in the middle, flushed and destroyed; the resource then holds what was written in the order in which it was written, each value in the byte order and each code point in the encoding form and byte order its own stream had at that moment, and a program that uses input streams in the same way reads everything back.", "quantifier": "every program of constructions, copies, changes of settings, writes, flushes and destructions of streams; every buffer size of the writing and of the reading resource; containers, and files on both platforms", "why_tests_cant": "The number of streams, the interleaving of their operations and the moments at which settings change are unbounded, and errors depend on what is in the buffer at each of them.", "anchors": ["api/src/cmp/io/input_stream.ipp: input_stream::set_endianness", "api/src/cmp/io/output_stream.ipp: output_stream::set_endianness, ~output_stream, flush", "api/src/cmp/io/text_input_stream.ipp: set_encoding_form", "api/src/cmp/io/text_output_stream.ipp: set_encoding_form", "api/include/cmp/io/output_stream.hpp: copy and move operations"]}
{"id": "C104", "title": "Dummies report every special member function and keep their values", "statement": "A test that constructs, copies, moves, destroys, reads and sets dummy objects, and pushes, takes, counts and clears messages, finds in the message queue exactly the special member functions that were called, in order; every value read is the one the object was given last, where copies and moved-to objects have the value of their source at the time and moved-from objects have zero; and of the messages of a test as many announce the beginning of an object as announce the end of one, but for the objects still there.", "quantifier": "every sequence of operations in which only existing objects are used", "why_tests_cant": "The sequences are unbounded, and the point of the objects is that tests of other code can rely on them whatever that code does.", "anchors": ["api/src/cmp/core/test_module.ipp: test_module::dummy", "api/src/cmp/core/test_module.ipp: push_message, pop_message"]}
{"id": "C105", "title": "format_floating_point returns", "statement": "format_floating_point comes back with a string for every finite number whose integral part fits the integer type it uses, in every radix.", "quantifier": "all finite floats and doubles with an integral part in the range of long long, all valid formats, all machines that round to nearest", "why_tests_cant": "The digit loop has no bound of its own; whether it ends depends on the radix, on the binary places of the number and on how the machine rounds at every step.", "anchors": ["api/src/cmp/unicode/formatters.ipp: number_formatter::format_floating_point"]}
{"id": "C106", "title": "format_floating_point is accurate when the machine rounds", "statement": "The text that format_floating_point writes denotes a number that differs from the given one by at most twice the machine's unit round-off, plus one unit in the last place if a place limit cuts the expansion. Integers are written exactly. A place limit of exactly n gives n places.", "quantifier": "all finite floats and doubles with an integral part in the range of long long, all even radices and all radices with a place limit, all machines that round to nearest", "why_tests_cant": "Errors of hundreds of rounded steps could add up; the bound holds for every value and every choice at ties.", "anchors": ["api/src/cmp/unicode/formatters.ipp: number_formatter::format_floating_point"]}
{"id": "C107", "title": "Parsing a formatted number gives nearly the number back, for ordinary doubles", "statement": "Formatting a number with format_floating_point and parsing the text with parse_floating_point and the same format gives a number that differs from the given one by a relative error of at most 4(k+1) units of round-off, k being the number of binary places of the number; integers come back exactly.", "quantifier": "all floats with up to 29 and all doubles with up to 289 binary places in radix 10 (and so on for other even radices), all machines that round to nearest", "why_tests_cant": "The values that make the machine round are almost all values; a table of samples says nothing on the worst of them.", "anchors": ["api/src/cmp/unicode/formatters.ipp: number_formatter::format_floating_point", "api/src/cmp/unicode/parsers.ipp: number_parser::parse_floating_point"]}
{"id": "C108", "title": "parse_floating_point accepts only numerals", "statement": "parse_floating_point returns a number only for an optional sign, digits of the radix grouped as the format says and, if there is a radix character, digits of the radix behind it; for every other text it throws parse_failed.", "quantifier": "all texts in all encodings, all valid formats, every rounding of the machine", "why_tests_cant": "The set of texts that are not numerals is infinite and irregular: second radix characters, signs in the middle, letters beyond the radix, misplaced separators.", "anchors": ["api/src/cmp/unicode/parsers.ipp: number_parser::parse_floating_point", "api/src/cmp/unicode/parsers.ipp: number_parser::parse_integer"]}
{"id": "C109", "title": "parse_floating_point observes the place limit", "statement": "With a limit of exactly n places parse_floating_point accepts numerals with n places after the radix character and throws parse_failed (wrong_place_limit) for others; with a limit of up to n places it accepts those with at most n places and rejects others.", "quantifier": "all numerals whose integral part fits long long, all valid formats, every rounding of the machine", "why_tests_cant": "Any combination of limit, count and number of places.", "anchors": ["api/src/cmp/unicode/parsers.ipp: number_parser::parse_floating_point", "api/src/cmp/unicode/formats.hpp: radix_place_limit"]}
{"id": "C110", "title": "parse_floating_point reports the right reason", "statement": "When parse_floating_point throws parse_failed because of a character that is no digit of the radix, the reason is digit_character_expected; a failure in the integral part has the reason that parse_integer gives for that part.", "quantifier": "all texts in all encodings, all valid formats", "why_tests_cant": "Every position and every character.", "anchors": ["api/src/cmp/unicode/parsers.ipp: number_parser::parse_floating_point", "api/src/cmp/unicode/parsers.hpp: parse_failed"]}
{"id": "C111", "title": "Input resources on containers can be copied and moved", "statement": "A copy of a transparent_container_input_resource continues where the original stands and is independent of it; moving hands the reader over. Whatever a program does with several such objects (construct, copy, move, assign, read, seek, ask for position and end), each object reads the bytes of its container from where it stands, no byte twice and none left out.", "quantifier": "all histories of all numbers of objects, all containers, all buffer sizes", "why_tests_cant": "Copies and moves interleave with reads that leave data in the buffers in unboundedly many ways, and the standard leaves open how often a virtual base is assigned.", "anchors": ["api/include/cmp/io/transparent_container_input_resource.hpp: copy and move operations", "api/src/cmp/io/transparent_container_input_resource.ipp", "api/include/cmp/io/transfer_resource.hpp: transfer_resource", "api/include/cmp/io/io_buffer.hpp: io_buffer"]}
{"id": "C112", "title": "Characters through text streams", "statement": "A character that is written to a text_output_stream with << comes back with >> into a variable of the same type, and what is written is the character.", "quantifier": "all values of char, char8_t, char16_t, wchar_t, all encodings, byte orders and buffer sizes", "why_tests_cant": "All characters of all types in all encodings; which overload is chosen differs between writing and reading.", "anchors": ["api/src/cmp/io/text_output_stream.ipp: operator <<", "api/src/cmp/io/text_input_stream.ipp: operator >>"]}
{"id": "C113", "title": "Standard output and standard error keep apart, lose nothing and are visible before input is awaited", "statement": "What a program sends to uout and to uerr arrives at the respective handle, in order and complete by the end of the program, with nothing mixed; and before the system is asked for input all that was sent to either has arrived.", "quantifier": "all histories of writes and flushes on both and reads, all buffer sizes, both platforms, all schedules of short reads", "why_tests_cant": "What is in which buffer at the time of a request for input depends on the whole history and on what the system hands out.", "anchors": ["api/src/cmp/io/impl/unix_like/unix_like_uout.cpp: uout_resource, uerr_resource", "api/src/cmp/io/impl/windows/windows_uout.cpp", "api/src/cmp/io/impl/unix_like/unix_like_uin.cpp: stdin_resource", "api/src/cmp/io/uio.cpp", "api/src/cmp/io/output_stream.ipp: ~output_stream"]}
{"id": "C114", "title": "Standard streams in constructors and destructors of static objects", "statement": "The standard streams and their resources are constructed before the first use and destroyed after the last, also for uses by constructors and destructors of objects of static storage duration.", "quantifier": "all programs, all orders in which translation units are initialised, compiled and header-only library", "why_tests_cant": "The order of initialisation of translation units is up to the linker, and a wrong access need not fail.", "anchors": ["api/src/cmp/io/definitions.cpp", "api/src/cmp/io/uio.cpp: uin, uout, uerr", "api/include/cmp/io/uio.hpp", "api/src/cmp/io/impl/unix_like/unix_like_uin.cpp: uin_resource", "api/src/cmp/io/impl/unix_like/unix_like_uout.cpp: uout_resource"]}
{"id": "C115", "title": "A file write is right for every size", "statement": "One write to a file stores exactly the bytes it is given at the position, whatever their number, and returns that number.", "quantifier": "all contents, positions inside the content, data of any size, both platforms", "why_tests_cant": "The interesting sizes are larger than what the system takes in one call, 4 GiB on Windows.", "anchors": ["api/src/cmp/io/impl/unix_like/unix_like_file.cpp: write_raw, write_block", "api/src/cmp/io/impl/windows/windows_file.cpp: write_raw, write_block"]}
{"id": "C116", "title": "What was read before a failure is not lost", "statement": "When `read_line`, `append_line`, `read_all`, `append_all` or `operator >>` for strings meets bytes that are not a character, a character the string type rejects or the end inside a character, it throws the exception that reading this character alone would throw, the string holds exactly the characters before it (behind its former content for `append_…`), and the next read goes on behind what was consumed. A variable that is read into with `operator >>` for characters, truth values and numbers changes only if the operator returns normally.", "quantifier": "all sources, all byte sequences in them, all encoding forms, byte orders, string types and former contents", "why_tests_cant": "What is in a variable after an exception depends on every byte before the failure, and there are unboundedly many places for it.", "anchors": ["api/src/cmp/io/text_input_stream.ipp: append_line, read_line, append_all, read_all, operator >>"]}
{"id": "C117", "title": "Reading goes on behind malformed input", "statement": "A program that reads characters until the end and goes on after exceptions gets all characters of a text in which stray code units or characters that are cut short stand between other characters.", "quantifier": "all texts before and behind, all malformed units between them, all encoding forms, byte orders and buffer sizes", "why_tests_cant": "How much of the input a failed read consumes depends on the units around the failure.", "anchors": ["api/src/cmp/io/text_input_stream.ipp: read_utf8_code_point, read_utf16_code_point, finish_utf8_sequence, finish_utf16_sequence, read_filtered_code_point, operator >>"]}
{"id": "C118", "title": "A container is a log that one resource writes and many read", "statement": "Any number of transparent container resources may refer to one container; what one writes the others read. If one output resource writes to a container of bytes that starts empty, input resources that are constructed or copied at any time read what was written, in order and with nothing left out or twice: at least as much as was flushed, as far as they ask for it; they report how much they read as their position, that they are at the end when there is nothing more, and never that they are at the end while there are flushed data they did not read.", "quantifier": "for all sequences of constructions, copies, writes, flushes, reads, positions and queries of the end by one output and any number of input resources, with buffers of all sizes; in full for any number of both, elements of all sizes, all positions, destruction, and changes of the container by the program between", "why_tests_cant": "How the operations of several resources with buffers of their own interleave on one container has no bound; a test fixes one interleaving.", "anchors": ["api/src/cmp/io/transparent_container_input_resource.ipp", "api/src/cmp/io/transparent_container_output_resource.ipp", "api/include/cmp/io/transparent_container_input_resource.hpp", "api/include/cmp/io/transparent_container_output_resource.hpp", "api/src/cmp/io/impl/ctr_essence.ipp"]}
{"id": "C119", "title": "The content of a container I/O resource is the same through all its classes", "statement": "A container I/O resource can be passed on as the input resource and as the output resource it is derived from; whichever class it is used as, grab_content refers to the content that it reads and writes.", "quantifier": "for all sequences of operations, looks at the content and changes of it through the classes, for opaque and transparent I/O resources with all contents, element sizes and capacities", "why_tests_cant": "Whether two references show the same content after every history of operations through both is a statement about all histories.", "anchors": ["api/include/cmp/io/opaque_container_io_resource.hpp", "api/src/cmp/io/opaque_container_io_resource.ipp", "api/src/cmp/io/opaque_container_input_resource.ipp", "api/src/cmp/io/opaque_container_output_resource.ipp", "api/src/cmp/io/transparent_container_io_resource.ipp"]}
{"id": "C120", "title": "cmp_equal compares numbers up to the given number of decimal places", "statement": "cmp_equal(value1, value2, n) is true exactly when the two numbers, written in the decimal system, have the same sign, the same integral part and the same first n digits behind the point, as the documentation says (1.123 and 1.124 are equal up to two places but not up to three). In particular each number is equal to itself for every n.", "quantifier": "for all finite numbers of the floating-point types and all numbers of places; for all rounding functions that are correct to half a unit in the last place and overflow to infinity", "why_tests_cant": "The documentation admits floating-point errors, but a test compares a handful of positive numbers of moderate size; whether the rule is the promised one for all signs, magnitudes and numbers of places is a statement about all reals that the type represents.", "anchors": ["api/include/cmp/core/general.hpp: cmp_equal", "api/src/cmp/core/general.ipp: cmp_equal"]}
{"id": "C121", "title": "Digits and numerals mean the same in all locales", "statement": "Which characters are digits in a radix from 2 to 36, and which numbers numerals stand for, does not depend on the locale that the program has chosen with std::setlocale.", "quantifier": "for all locales (functions on the 256 single-byte characters), all characters, all radices from 2 to 36, all strings in all encodings and all formats", "why_tests_cant": "The tests run in the locale \"C\"; there are as many locales as functions on bytes, and those that make a difference (such as the Turkish one) are usually not installed where tests run.", "anchors": ["api/src/cmp/unicode/examiners.ipp: is_radix_digit", "api/src/cmp/unicode/parsers.cpp: digit_character_to_integer, get_next_digit", "api/src/cmp/unicode/parsers.ipp: parse_integer, parse_floating_point"]}
{"id": "C122", "title": "Inserting a code point is all or nothing when memory runs out", "statement": "If insert_code_point, append_code_point or prepend_code_point ends with an exception, std::bad_alloc and std::length_error included, the string has the code units that it had before.", "quantifier": "for all character types, code points, indices, strings, capacities, and all patterns of memory requests that are granted and refused", "why_tests_cant": "Tests do not run out of memory, and even one that injected a failure would try it at one of the allocations for one character; the claim is about every allocation of every insertion.", "anchors": ["api/src/cmp/unicode/algorithms.ipp: insert_code_point, append_code_point, prepend_code_point"]}
{"id": "C123", "title": "A conversion reserves the memory that it needs", "statement": "convert_string (and to_string, to_u8string, to_u16string, to_u32string, to_wstring) asks for memory at most once, for the size of its source, and in any memory it either fails for lack of memory or gives the result that it gives in unlimited memory.", "quantifier": "for all pairs of character types, all strings, all sizes of strings without memory of their own, and all memories", "why_tests_cant": "Where memory is requested is not visible in the result; that limited memory changes nothing else is a claim about all patterns of refusal.", "anchors": ["api/src/cmp/unicode/algorithms.ipp: convert_string", "api/src/cmp/unicode/algorithms.cpp: string_size"]}
{"id": "C124", "title": "The strings of bool_format report lack of memory", "statement": "Setting or getting the strings of a bool_format either does so or throws std::bad_alloc; it does not end the program.", "quantifier": "for all formats, all strings and all memories", "why_tests_cant": "The functions are noexcept, but what they do when memory is refused cannot be seen where it is not.", "anchors": ["api/src/cmp/unicode/formats.cpp: bool_format::set_true_string, bool_format::set_false_string, bool_format::get_true_string, bool_format::get_false_string"]}
{"id": "C125", "title": "A file that one object appends to is a journal for the objects that read it", "statement": "While one file object after the other writes a file, each beginning at its end, any number of other file objects on the same path that open it for reading at any time see a growing beginning of what the file held and of what was written since, in order, each byte once and none changed; all of it after a flush or the end of the writer; their positions are the numbers of bytes they have read, is_at_end tells the truth about what is in the file, and no other file changes.", "quantifier": "for all previous contents, all numbers of readers and sessions, all sizes of buffers, and all interleavings of writing, flushing, opening, reading and closing", "why_tests_cant": "Tests use one object at a time; what several objects with buffers of their own see of each other depends on the interleaving and on what each buffer holds at every step.", "anchors": ["api/src/cmp/io/file.cpp: basic_file", "api/src/cmp/io/impl/unix_like/unix_like_file.cpp: unix_like_file", "api/src/cmp/io/impl/windows/windows_file.cpp: windows_file", "api/src/cmp/io/input_resource.cpp: read, read_buffered", "api/src/cmp/io/output_resource.cpp: write, flush"]}
{"id": "C126", "title": "Whoever follows a text file while it is written gets whole characters", "statement": "While a text is written character by character through a text_output_stream on a file that goes on at its end, others can follow the file, each with a file object and a text_input_stream of its own, reading on each time until the stream is at its end: what each gets, put together, is a beginning of the text the file held and of what was written since, each character whole and once and in order, and after a flush all of it, whatever encoding form, byte order and buffers are used.", "quantifier": "for all texts, encoding forms, byte orders, buffer sizes, numbers of readers, and all interleavings of writing, flushing, opening and following", "why_tests_cant": "Whether half a character is in the file when somebody looks depends on how the characters before it filled the buffer and on the moment; tests write a text, close the file and read it afterwards.", "anchors": ["api/src/cmp/io/text_output_stream.ipp: write_code_point, write_code_point_in_utf16", "api/src/cmp/io/text_input_stream.ipp: read_code_point, operator>>", "api/src/cmp/io/file.cpp: basic_file", "api/src/cmp/io/output_resource.cpp: write, flush", "api/src/cmp/io/input_resource.cpp: read, is_at_end"]}
{"id": "C127", "title": "parse_floating_point gives a finite number near the numeral, however many digits it has", "statement": "A numeral that is not negative and whose integral part fits the integer type the parser uses is read by parse_floating_point as a finite number near the one it denotes, however many digits it has behind the radix character: the relative error is at most 8(n+1) units of round-off for n digits, n never counting for more than the greatest exponent of the type, and the absolute error beyond that is negligible. No text whatsoever is read as an infinity or as something that is not a number, and digits so far behind the radix character that the power of the radix is beyond the range of the type do not change the result.", "quantifier": "for all numerals with any number of digits, all texts, encodings, formats, both IEEE types, and every rounding to nearest with overflow to infinities", "why_tests_cant": "The place value of a digit overflows to infinity after 308 decimal places (38 for float); whether digit / infinity, and the sums before that, still leave a sensible number for all longer numerals cannot be sampled.", "anchors": ["api/src/cmp/unicode/parsers.ipp: number_parser::parse_floating_point, number_parser::append_digit"]}
{"id": "C128", "title": "format_floating_point is defined for every value of the type", "statement": "format_floating_point has defined behaviour for every value of float and double, infinities and NaN included: it returns a text or throws an exception.", "quantifier": "for all values of the type, formats, encodings and machines that round to nearest", "why_tests_cant": "Undefined conversions of out-of-range values have some result on the machine of the test and another one elsewhere.", "anchors": ["api/src/cmp/unicode/formatters.ipp: number_formatter::format_floating_point"]}
{"id": "C129", "title": "The example for the standard streams repeats the first word that is typed", "statement": "The program unicode_stdio_example prints its question before it waits for input, and whatever text the user types, it repeats the first word of it and returns 0.", "quantifier": "for all inputs, both platforms, byte orders, buffer sizes, and all portions in which the system hands out the input", "why_tests_cant": "The example is never run by tests; the words that can be typed and the portions in which they arrive are unbounded.", "anchors": ["examples/unicode_stdio_example/src/main.cpp: main", "api/include/cmp/io/text_input_stream.ipp: operator>>", "api/include/cmp/io/text_output_stream.ipp: operator<<"]}
{"id": "C130", "title": "The example window reports what happens to it and counts the seconds in its title", "statement": "The program desktop_gui_example reports every key that goes down or up, every resize and the close request on the terminal as soon as it happens, in order and with the names of the keys. The space bar switches the counter: while it is off the title is the plain one, and while it is on the title is, after each update, the number of whole seconds since the window was opened, with commas. When the user closes the window the program returns 0.", "quantifier": "for all sequences of events and updates, all three toolkits, all clocks, byte orders and buffer sizes", "why_tests_cant": "The example needs a user and a desktop; what the title is depends on the whole history of switches and clock readings.", "anchors": ["examples/desktop_gui_example/src/main.cpp: demo_window, main", "api/include/cmp/unicode/formatters.ipp: format_integer", "api/src/cmp/desktop_gui/impl/common/common_window.cpp: update_window"]}
{"id": "C131", "title": "Parsing gives the double nearest to the number that is written", "statement": "parse_floating_point returns the floating-point number nearest to the number the text denotes, which is the value of the same literal in a C++ program: the text 0.12 gives 0.12.", "quantifier": "all numerals that are not negative, all valid formats, all encodings, float and double with IEEE arithmetic (to nearest, ties to even)", "why_tests_cant": "Whether the rounding errors of the digits add up to another double depends on all digits; the tests compare with a tolerance or with numbers that happen to come out.", "anchors": ["api/src/cmp/unicode/parsers.ipp: number_parser::parse_floating_point"]}
{"id": "C132", "title": "A double written in the default format is read back as the same double", "statement": "Formatting a number with the default format and parsing the text with it returns the very same number.", "quantifier": "all finite floats and doubles that are not negative and whose integral part fits long long, all encodings, IEEE arithmetic (to nearest, ties to even)", "why_tests_cant": "2^63 values; a counterexample needs a third binary place and rounding errors that happen to add up.", "anchors": ["api/src/cmp/unicode/formatters.ipp: number_formatter::format_floating_point", "api/src/cmp/unicode/parsers.ipp: number_parser::parse_floating_point"]}
{"id": "C133", "title": "The manual test of the standard streams passes exactly if what is asked for was typed", "statement": "The program tests/manual/test_uio.cpp returns 0 if and only if the person at the terminal typed the line ツ, then a numeral for 5.5 and then one for -75; both standard output and standard error then show the three lines of each encoding in full, standard output repeats the answers, every question is on the screen before the system is asked for the answer, and the module reports three successes.", "quantifier": "all inputs (also malformed), all ways the system hands the input out, all buffer sizes, both platforms, both byte orders, any rounding to nearest", "why_tests_cant": "It is carried out by hand, once for one input; that no other input passes, and that the questions are not left in a buffer, depends on all inputs and on how input arrives.", "anchors": ["tests/manual/test_uio.cpp: test_output, test_input, test_parsing_and_formatting, main", "api/src/cmp/core/test_module.ipp: test_module::run_tests", "api/src/cmp/io/uio.hpp: uin, uout, uerr"]}
{"id": "C134", "title": "The code for the targeted system is compiled, or the translation unit is refused", "statement": "Whatever macros the compiler predefines, a translation unit that includes io/file.hpp, io/uio.hpp, desktop_gui/window.hpp, desktop_gui_application.hpp or window_native_handle.hpp, and each of the library's own translation units, is compiled with the implementation for the one supported system whose marks the compiler defines and with no other system's; CMP_OS_NAME and CMP_COMPILER_NAME name that system and the compiler; for a system that is not supported the unit is an error.", "quantifier": "all sets of predefined macros (and their replacements), all settings of the configuration, all five headers and both library units", "why_tests_cant": "A test runs on one system with one compiler; here every set of predefined macros is a case, including those of systems that nobody tested on.", "anchors": ["api/include/cmp/core/operating_system.hpp: CMP_OS_WINDOWS, CMP_OS_UNIX_LIKE, CMP_OS_NAME", "api/include/cmp/core/compiler.hpp: CMP_COMPILER_NAME", "api/include/cmp/core/platform.hpp", "api/include/cmp/io/file.hpp", "api/include/cmp/io/uio.hpp", "api/include/cmp/io/impl/common/common_uio.hpp", "api/include/cmp/desktop_gui/window.hpp", "api/include/cmp/desktop_gui/desktop_gui_application.hpp", "api/include/cmp/desktop_gui/window_native_handle.hpp", "api/src/cmp/io/definitions.cpp", "api/src/cmp/desktop_gui/definitions.cpp", "tests/manual/test_platform.cpp"]}
{"id": "C135", "title": "The standard streams are defined exactly once, with the configured buffers, and an excluded package is not there", "statement": "For every configuration: the six objects behind uin, uout and uerr are defined once for the program, each stream after its resource and each resource with the buffer capacity that was configured for it (its own setting, else the general one, else 1024): as inline objects by the units that include io/uio.hpp if the library is header-only, otherwise by the library. Including a header of an excluded package is an error and the library then contains none of its sources; the desktop_gui package is an error in header-only use.", "quantifier": "all tokens for the seven settings (numbers or identifiers, or not given), all predefined macros", "why_tests_cant": "Each configuration is another build; the project tests one or two of them, and mistakes show as link errors or silently different capacities in somebody else's build.", "anchors": ["api/include/cmp/core/config.hpp: CMP_CONFIG_HEADER_ONLY, CMP_CONFIG_DEFAULT_BUFFER_CAPACITY, CMP_CONFIG_DEFAULT_STDOUT_BUFFER_CAPACITY, CMP_CONFIG_DEFAULT_STDERR_BUFFER_CAPACITY, CMP_CONFIG_DEFAULT_STDIN_BUFFER_CAPACITY, CMP_CONFIG_IO_PACKAGE_EXCLUDED, CMP_CONFIG_DESKTOP_GUI_PACKAGE_EXCLUDED", "api/include/cmp/io/inclusion_assert.hpp", "api/include/cmp/desktop_gui/inclusion_assert.hpp", "api/include/cmp/io/uio.hpp", "api/src/cmp/io/uio.cpp", "api/include/cmp/io/impl/unix_like/unix_like_uout.hpp", "api/include/cmp/io/impl/windows/windows_uin.hpp", "api/src/cmp/io/definitions.cpp", "api/src/cmp/desktop_gui/definitions.cpp"]}
{"id": "C136", "title": "The library is built as it was asked for", "statement": "Whatever words that CMake's manual counts as yes or no a user answers with: the library is static if they asked for that with CMP_BUILD_STATIC and shared otherwise, and a shared library is copied to where the programs are that need it; the code of the io and of the desktop_gui package is compiled unless it was excluded; the toolkit that the code of the desktop_gui package needs on the system is looked for and linked exactly when that code is compiled; the library is optimised at link time if that was asked for and the compiler can; the remaining settings reach the preprocessor as they were given, and no other macro is defined; what only developers of the library need is built only for those who answer CMP_DEV with yes.", "quantifier": "all values of all variables given to CMake, all system names, machines with and without the packages and link-time optimisation, all predefined macros of the compiler", "why_tests_cant": "The tests are part of what is configured: they run in a build that succeeded, on one system with one set of answers.", "anchors": ["CMakeLists.txt", "api/CMakeLists.txt: CMP_BUILD_STATIC, CMP_CONFIG_DESKTOP_GUI_PACKAGE_EXCLUDED, CMP_CONFIG_IO_PACKAGE_EXCLUDED, CMP_CONFIG_LTO_REQUESTED, CMP_CONFIG_HEADER_ONLY, CMP_DEV", "api/src/cmp/desktop_gui/definitions.cpp", "api/src/cmp/io/definitions.cpp", "api/include/cmp/core/config.hpp"]}
{"id": "C137", "title": "A project that was configured without a package can be built", "statement": "If the project is configured without the io or without the desktop_gui package, every program that the build adds (tests and examples) includes only headers of packages that are there, so that it can be compiled.", "quantifier": "all values of all variables, all supported systems, all predefined macros of the compiler, every program", "why_tests_cant": "Each choice of packages is another build, and it is the build of the tests itself that fails.", "anchors": ["CMakeLists.txt", "api/CMakeLists.txt: CMP_BUILD_STATIC, CMP_CONFIG_DESKTOP_GUI_PACKAGE_EXCLUDED, CMP_CONFIG_IO_PACKAGE_EXCLUDED, CMP_CONFIG_LTO_REQUESTED, CMP_CONFIG_HEADER_ONLY, CMP_DEV", "tests/automated/CMakeLists.txt", "tests/manual/CMakeLists.txt", "examples/CMakeLists.txt", "tests/automated/io/test_file.cpp", "examples/desktop_gui_example/src/main.cpp", "api/include/cmp/io/inclusion_assert.hpp", "api/include/cmp/desktop_gui/inclusion_assert.hpp"]}
{"id": "C138", "title": "What is tested is what is built", "statement": "In every configuration of the project each program is compiled with exactly the macros the library was compiled with, or, without the library, with none but the request for header-only use, and is optimised at link time exactly if the library is; target names are distinct; every source of an automated test is built into a program with the library and carried out as a test once, and into one with the headers only exactly when developers or CMP_BUILD_HO_TESTS ask for it; nothing else is carried out.", "quantifier": "all values of all variables, all system names, all machines", "why_tests_cant": "A test that is not registered does not fail, and one that is compiled with other settings than the library tests something else.", "anchors": ["CMakeLists.txt", "tests/CMakeLists.txt", "tests/automated/CMakeLists.txt", "tests/manual/CMakeLists.txt", "examples/CMakeLists.txt", "examples/desktop_gui_example/CMakeLists.txt", "examples/unicode_stdio_example/CMakeLists.txt", "api/CMakeLists.txt"]}
{"id": "C139", "title": "What a shared library offers is exported by it and imported from it", "statement": "In every configuration of the project: if the library is shared, its declarations carry the compiler's mark for what is exported while the library is compiled, and the mark for what is imported in every program that links with it; where there is no shared library, or a program uses the headers only, they carry none. No macro is defined in two different ways on the way there, and nothing else that the library's configuration header defines depends on the kind of library.", "quantifier": "all values of all variables given to CMake, all system names, all predefined macros of the compiler, all marks, every target", "why_tests_cant": "Whether a declaration is marked shows only in the linker of some systems, and a macro that is defined twice only in a diagnostic that compilers may leave at a warning.", "anchors": ["api/include/cmp/core/config.hpp: CMP_LIBRARY_NAME, CMP_CONDITIONAL_INLINE", "api/CMakeLists.txt: generate_export_header, target_include_directories, target_compile_definitions"]}
{"id": "C140", "title": "What the library takes for text is what holds text", "statement": "For every C++ type, the traits and concepts of the library say whether it is text in one of the encodings, whether the text may be changed, whether the type owns it and whether it is a view, and they say so correctly: text is a string class, a view class, a pointer to characters or an array of characters, of whatever qualifiers; it may be changed unless the characters are const or looked at through a view; it is owned by the string classes only. No type is text in two encodings.", "quantifier": "all C++ types (qualifiers at every level, pointers and arrays of any depth and any number of elements, references, functions, other classes and numbers), all sizes of wchar_t, pointers and classes", "why_tests_cant": "There are infinitely many types: every number of elements gives another array type. The tests ask about 96 uses, none of which is a volatile pointer, an array of unknown size or an array that is to be accepted.", "anchors": ["api/include/cmp/unicode/type_traits.hpp: is_text_object_v, is_writable_text_object_v, is_raii_text_object_v, is_utf8_string_v", "api/include/cmp/unicode/concepts.hpp: text_object, writable_raii_text_object", "api/include/cmp/core/type_traits.hpp: constant_max_v"]}
{"id": "C141", "title": "What holds text can be passed to the functions that take text", "statement": "For every type of argument and each of starts_with, ends_with, to_string and its four siblings, convert_string, validate_string, parse_bool, parse_integer and parse_floating_point: if the argument holds characters that can be read (a string, a view, a pointer to characters or an array of them, not volatile), the call compiles and reads the argument in the encoding of its characters; if it does not, there is no matching function. insert_code_point, append_code_point and prepend_code_point compile exactly for strings that may be changed, and write in the encoding of the string; so do format_bool, format_integer and format_floating_point for the type of string they make, and read_line, append_line, read_all, append_all and >> of a text input stream for the string they fill.", "quantifier": "all C++ types of lvalue arguments, all pairs of them for the functions of two arguments, all target types for convert_string, both sizes of wchar_t", "why_tests_cant": "A call that does not compile cannot be in a test that is compiled, and the types are infinitely many. The tests validate strings only.", "anchors": ["api/include/cmp/unicode/algorithms.hpp: validate_string, starts_with, convert_string, insert_code_point", "api/src/cmp/unicode/algorithms.ipp: validate_string, prepend_code_point, append_code_point", "api/src/cmp/unicode/parsers.ipp: parse_bool, parse_integer, parse_floating_point", "api/include/cmp/unicode/by_code_point.hpp: deduction guides", "api/include/cmp/core/type_traits.hpp: value_type_t", "api/src/cmp/unicode/formatters.ipp: format_bool, format_integer, format_floating_point", "api/src/cmp/io/text_input_stream.ipp: read_line, append_line, read_all, append_all, operator >>"]}
{"id": "C142", "title": "A truth value can be written and read as a number", "statement": "format_integer of a bool gives the numeral 1 for true and 0 for false, in the format's way of showing signs, and parse_integer<bool> of that text gives the value back. parse_integer<bool> gives true for every numeral that denotes 1 and false for every numeral that denotes 0, and refuses every other text.", "quantifier": "both values, all integer formats with a radix from 2 to 36, all encodings, all texts", "why_tests_cant": "No test uses bool as the integer type, and the texts to be refused are infinitely many.", "anchors": ["api/include/cmp/unicode/parsers.hpp: parse_integer", "api/src/cmp/unicode/parsers.ipp: number_parser::parse_integer, prepend_digit", "api/include/cmp/unicode/formatters.hpp: format_integer", "api/src/cmp/unicode/formatters.ipp: number_formatter::format_integer"]}
{"id": "C143", "title": "What the library throws can be caught as std::exception and explains itself", "statement": "Whenever a call of the library refuses its input by an exception, the caller can catch it as the documented class and as std::exception, whatever other handlers there are and in whatever order; what() names what is wrong and tells the classes and the kinds of parse_failed apart; get_type() is the kind of the failure. This holds also when memory is short: the caller then gets the exception or std::bad_alloc, and the program goes on.", "quantifier": "for all places that throw, all lists of handlers, all inputs of the parsers and of the constructors of the formats, and whether or not memory can be had", "why_tests_cant": "A test catches one exception with one handler while there is memory; that the constructor of an exception is itself refused memory never happens in a test.", "anchors": ["api/include/cmp/unicode/exceptions.hpp: invalid_code_point, invalid_unicode_encoding, iterated_past_end", "api/src/cmp/unicode/exceptions.cpp: what", "api/include/cmp/io/exceptions.hpp: read_past_end, invalid_access_mode", "api/src/cmp/io/exceptions.cpp: what", "api/include/cmp/unicode/parsers.hpp: parse_failed", "api/src/cmp/unicode/parsers.cpp: parse_failed::parse_failed, parse_failed::get_type", "api/include/cmp/unicode/formats.hpp: invalid_radix", "api/src/cmp/unicode/formats.cpp: invalid_radix::invalid_radix", "api/src/cmp/desktop_gui/impl/windows/windows_desktop_gui_application.cpp: desktop_gui_application::desktop_gui_application"]}
{"id": "C144", "title": "Writing to a container loses nothing that was accepted when memory runs out", "statement": "When memory for the container is refused, the call to write or flush that needed it throws, and the caller can go on: the content together with what waits in the buffer is always what was there before followed by the bytes of exactly those writes that returned, in order; a flush that throws can be repeated, and succeeds when there is memory. No call ends the program.", "quantifier": "for all container output resources, element sizes, buffer capacities, contents, sequences of writes and flushes, and all schedules of granted and refused requests for memory", "why_tests_cant": "Tests run with enough memory; which of the many requests is refused, and what is in the buffer at that time, cannot be enumerated.", "anchors": ["api/src/cmp/io/impl/ctr_essence.ipp: write_raw", "api/src/cmp/io/output_resource.cpp: write, flush, write_buffered", "api/src/cmp/io/seekable_output_resource.ipp: set_position", "api/src/cmp/io/seekable_io_resource.ipp: set_position"]}
{"id": "C145", "title": "Text written to a container while memory runs out stays whole", "statement": "When memory for the container is refused while a text stream writes a character or a string, the operation throws and the program can go on: what has been written is all of the text of each operation that returned, and the first characters of the text of each operation that threw, so no character is torn. Destroying the stream never ends the program.", "quantifier": "for all encoding forms and byte orders of the stream and the host, buffer capacities, contents, sequences of characters, strings of every character type and flushes, and all schedules of granted and refused requests for memory", "why_tests_cant": "Tests run with enough memory; where in a character or string the refusal falls depends on the buffer, the container and the schedule, which cannot be enumerated.", "anchors": ["api/src/cmp/io/text_output_stream.ipp: operator <<, write_code_point", "api/src/cmp/io/output_stream.ipp: ~output_stream, write, reverse_write", "api/src/cmp/io/impl/ctr_essence.ipp: write_raw"]}
{"id": "C146", "title": "Text that is read while memory runs out is not lost", "statement": "When memory for the string is refused while a line, a word or all of a text is read into it, the read throws, the string has the characters that were read before, and whoever catches the exception and reads on gets the characters that follow, without loss and without torn characters. A string in which there is room for the text gets all of it.", "quantifier": "for all sources and bytes in them, encoding forms and byte orders, character types and contents of the string, and all schedules of granted and refused requests for memory", "why_tests_cant": "Tests run with enough memory; at which character the refusal falls depends on the text, the string and the allocator, which cannot be enumerated.", "anchors": ["api/src/cmp/io/text_input_stream.ipp: append_line, read_line, append_all, read_all, operator >>", "api/src/cmp/unicode/algorithms.ipp: append_code_point, insert_code_point"]}
{"id": "C147", "title": "Output resources on containers can be moved while they are written to", "statement": "An output resource on a container can be handed on by move construction and move assignment, and objects that were moved from can be assigned to and destroyed. Nothing that was accepted is lost: after a flush of the object that was moved to last, the container has its old content followed by all bytes that were written through any of the objects, in the order of the calls.", "quantifier": "for all buffer sizes, contents of the container and sequences of writes, flushes, moves and destructions", "why_tests_cant": "How often a defaulted move assignment assigns a virtual base class is up to the compiler, and whether bytes wait in the buffer at that moment depends on the sizes of all earlier writes.", "anchors": ["api/include/cmp/io/transparent_container_output_resource.hpp: move constructor, move assignment, destructor", "api/include/cmp/io/transfer_resource.hpp: m_buffer", "api/src/cmp/io/output_resource.cpp: write, flush_output", "api/src/cmp/io/impl/ctr_essence.ipp: write_raw"]}
{"id": "C148", "title": "Values that are read while memory runs out", "statement": "When memory is refused while a truth value or a number is read with `operator >>`, the operator throws, the variable keeps its value, and whoever catches the exception and reads on gets no value that is not in the text. Values whose words fit into the room that strings have without asking for memory are read whatever is refused.", "quantifier": "for all sources and bytes in them, encoding forms and byte orders, types of the variable, sizes of the room in small strings and all schedules of granted and refused requests for memory", "why_tests_cant": "Tests run with enough memory; at which digit the refusal falls depends on the text, the string library and the allocator, which cannot be enumerated.", "anchors": ["api/src/cmp/io/text_input_stream.ipp: operator >> for bool, integers and floating-point numbers", "api/src/cmp/unicode/algorithms.ipp: append_code_point"]}
{"id": "C149", "title": "Values that data streams write while memory runs out", "statement": "When memory is refused while values are written to a container with `operator <<` of a data output stream, each operation returns or throws, and no value is torn: after a flush that returns, the container has its old content, followed by exactly the values whose operation returned, whole and in order. A flush that throws loses nothing, a later one delivers, and it returns if there is memory. A data input stream reads exactly these values back.", "quantifier": "for all sequences of values of any sizes and flushes by a program that catches exceptions, byte orders, buffer sizes, contents of the container and all schedules of granted and refused requests for memory", "why_tests_cant": "Tests run with enough memory; which request is refused, and whether a value is then in the buffer, in the container or in neither, depends on the sizes of all values before it.", "anchors": ["api/src/cmp/io/data_output_stream.ipp: operator <<", "api/src/cmp/io/data_input_stream.ipp: operator >>", "api/src/cmp/io/impl/ctr_essence.ipp: write_raw", "api/src/cmp/io/output_resource.cpp: write, flush, write_buffered", "api/src/cmp/io/seekable_output_resource.ipp: set_position", "api/src/cmp/io/seekable_io_resource.ipp: set_position"]}
{"id": "C150", "title": "Numbers written with thousands separators are read back", "statement": "A floating-point number that is formatted with a format that has a thousands separator is read back, nearly as the same number, from that text and with that format.", "quantifier": "for all floats and doubles that are not negative or integers and whose integral part fits `long long`, all separators and radix characters, even radices, sign options, encodings and machines that round to nearest", "why_tests_cant": "Whether a separator gets among the places depends on how many places the number needs, and the repository has tests for formatting with separators and for parsing with separators, but none for both.", "anchors": ["api/src/cmp/unicode/formatters.ipp: number_formatter::format_floating_point", "api/src/cmp/unicode/parsers.ipp: number_parser::parse_floating_point"]}
{"id": "C151", "title": "Numbers written with a place limit are read back within one unit of the last place", "statement": "A floating-point number that is formatted with a limit on its places is read back, from that text and with that format, as a number that differs from it by less than one unit of the last place allowed, up to rounding errors of the machine. Integers are read back as they were.", "quantifier": "for all floats and doubles whose integral part fits `long long`, all limits (exactly or at most n places), all radices, sign options, radix characters, encodings and machines that round to nearest", "why_tests_cant": "The digits that are cut, the zeros that are padded and the rounding of each digit on the way back depend on every bit of the number; the tests format a few numbers and parse a few others.", "anchors": ["api/src/cmp/unicode/formatters.ipp: number_formatter::format_floating_point", "api/src/cmp/unicode/parsers.ipp: number_parser::parse_floating_point"]}
{"id": "C152", "title": "Output resources on containers can be copied while they are written to", "statement": "An output resource on a container can be copied at any time, also while bytes wait in its buffer, and either of the two can be used further. Copies that are no longer used can be flushed, assigned to and destroyed. The bytes that were accepted before the copy was made reach the container once: after a flush of an object that is up to date, the container has its old content followed by all bytes that were written through any of the objects, in the order of the calls.", "quantifier": "for all buffer sizes, contents of the container and sequences of writes, flushes, copies, moves and destructions", "why_tests_cant": "Both objects hold the same bytes that wait, and what their flushes do to the container depends on their order and on the sizes of all earlier writes.", "anchors": ["api/include/cmp/io/transparent_container_output_resource.hpp: copy constructor, copy assignment", "api/include/cmp/io/transfer_resource.hpp: m_buffer", "api/src/cmp/io/output_resource.cpp: write, flush_output", "api/src/cmp/io/impl/ctr_essence.ipp: write_raw"]}
