{
 "claims": [
  {
   "property": "C01",
   "status": "partial",
   "theorems": [
    "Cmp.C01_violated",
    "Cmp.C01_partial",
    "Cmp.C01_exact"
   ],
   "note": "Violated for supplementary code points whose low 16 bits are a surrogate value (C01_violated: U+1D800); C01_partial proves the round trip for all other texts. C01_exact: assembling a text throws exactly if it contains such a code point."
  },
  {
   "property": "C02",
   "status": "partial",
   "theorems": [
    "Cmp.C02_violated",
    "Cmp.C02_partial",
    "Cmp.C02_exact"
   ],
   "note": "Violated (U+1D800 is rejected because the value is narrowed to char16_t); C02_partial: everything accepted is a scalar value, and the test is exact outside that class. C02_exact: accepted exactly are the scalar values except the supplementary ones whose low 16 bits are a surrogate value."
  },
  {
   "property": "C03",
   "status": "proved",
   "theorems": [
    "Cmp.C03_utf8_encoder"
   ],
   "note": "For all 2^32 char32_t values and all strings."
  },
  {
   "property": "C04",
   "status": "proved",
   "theorems": [
    "Cmp.C04_utf16_encoder"
   ],
   "note": "For all scalar values and all prior contents."
  },
  {
   "property": "C05",
   "status": "partial",
   "theorems": [
    "Cmp.C05_violated",
    "Cmp.C05_partial",
    "Cmp.C05_exact"
   ],
   "note": "Violated: incrementing over a surrogate pair moves one unit only; C05_partial for BMP text. C05_exact: a loop over any other UTF-16 text processes the code points up to and including the first supplementary one and is then left by an exception."
  },
  {
   "property": "C06",
   "status": "proved",
   "theorems": [
    "Cmp.C06_utf8_forward"
   ],
   "note": "For all well-formed UTF-8."
  },
  {
   "property": "C07",
   "status": "proved",
   "theorems": [
    "Cmp.C07_utf8_backward"
   ],
   "note": "For all well-formed UTF-8 and every position; also reverse traversal."
  },
  {
   "property": "C08",
   "status": "proved",
   "theorems": [
    "Cmp.C08_utf16_backward"
   ],
   "note": "For all well-formed UTF-16, supplementary code points included."
  },
  {
   "property": "C09",
   "status": "partial",
   "theorems": [
    "Cmp.C09_violated",
    "Cmp.C09_partial",
    "Cmp.C09_exact"
   ],
   "note": "Violated: UTF-16 -= and - move forward; C09_partial: += and + for all character types, -= and - for the other types. C09_exact: in UTF-16, for every string, position and count, where -= and - lead (forward over the following non-surrogates, then termination or a read behind the string); equal to that many decrements for the count 0 only."
  },
  {
   "property": "C10",
   "status": "partial",
   "theorems": [
    "Cmp.C10_violated",
    "Cmp.C10_partial",
    "Cmp.C10_exact"
   ],
   "note": "Violated: increment without dereference on a truncated sequence reads *end; C10_partial: dereference always safe, increment safe except there, range-for traversal always safe and terminating, all character types. C10_exact: the increment reads behind the end exactly if the remaining units are a sequence cut off, and exactly there the dereference reports iteration past the end; otherwise both agree."
  },
  {
   "property": "C11",
   "status": "partial",
   "theorems": [
    "Cmp.C11_violated",
    "Cmp.C11_partial",
    "Cmp.C11_exact"
   ],
   "note": "Violated for UTF-16 sources with supplementary code points and UTF-8 targets with wrongly rejected ones; C11_partial proves all pairs outside those classes. C11_exact: for every text the conversion is right or throws, and it throws exactly in those classes."
  },
  {
   "property": "C12",
   "status": "partial",
   "theorems": [
    "Cmp.C12_violated",
    "Cmp.C12_partial",
    "Cmp.C12_exact"
   ],
   "note": "Violated for UTF-16 with supplementary code points; C12_partial: total on every string, accepts all well-formed UTF-8, UTF-32, BMP UTF-16. C12_exact: in any other UTF-16 text the first invalid position reported is the middle of the first surrogate pair."
  },
  {
   "property": "C13",
   "status": "partial",
   "theorems": [
    "Cmp.C13_violated",
    "Cmp.C13_partial",
    "Cmp.C13_exact",
    "Cmp.C13_exact_accepted"
   ],
   "note": "Violated: overlong forms are accepted; C13_partial: stops exactly after the longest well-formed prefix whenever what follows is not structurally complete or is out of range. C13_exact: for every string and character type, how far the validation gets; C13_exact_accepted: UTF-8 that is accepted is well-formed exactly if no group in it is overlong or spells a surrogate."
  },
  {
   "property": "C14",
   "status": "partial",
   "theorems": [
    "Cmp.C14_violated",
    "Cmp.C14_partial",
    "Cmp.C14_exact"
   ],
   "note": "Violated for UTF-16 operands with supplementary code points (std::terminate); C14_partial for all other pairs. C14_exact: what happens for every pair of texts with a UTF-16 operand, including the case where the answer is false though the texts are equal."
  },
  {
   "property": "C15",
   "status": "proved",
   "theorems": [
    "Cmp.C15_ends_with"
   ],
   "note": "All pairs of character types, all well-formed operands (char: ASCII)."
  },
  {
   "property": "C16",
   "status": "proved",
   "theorems": [
    "Cmp.C16_insert_exact"
   ],
   "note": "All character types, all char32_t values, all indices."
  },
  {
   "property": "C17",
   "status": "proved",
   "theorems": [
    "Cmp.C17_whitespace"
   ],
   "note": "All 2^32 values."
  },
  {
   "property": "C18",
   "status": "partial",
   "theorems": [
    "Cmp.C18_exact",
    "Cmp.C18_violated",
    "Cmp.C18_partial"
   ],
   "note": "Violated: std::tolower is called outside its domain; C18_partial: exact for radix below ten and for characters up to 255. C18_exact: for every character and radix, the outcome (classified correctly or undefined)."
  },
  {
   "property": "C19",
   "status": "partial",
   "theorems": [
    "Cmp.C19_violated",
    "Cmp.C19_violated_narrow",
    "Cmp.C19_partial",
    "Cmp.C19_exact"
   ],
   "note": "Violated for the least value of a signed type (C19_violated: undefined behaviour for int; C19_violated_narrow: endless loop for signed char); C19_partial proves every other value of every standard integer type, format and output encoding. C19_exact: the least value is undefined for int and wider types in every format, and right for signed char and short exactly for the radices dividing 2^(32-bits)-1."
  },
  {
   "property": "C20",
   "status": "partial",
   "theorems": [
    "Cmp.C20_violated",
    "Cmp.C20_partial",
    "Cmp.C20_exact"
   ],
   "note": "Violated for the least value of a signed type only; C20_partial proves grouping for all other values, formats and encodings. C20_exact: exactly the formats and values for which format_integer returns; whatever it returns is grouped in threes."
  },
  {
   "property": "C21",
   "status": "partial",
   "theorems": [
    "Cmp.C21_violated",
    "Cmp.C21_partial",
    "Cmp.C21_exact"
   ],
   "note": "Violated for the least value of a signed type only; C21_partial proves the round trip for all other values, formats and encodings. C21_exact: whatever format_integer returns is read back as the value formatted, even where the text is wrong, and exactly when it returns."
  },
  {
   "property": "C22",
   "status": "partial",
   "theorems": [
    "Cmp.C22_violated",
    "Cmp.C22_partial",
    "Cmp.C22_exact"
   ],
   "note": "Violated: leading zeros overflow the place value of 64-bit signed types (undefined behaviour); C22_partial proves the value of every numeral whose absolute value (and, for 64-bit signed types, leading place value) fits. C22_exact: the outcome for every numeral whose value the type has."
  },
  {
   "property": "C23",
   "status": "partial",
   "theorems": [
    "Cmp.C23_violated",
    "Cmp.C23_violated_separator",
    "Cmp.C23_partial",
    "Cmp.C23_exact"
   ],
   "note": "Violated: '1-2' is accepted as -12 and ',123' as 123; C23_partial: without a stray sign or leading separator nothing else is accepted, and for characters below 256 a parse failure is thrown if the type is unsigned or the text is so short that no number of its length overflows. C23_exact: exactly the accepted texts, by a grammar read from the right (Spec/Lax.lean), with the value returned, for every type; without stray signs and leading separators these are the numerals."
  },
  {
   "property": "C24",
   "status": "partial",
   "theorems": [
    "Cmp.C24_violated",
    "Cmp.C24_partial",
    "Cmp.C24_exact"
   ],
   "note": "Violated: a character above 255 makes std::tolower undefined; C24_partial proves each failure kind for the first offending character from the right, outside that class and overflow of signed types. C24_exact: the outcome for every text, type and format, including overflow and characters above 255."
  },
  {
   "property": "C25",
   "status": "partial",
   "theorems": [
    "Cmp.C25_violated",
    "Cmp.C25_violated_signed",
    "Cmp.C25_partial",
    "Cmp.C25_exact"
   ],
   "note": "Violated: '256' is 0 as unsigned char, and signed overflow is undefined; C25_partial: unsigned types never have undefined behaviour and return the value modulo 2^bits. C25_exact: the outcome for every numeral in every integer type; for int and wider signed types defined exactly if the digits add up from the right within the range of the type."
  },
  {
   "property": "C26",
   "status": "partial",
   "theorems": [
    "Cmp.C26_violated",
    "Cmp.C26_partial",
    "Cmp.C26_exact"
   ],
   "note": "Violated for strings with wrongly rejected code points (U+1D800); C26_partial proves round trip and rejection for all other strings, all encodings. C26_exact covers every pair of format texts (also equal or empty ones) and every text: formatting gives the text or, for std::u8string and a code point whose low 16 bits are a surrogate value, throws invalid_code_point; parsing compares with the two texts, or throws for texts that cannot be converted to std::u8string."
  },
  {
   "property": "C27",
   "status": "partial",
   "theorems": [
    "Cmp.C27_violated",
    "Cmp.C27_violated_range",
    "Cmp.C27_partial",
    "Cmp.C27_exact",
    "Cmp.C27_violated_ieee"
   ],
   "note": "Violated: -1.5 is formatted as -2.5, and integral parts outside long long are undefined behaviour (C27_violated, C27_violated_range). C27_partial proves the claim for numbers that are non-negative or integers, fit long long and do not make the machine round (radix a power of two, or at most prec-6 binary places). What happens to numbers that make the machine round is C105 and C106. C27_exact covers every number for which the machine does not round: negative numbers with a fraction part come out one too low, and integral parts outside long long (or its least value) are undefined behaviour."
  },
  {
   "property": "C28",
   "status": "partial",
   "theorems": [
    "Cmp.C28_violated",
    "Cmp.C28_partial",
    "Cmp.C28_exact_partial",
    "Cmp.C28_exact",
    "Cmp.C28_violated_ieee"
   ],
   "note": "Violated: -1.5 is parsed as -0.5. C28_partial bounds the rounding error of every non-negative numeral (and of negative integers) by powers of the unit roundoff; C28_exact_partial shows exactness in power-of-two radices. C28_exact says what every numeral with a value of the format is read as in radices that are powers of two: the fraction part is added whatever the sign."
  },
  {
   "property": "C29",
   "status": "partial",
   "theorems": [
    "Cmp.C29_violated",
    "Cmp.C29_partial_accepted",
    "Cmp.C29_partial",
    "Cmp.C29_exact"
   ],
   "note": "Violated: set_radix does not validate; C29_partial: constructors validate, and validity is invariant under all histories with valid set_radix arguments. C29_exact: every history of calls succeeds and the radix is the last one set, whatever it is."
  },
  {
   "property": "C30",
   "status": "proved",
   "theorems": [
    "Cmp.C30_count_digits"
   ],
   "note": "For all standard integer types, nonnegative values and radixes of at least two."
  },
  {
   "property": "C31",
   "status": "proved",
   "theorems": [
    "Cmp.C31_output_in_order"
   ],
   "note": "For every capacity, device that accepts all it is given, and sequence of writes and flushes. The destructor of a stream is a flush (output_stream.ipp 25-31)."
  },
  {
   "property": "C32",
   "status": "proved",
   "theorems": [
    "Cmp.C32_output_memory_safe"
   ],
   "note": "For every device behaviour (short counts, exceptions), capacity and history of writes and flushes."
  },
  {
   "property": "C33",
   "status": "partial",
   "theorems": [
    "Cmp.C33_partial_pages",
    "Cmp.C33_exact",
    "Cmp.C33_violated",
    "Cmp.C33_violated_always",
    "Cmp.C33_partial"
   ],
   "note": "Violated by container resources: a read that needs more than the rest of the loaded page plus a whole page (pages have the buffer's capacity) delivers the page again. C33_partial: reads of at most the capacity, or unbuffered; C33_partial_pages: all reads that need at most one more page; C33_exact: what any larger read before the end returns, for every element size, and when it reads in front of the container (undefined behaviour)."
  },
  {
   "property": "C34",
   "status": "proved",
   "theorems": [
    "Cmp.C34_small_reads"
   ],
   "note": "All element sizes, capacities, contents and sequences of reads of at most the capacity."
  },
  {
   "property": "C35",
   "status": "partial",
   "theorems": [
    "Cmp.C35_exact",
    "Cmp.C35_violated",
    "Cmp.C35_partial"
   ],
   "note": "Violated for elements larger than a byte with a buffer. C35_partial: single-byte elements or no buffer, reads of at most the capacity. C35_exact gives the position and the end flag after every sequence of reads that need at most one page more each: the position lags by the size of the page at hand once for each byte an element has beyond the first."
  },
  {
   "property": "C36",
   "status": "partial",
   "theorems": [
    "Cmp.C36_exact",
    "Cmp.C36_violated",
    "Cmp.C36_partial"
   ],
   "note": "Violated only because of reads larger than the buffer (C33). C36_partial: from every prior state, reads of at most the capacity. C36_exact: from every state and for every target, including targets outside of the content (the next read is undefined) and reads that need more than one page more (what they deliver is said exactly)."
  },
  {
   "property": "C37",
   "status": "partial",
   "theorems": [
    "Cmp.C37_exact",
    "Cmp.C37_exact_bytes",
    "Cmp.C37_exact_file",
    "Cmp.C37_violated",
    "Cmp.C37_partial"
   ],
   "note": "Violated with a buffer: the seek is relative to the start of the loaded chunk. C37_partial: without a buffer. C37_exact gives the origin of every relative move after buffered reads (for elements of one byte the start of the page at hand, C37_exact_bytes) and what is read from there; targets outside make the next read undefined. C37_exact_file: in files the origin is the first byte of the page at hand."
  },
  {
   "property": "C38",
   "status": "partial",
   "theorems": [
    "Cmp.C38_violated",
    "Cmp.C38_partial",
    "Cmp.C38_exact"
   ],
   "note": "Violated when the data straddles the end: the container grows by the whole length of the data. C38_partial: exact inside the content and at its end, and the precise excess otherwise. C38_exact covers every position, portioning and capacity: the resulting content, with the size given by a specification of growth, and undefined behaviour just where that size does not suffice or the position is negative."
  },
  {
   "property": "C39",
   "status": "proved",
   "theorems": [
    "Cmp.C39_append"
   ],
   "note": "All element sizes, contents, capacities and sequences of writes of whole elements and flushes."
  },
  {
   "property": "C40",
   "status": "partial",
   "theorems": [
    "Cmp.C40_exact_write",
    "Cmp.C40_exact_read",
    "Cmp.C40_violated",
    "Cmp.C40_partial"
   ],
   "note": "Violated: a write right after a read can copy behind the buffer (undefined behaviour), a read right after a write loses the data. C40_partial: all sequences in which the two are separated by a change of position (absolute, to the end or, not after buffered reading, relative) or a flush, with reads of at most the capacity, and writes that do not straddle the end. C40_exact_write and C40_exact_read say the same as C74_exact_write and C74_exact_read for containers of bytes, the zeros that a write across the end leaves included."
  },
  {
   "property": "C41",
   "status": "partial",
   "theorems": [
    "Cmp.C41_violated",
    "Cmp.C41_partial",
    "Cmp.C41_exact"
   ],
   "note": "Violated: if ::write accepts only part of the data, input is requested although the rest was not accepted. C41_partial: all histories, capacities and chunkings of the input, if ::write accepts everything and ::read does not fail. C41_exact covers every schedule of partial writes, failing writes and failing reads: input is requested only after all batches written so far have been offered, each once."
  },
  {
   "property": "C42",
   "status": "proved",
   "theorems": [
    "Cmp.C42_stdin_in_order",
    "Cmp.C42_stdin_in_order_windows",
    "Cmp.C42_stdin_progress"
   ],
   "note": "All capacities, request sizes and schedules of short reads without error (Unix); for Windows order and completeness, C42_stdin_progress in addition for Unix. ::read is a parameter."
  },
  {
   "property": "C43",
   "status": "partial",
   "theorems": [
    "Cmp.C43_violated",
    "Cmp.C43_partial",
    "Cmp.C43_exact"
   ],
   "note": "Violated: what ::write does not accept at once is dropped. C43_partial: everything is delivered if ::write accepts everything; for every schedule what is accepted is a subsequence of what was written. C43_exact covers every behaviour of the system: the batches offered to it depend only on the program and the capacity, each is offered once and its unaccepted rest dropped, and everything arrives just if each call accepts all it is offered."
  },
  {
   "property": "C44",
   "status": "proved",
   "theorems": [
    "Cmp.C44_access_mode"
   ],
   "note": "From any state, for every history of operations between one successful open and the next, including operations that throw, on both platforms; in addition nothing done to a read-only object changes any file, and get_access_mode reports the mode of the open call."
  },
  {
   "property": "C45",
   "status": "partial",
   "theorems": [
    "Cmp.C45_violated",
    "Cmp.C45_partial",
    "Cmp.C45_partial_pages",
    "Cmp.C45_exact",
    "Cmp.C45_exact_short",
    "Cmp.C45_exact_schedule",
    "Cmp.C45_exact_page",
    "Cmp.C45_violated_buffer"
   ],
   "note": "Violated on Unix: read_block passes the same address again after a short read. C45_partial: Unix without short reads, Windows for every schedule of short reads; requests up to the buffer capacity, or unbuffered, and within one block. C45_partial_pages: with a buffer, all reads that need at most one more page; C45_exact: what a larger read before the end returns (the loaded page again). On Unix for every schedule of short reads: C45_exact_short (what an unbuffered file returns: the portions put over one another and the sum of their lengths), C45_exact_schedule (the claim holds of exactly the schedules that hand over everything at once), C45_exact_page (the first page of a buffered file; undefined behaviour if the portions exceed the buffer), C45_violated_buffer (such a case)."
  },
  {
   "property": "C46",
   "status": "partial",
   "theorems": [
    "Cmp.C46_violated",
    "Cmp.C46_partial",
    "Cmp.C46_exact",
    "Cmp.C46_exact_after_reads"
   ],
   "note": "Violated on both platforms: the buffer of the old file is delivered after open, and is_at_end asks for the path given to the constructor (terminating if there is none). C46_partial: from any state of an open object, open followed by set_position(0, begin), with the path of the constructor; Unix without short reads, Windows with any. C46_exact says what the object does after any successful open: the bytes left in the buffer come first, then the new file without as many bytes as were last loaded, and the end test asks for the path of the constructor. C46_exact_after_reads applies this to any reads of the old file."
  },
  {
   "property": "C47",
   "status": "proved",
   "theorems": [
    "Cmp.C47_inversion",
    "Cmp.C47_involution",
    "Cmp.C47_opposite"
   ],
   "note": "C47_inversion: invert_endianness reverses the bytes of any object; C47_involution: twice is the identity. The zero-byte call, which forms a pointer before the array, is excluded by 0 < size."
  },
  {
   "property": "C48",
   "status": "partial",
   "theorems": [
    "Cmp.C48_exact",
    "Cmp.C48_violated",
    "Cmp.C48_violated_always",
    "Cmp.C48_partial"
   ],
   "note": "Violated for every value that is not its own byte reversal when stream and host byte orders differ (C48_violated_always): data_input_stream inverts twice. C48_partial: equal byte orders, or palindromic values. C48_exact: values come back if and only if the byte orders agree or every value is its own reversal."
  },
  {
   "property": "C49",
   "status": "proved",
   "theorems": [
    "Cmp.C49_wire_format",
    "Cmp.C49_container"
   ],
   "note": "On every output resource and on containers."
  },
  {
   "property": "C50",
   "status": "partial",
   "theorems": [
    "Cmp.C50_violated",
    "Cmp.C50_partial",
    "Cmp.C50_exact"
   ],
   "note": "Violated for code points whose low 16 bits are a surrogate value in UTF-8 (C51). C50_partial: everything in UTF-16 and UTF-32; UTF-8 without those. C50_exact: a text comes back, or the stream is UTF-8, the text has such a code point and writing it throws."
  },
  {
   "property": "C51",
   "status": "partial",
   "theorems": [
    "Cmp.C51_violated",
    "Cmp.C51_partial",
    "Cmp.C51_partial_container",
    "Cmp.C51_exact"
   ],
   "note": "Violated: U+1D800 is rejected in UTF-8. C51_partial: UTF-16 and UTF-32 completely, UTF-8 without code points whose low 16 bits are a surrogate value; any output resource. C51_exact: otherwise the code points before the offending one have arrived and the stream throws."
  },
  {
   "property": "C52",
   "status": "proved",
   "theorems": [
    "Cmp.C52_mark",
    "Cmp.C52_text"
   ],
   "note": "On every resource that delivers bytes; end to end on containers."
  },
  {
   "property": "C53",
   "status": "partial",
   "theorems": [
    "Cmp.C53_exact",
    "Cmp.C53_exact_when",
    "Cmp.C53_violated",
    "Cmp.C53_violated_always",
    "Cmp.C53_partial"
   ],
   "note": "Violated: only the lowest byte is returned (C53_violated_always). C53_partial: UTF-8; below U+0100 in UTF-16 and UTF-32. C53_exact: what read_bom returns, the byte order it leaves and the bytes it leaves, for every first character on every input resource; C53_exact_when: the first code point comes back exactly in UTF-8, for the mark and below U+0100."
  },
  {
   "property": "C54",
   "status": "partial",
   "theorems": [
    "Cmp.C54_violated",
    "Cmp.C54_partial",
    "Cmp.C54_partial_any",
    "Cmp.C54_exact"
   ],
   "note": "Violated for code points a u8string cannot be given. C54_partial: all other lines, any mixture of terminators, unterminated last line; C54_partial_any: terminated lines on any resource, including ones that cannot tell that they are at the end, with any text after them, which is left to be read. C54_exact covers every text, with carriage returns anywhere and with characters std::u8string refuses, read by a program that catches the exception and goes on: the result of every attempt is given, and the stream is at its end after them."
  },
  {
   "property": "C55",
   "status": "partial",
   "theorems": [
    "Cmp.C55_violated",
    "Cmp.C55_partial",
    "Cmp.C55_exact"
   ],
   "note": "Violated: a lone CR is lost. C55_partial: texts in which every CR is part of CR LF or last. C55_exact covers every text, with carriage returns anywhere and with characters std::u8string refuses, read by a program that catches the exception and goes on."
  },
  {
   "property": "C56",
   "status": "partial",
   "theorems": [
    "Cmp.C56_violated",
    "Cmp.C56_partial",
    "Cmp.C56_exact"
   ],
   "note": "Violated: a lone CR joins two words. C56_partial: texts without lone CRs. C56_exact covers every text, with carriage returns anywhere and with characters std::u8string refuses, read by a program that catches the exception and goes on."
  },
  {
   "property": "C57",
   "status": "partial",
   "theorems": [
    "Cmp.C57_exact_least",
    "Cmp.C57_exact",
    "Cmp.C57_violated",
    "Cmp.C57_violated_separator",
    "Cmp.C57_partial"
   ],
   "note": "Violated for the least value of a signed type and for a lone CR as a separator. C57_partial: all other sequences of integers and booleans, whatever whitespace separates them. C57_exact: if and only if. C57_exact_least: what precedes a least value is written and then the behaviour is undefined (32 bits and more) or the output never ends."
  },
  {
   "property": "C58",
   "status": "proved",
   "theorems": [
    "Cmp.C58_values",
    "Cmp.C58_code_points",
    "Cmp.C58_cut"
   ],
   "note": "Values, code points, and code points cut off by the end; on every resource that delivers bytes."
  },
  {
   "property": "C59",
   "status": "partial",
   "theorems": [
    "Cmp.C59_violated",
    "Cmp.C59_partial",
    "Cmp.C59_exact"
   ],
   "note": "Violated: copies and moved-to opaque resources refer to the container inside the original. C59_partial: histories without copies and moves. C59_exact says which container every later operation of a copied or moved object works on, and that it is undefined once the original is gone."
  },
  {
   "property": "C60",
   "status": "partial",
   "theorems": [
    "Cmp.C60_violated",
    "Cmp.C60_partial",
    "Cmp.C60_exact",
    "Cmp.C60_exact_closes"
   ],
   "note": "Violated: the defaulted move operations copy the descriptor, so it is closed twice, possibly after it was given to another file; move assignment leaks. C60_partial: all histories without moves. C60_exact: the ownership of descriptors is right at every moment exactly for the histories in which no move has a file to hand over or to lose. C60_exact_closes: a descriptor that several objects hold is closed once for each."
  },
  {
   "property": "C61",
   "status": "partial",
   "theorems": [
    "Cmp.C61_exact",
    "Cmp.C61_violated",
    "Cmp.C61_violated_announced",
    "Cmp.C61_partial_result",
    "Cmp.C61_partial"
   ],
   "note": "Violated: failures of earlier runs are counted again; a function that announces itself too often writes behind a string. C61_partial: first run, fewer than 65536 tests of fewer than 65535 stages, functions that announce themselves once and return. C61_partial_result: the returned number for up to 2^31 - 1 tests of any number of stages. C61_exact covers every list of test functions, every number of runs and every way in which a function ends, for totals below 2^31: either the run ends with the totals of the ledger, or it terminates because std::vector throws in a noexcept function, or a number is wider than its field and the behaviour is undefined."
  },
  {
   "property": "C62",
   "status": "proved",
   "theorems": [
    "Cmp.C62_fifo",
    "Cmp.C62_endTest"
   ],
   "note": "All histories of push, pop, count and clear; the end of a test."
  },
  {
   "property": "C63",
   "status": "partial",
   "theorems": [
    "Cmp.C63_exact",
    "Cmp.C63_violated",
    "Cmp.C63_partial",
    "Cmp.C63_partial_numeral"
   ],
   "note": "Violated for totals of 2^32 or more, which are converted to int. C63_partial: totals below 2^31. C63_exact covers every total and every number of 32 bits: the width is that of what an int keeps of the total, and a number wider than that is undefined behaviour."
  },
  {
   "property": "C64",
   "status": "partial",
   "theorems": [
    "Cmp.C64_partial",
    "Cmp.C64_partial_owner",
    "Cmp.C64_violated",
    "Cmp.C64_violated_closed",
    "Cmp.C64_exact"
   ],
   "note": "Refinement of all three window implementations to an abstract world of owned windows, for all histories within a stated discipline; each object is told exactly what happens to the window it owns. Violated outside: a vetoed move assignment leaves an object receiving events of a window it no longer owns, and moving an object whose window was closed is undefined behaviour. C64_exact: all programs on all toolkits, whatever they do, if the system gives out no handle of a window that is open: undefined exactly if the ledger (Spec/GuiLedger.lean) says so, and else told is what the ledger says - what is reported for an open window goes to the address that opened it or took it over last, whichever window the object there holds."
  },
  {
   "property": "C65",
   "status": "partial",
   "theorems": [
    "Cmp.C65_partial",
    "Cmp.C65_violated",
    "Cmp.C65_exact"
   ],
   "note": "For all disciplined histories the handler is asked, a veto keeps the events coming and acceptance ends them; handlers may construct another window. Violated when such a handler accepts and the list of windows has to grow: erase through an invalid iterator. C65_exact: after any history on any toolkit, when a request to close is undefined, and that else the address in the ledger is asked and goes on hearing of the window exactly if it vetoed."
  },
  {
   "property": "C66",
   "status": "partial",
   "theorems": [
    "Cmp.C66_violated",
    "Cmp.C66_violated_example",
    "Cmp.C66_partial",
    "Cmp.C66_partial_open"
   ],
   "note": "Violated always: close never clears the handle, so open returns false for every object whose window was closed, after every history. What holds: moved-from objects open, objects with a window refuse."
  },
  {
   "property": "C67",
   "status": "proved",
   "theorems": [
    "Cmp.C67_gtk",
    "Cmp.C67_windows",
    "Cmp.C67_macos",
    "Cmp.C67_gtk_case",
    "Cmp.C67_reachable",
    "Cmp.C67_name",
    "Cmp.C67_distinct"
   ],
   "note": "All native codes of the three platforms against layouts stated independently; names characterised and distinct."
  },
  {
   "property": "C68",
   "status": "partial",
   "theorems": [
    "Cmp.C68_partial",
    "Cmp.C68_partial_exact",
    "Cmp.C68_violated"
   ],
   "note": "Deltas and totals are the differences and their sums in ticks of the clock, converted once each, for all clock sequences and histories; equal as numbers when the conversion does not round. Violated for doubles under every conversion: ten updates 0.1 s apart."
  },
  {
   "property": "C69",
   "status": "partial",
   "theorems": [
    "Cmp.C69_violated",
    "Cmp.C69_partial",
    "Cmp.C69_partial_moved",
    "Cmp.C69_partial_alive"
   ],
   "note": "Violated by move construction: the pointer stays at the moved-from object, which may be gone. Holds for all histories without it; with it, app() is the object constructed last from a command line."
  },
  {
   "property": "C70",
   "status": "partial",
   "theorems": [
    "Cmp.C70_violated",
    "Cmp.C70_partial",
    "Cmp.C70_exact",
    "Cmp.C70_violated_ieee"
   ],
   "note": "Violated: -1.25 comes back as -1.75. C70_partial proves the round trip for non-negative numbers and integers, unless radix^places overflows the format. C70_exact says what comes back for every number in range: a negative number with a fraction part and at most prec binary places comes back as its floor plus the fraction part of its magnitude, which is the number just if its fraction is a half."
  },
  {
   "property": "C71",
   "status": "proved",
   "theorems": [
    "Cmp.C71_cmp_equal"
   ],
   "note": "Proved for every rounding function; std::pow is a parameter. Infinities and NaN are not modelled."
  },
  {
   "property": "C72",
   "status": "partial",
   "theorems": [
    "Cmp.C72_violated",
    "Cmp.C72_violated_always",
    "Cmp.C72_exact"
   ],
   "note": "Violated: -1 from ::read is taken for a count of 2^64-1. C72_violated_always shows it for the first read on every fresh stdin_resource: with a buffer (request up to the capacity) and without one. C72_exact says what a read does in every state that can precede the first error: nothing is asked of the system if the buffer has enough; without errors the count is that of the bytes delivered and nothing is lost; with an error the count claimed is 2^64-1 without a buffer, and with one the memory of the buffer is delivered as if it had been read, or memory outside of it is read."
  },
  {
   "property": "C73",
   "status": "partial",
   "theorems": [
    "Cmp.C73_violated",
    "Cmp.C73_partial",
    "Cmp.C73_exact"
   ],
   "note": "Violated on Windows: every block of a large transfer is stored at the same address. C73_partial: requests within one block (2^63-1 bytes on Unix, 2^32-1 on Windows). Short reads are excluded here on both platforms, see C45. C73_exact: for every size the count is right and each index holds the byte stored there last."
  },
  {
   "property": "C74",
   "status": "partial",
   "theorems": [
    "Cmp.C74_violated",
    "Cmp.C74_partial",
    "Cmp.C74_exact_write",
    "Cmp.C74_exact_read"
   ],
   "note": "Violated: reading right after writing loses the data. C74_partial: sequences in which reading and writing are separated by a change of position (absolute, to the end or, not after reading, relative) or, after writing, a flush, with reads up to the capacity; Unix without short reads, Windows with any. No single piece larger than the system takes in one call; ::write is assumed to accept everything. C74_exact_write and C74_exact_read say what a write right after any reads and a read right after a pending write do: correct while what was read and what is written fit in the buffer together, undefined beyond that, at the first byte of the page for data larger than the buffer; and data that are still in the buffer are lost by a read."
  },
  {
   "property": "C75",
   "status": "partial",
   "theorems": [
    "Cmp.C75_exact",
    "Cmp.C75_violated",
    "Cmp.C75_partial",
    "Cmp.C75_partial_container"
   ],
   "note": "Violated: supplementary code points of UTF-16 strings on streams of another form or byte order. C75_partial: everything if the stream has the code units of the string; otherwise without those and, on UTF-8 streams, without code points whose low 16 bits are a surrogate value. C75_exact: otherwise the text up to the offending code point (a supplementary one included) has arrived and the stream throws."
  },
  {
   "property": "C76",
   "status": "proved",
   "theorems": [
    "Cmp.C76_values"
   ],
   "note": "All histories of construction, moves, destruction and notices, against a specification that reads the values off the history."
  },
  {
   "property": "C77",
   "status": "partial",
   "theorems": [
    "Cmp.C77_exact",
    "Cmp.C77_partial",
    "Cmp.C77_partial_container",
    "Cmp.C77_violated",
    "Cmp.C77_violated_char"
   ],
   "note": "Proved for all argument sequences except the least value of a signed type (undefined behaviour when negated, C77_violated) and the code points C75 names. C77_violated_char: a non-ASCII char is sign-extended. C77_exact: on every output resource, either all arguments are supported and written, or the output ends at the first unsupported one, with exactly the given part of its text written, by the given exception, undefined behaviour or endless loop."
  },
  {
   "property": "C78",
   "status": "partial",
   "theorems": [
    "Cmp.C78_negative",
    "Cmp.C78_nearest_partial",
    "Cmp.C78_partial",
    "Cmp.C78_violated"
   ],
   "note": "C78_violated: -1.25 is written as -2.25 and read back as -1.75. Proved for sequences of numbers that are not negative or are integers; the error bound holds for every rounding that is exact on values of the format and has relative error at most 2^-prec. C78_nearest_partial extends it to numbers with up to 289 (float: 29) binary places on machines that round to nearest. Separators may be any whitespace but a lone carriage return. C78_negative says what comes back of sequences in which negative numbers with a fraction part occur: those come back as in C107_negative, without disturbing the others."
  },
  {
   "property": "C79",
   "status": "partial",
   "theorems": [
    "Cmp.C79_violated",
    "Cmp.C79_partial",
    "Cmp.C79_partial_utf8"
   ],
   "note": "Violated for char8_t: the iterator has already moved over the trailing bytes read (C79_violated). C79_partial: every other character type. C79_partial_utf8: where a char8_t iterator is left, and that it is stuck there."
  },
  {
   "property": "C80",
   "status": "partial",
   "theorems": [
    "Cmp.C80_violated",
    "Cmp.C80_partial",
    "Cmp.C80_partial_nonnegative"
   ],
   "note": "Violated: with a negative offset char8_t, char16_t and 2-byte wchar_t iterators do not move. C80_partial: all offsets for char, char32_t, 4-byte wchar_t. C80_partial_nonnegative: non-negative offsets for the others (-= only char8_t, see C09), and that negative ones do nothing."
  },
  {
   "property": "C81",
   "status": "proved",
   "theorems": [
    "Cmp.C81_postfix",
    "Cmp.C81_traversal"
   ],
   "note": "All character types, positions and strings; the outcome and the state left behind are compared, also on failure."
  },
  {
   "property": "C82",
   "status": "proved",
   "theorems": [
    "Cmp.C82_pointer",
    "Cmp.C82_agree"
   ],
   "note": "All code unit widths and arrays."
  },
  {
   "property": "C83",
   "status": "proved",
   "theorems": [
    "Cmp.C83_dialogue"
   ],
   "note": "Proved for a system that accepts all output and whose reads do not fail; integers of which the absolute value fits, with at most 19 digits (C22)."
  },
  {
   "property": "C84",
   "status": "proved",
   "theorems": [
    "Cmp.C84_prompt"
   ],
   "note": "Proved under the conditions of C83, with some input following the answers."
  },
  {
   "property": "C85",
   "status": "partial",
   "theorems": [
    "Cmp.C85_exact",
    "Cmp.C85_exact_container",
    "Cmp.C85_violated",
    "Cmp.C85_partial"
   ],
   "note": "Violated: with an append pending in the buffer is_at_end is false on both platforms and for containers, and on Windows get_position of a file object that is not open is undefined. C85_partial: position always right for the sequences of C74 and C40, end test right when the last operation was not a write. C85_exact and C85_exact_container say what the end test answers after any such sequence, pending writes included: it compares the position with the size of what is stored at that moment, so it is right exactly if the stored data are as long as the array of bytes."
  },
  {
   "property": "C86",
   "status": "partial",
   "theorems": [
    "Cmp.C86_violated",
    "Cmp.C86_partial",
    "Cmp.C86_exact"
   ],
   "note": "Violated: in the byte order that is not the host's, fields of several bytes are loaded reversed (C48). C86_partial: any history on streams in the host's byte order or with fields of one byte behaves like a list of records; in the other byte order the content is still right. The buffer holds each field, or there is none. C86_exact (containers and files, either byte order): what arrives is always right; each field loaded has its bytes in reverse if the order is not the host's, so the claim holds exactly if the order is the host's or all fields loaded are palindromes."
  },
  {
   "property": "C87",
   "status": "partial",
   "theorems": [
    "Cmp.C87_violated",
    "Cmp.C87_violated_separator",
    "Cmp.C87_exact",
    "Cmp.C87_partial"
   ],
   "note": "Violated for the least value of a signed type (undefined behaviour) and for a lone CR as a separator. C87_partial: all other notes, all histories, containers and files on both platforms. C87_exact: all values and all whitespace, empty separators included: adding a least value ends the program (undefined behaviour from 32 bits on, else no end); reading a note takes as many words as it has values from where it starts, out of the text in which a CR in front of anything is left out."
  },
  {
   "property": "C88",
   "status": "partial",
   "theorems": [
    "Cmp.C88_violated",
    "Cmp.C88_partial",
    "Cmp.C88_exact"
   ],
   "note": "Violated: containers count in the other direction, so -d leads behind the end and the next read is undefined. C88_partial: files on both platforms; containers for d = 0, and with the opposite sign. C88_exact gives the target for every distance and element size of containers, from every state; C89_exact that for files."
  },
  {
   "property": "C89",
   "status": "partial",
   "theorems": [
    "Cmp.C89_violated",
    "Cmp.C89_partial",
    "Cmp.C89_exact"
   ],
   "note": "Violated in three ways: positions outside of a container make the next read undefined; on Windows a negative position leaves the position unchanged; behind the end of a file is_at_end says no. C89_partial: the bytes delivered at every k on Unix, at every k that is not negative on Windows, and inside containers; is_at_end inside is C85. C89_exact covers every change of position of a file from every state in which flushing succeeds, on both platforms; C36_exact and C88_exact cover containers."
  },
  {
   "property": "C90",
   "status": "partial",
   "theorems": [
    "Cmp.C90_partial",
    "Cmp.C90_partial_set",
    "Cmp.C90_violated",
    "Cmp.C90_violated_empty",
    "Cmp.C90_exact",
    "Cmp.C90_exact_closed"
   ],
   "note": "Proved for all disciplined histories and all texts without NUL on GTK and macOS, for BMP texts on Windows; objects without a window are not asked on macOS. Violated on Windows by any other character (reading back throws, by C11) and on macOS by an object without a window (null pointer). C90_exact: for all texts on all toolkits, in programs that catch exceptions: what comes back is what stands before the first NUL, except on Windows if a character outside the BMP is in it, where each reading throws (which exception depends on the low half of that character); an object without a window is undefined behaviour on macOS. C90_exact_closed: objects whose window has been closed, while none is open: an empty title and no effect on Windows, undefined behaviour on the others."
  },
  {
   "property": "C91",
   "status": "partial",
   "theorems": [
    "Cmp.C91_partial",
    "Cmp.C91_violated",
    "Cmp.C91_exact"
   ],
   "note": "Visibility proved for all disciplined histories on all toolkits, modes on GTK and macOS and, in programs that do not hide windows, on Windows. Violated on Windows: hide and show of a maximized window shows it in standard mode. C91_exact: on all toolkits visible windows are in the mode the abstract world says, in which on Windows a window is in the mode it was given when shown first and a standard window whenever it is shown again."
  },
  {
   "property": "C92",
   "status": "partial",
   "theorems": [
    "Cmp.C92_return",
    "Cmp.C92_partial",
    "Cmp.C92_partial_runs",
    "Cmp.C92_violated",
    "Cmp.C92_exact"
   ],
   "note": "That a return is 0 and leaves no association holds in all states. Proved for disciplined programs: returns after the first turn that leaves no window, keeps running before, deliveries and looks as in the abstract world; handlers may act (C93). Violated when an object with a window is destroyed. C92_exact: the same programs with handlers, those of updates included, that do anything programs may do: the loop is undefined exactly if an update handler opens or closes a window or the user closes one that is not there, and else it returns 0 after the first turn that leaves no window. Missing there: only what C64 misses."
  },
  {
   "property": "C93",
   "status": "partial",
   "theorems": [
    "Cmp.C93_partial",
    "Cmp.C93_violated",
    "Cmp.C93_exact"
   ],
   "note": "Proved for handlers of key and resize events, with everything the program may do after the event; update handlers that change the looks of their own window are in C92. Violated for update handlers that open or close windows: the loop goes on with invalid iterators. C93_exact: update handlers that do anything programs may do: undefined exactly if one of them opens or closes a window, and else what they do has its effect after the update of their window, in the order in which the windows were opened."
  },
  {
   "property": "C94",
   "status": "proved",
   "theorems": [
    "Cmp.C94_utf8",
    "Cmp.C94_utf16",
    "Cmp.C94_count",
    "Cmp.C94_fits"
   ],
   "note": "Proved in full. Outside of well-formed text is_leading_byte also accepts C0, C1 and F5 to F7, of which the claim says nothing."
  },
  {
   "property": "C95",
   "status": "partial",
   "theorems": [
    "Cmp.C95_violated",
    "Cmp.C95_partial",
    "Cmp.C95_exact"
   ],
   "note": "Violated: is_at_end asks for the path, which open does not set, and terminates. C95_partial: every operation except that question, exceptions included. C95_exact: any sequence of operations gives the same on an object opened later as on one constructed with the path, except is_at_end, which always terminates on the former."
  },
  {
   "property": "C96",
   "status": "partial",
   "theorems": [
    "Cmp.C96_violated",
    "Cmp.C96_exact",
    "Cmp.C96_partial"
   ],
   "note": "Violated on both platforms: an older, longer file is not truncated, so its end is still there. C96_exact: what is loaded is what was written followed by the end of the older file; C96_partial: exactly what was written where the older file is not longer; reads as in C45."
  },
  {
   "property": "C97",
   "status": "partial",
   "theorems": [
    "Cmp.C97_violated",
    "Cmp.C97_partial",
    "Cmp.C97_exact"
   ],
   "note": "Violated: an older, longer file is not truncated. C97_partial: no longer file before, values that can be printed (C77), lines the string type can hold (C54), texts no larger than the system takes in one call, buffers that are absent or hold a code unit. C97_exact: the text survives exactly if the file that was there is not longer than the new one; otherwise what the old one had beyond the new length follows it, and the lines still come back in front of it if that remainder is text."
  },
  {
   "property": "C98",
   "status": "partial",
   "theorems": [
    "Cmp.C98_violated",
    "Cmp.C98_partial",
    "Cmp.C98_exact"
   ],
   "note": "Violated: with a buffer, a write to an object for writing whose file could not be opened returns the full count; the bytes vanish. Proved for objects made without a path, objects for reading and objects without a buffer, every sequence of operations. C98_exact covers every mode, buffer and history: a write that fits into the buffer is reported as done and the position goes up with it; reading afterwards is undefined if the buffer counts as loaded; the files stay as they are."
  },
  {
   "property": "C99",
   "status": "partial",
   "theorems": [
    "Cmp.C99_violated",
    "Cmp.C99_partial",
    "Cmp.C99_exact"
   ],
   "note": "Violated with a buffer: the count is returned before the system is asked, and what the system does not accept in a flush is dropped. Proved without a buffer for every schedule of partial transfers and failures, and with a buffer on systems that accept everything. C99_exact: with a buffer such a program gets everything through just if the system accepts at once what in the end fits into the buffer."
  },
  {
   "property": "C100",
   "status": "partial",
   "theorems": [
    "Cmp.C100_violated",
    "Cmp.C100_partial",
    "Cmp.C100_exact"
   ],
   "note": "Violated: relative moves after buffered reads, reads larger than the buffer, the position of elements of more than a byte after buffered reads, writes across the end. Proved for all other sequences: reads up to the capacity, positions inside the content, writes inside the content or appending whole elements; the position also while data are waiting to be written. C100_exact: every sequence of operations, every size of elements and every buffer, positions outside the content included: reading is what a lens with a page sees, writing what a pen that keeps data back draws, with the positions they report; undefined exactly where these have no answer. C100_exact: every sequence of operations, every size of elements and every buffer, positions outside the content included: reading is what a lens with a page sees, writing what a pen that keeps data back draws, with the positions they report; undefined exactly where these have no answer."
  },
  {
   "property": "C101",
   "status": "partial",
   "theorems": [
    "Cmp.C101_violated",
    "Cmp.C101_partial",
    "Cmp.C101_partial_files",
    "Cmp.C101_exact",
    "Cmp.C101_exact_iff"
   ],
   "note": "Violated for portions larger than the source's buffer (C33). Proved for portions up to the buffer or without one, between containers of bytes and between files of both platforms on different file systems (a file system without short reads on Unix), for sizes the platform transfers. C101_exact, C101_exact_iff (containers of bytes, portions of any size): the target is a copy if no portion needs more than the rest of a page and the page behind it; from the first portion that does, the program repeats a page and drops the last one if the content is a whole number of portions, and never ends otherwise."
  },
  {
   "property": "C102",
   "status": "partial",
   "theorems": [
    "Cmp.C102_violated",
    "Cmp.C102_partial",
    "Cmp.C102_partial_container",
    "Cmp.C102_partial_marked",
    "Cmp.C102_exact"
   ],
   "note": "Violated: a lone CR is lost, and code points whose low 16 bits are a surrogate value cannot be written in UTF-8. Proved for all other texts, on any resources that deliver and collect bytes, with and without a mark. C102_exact covers every text: the target holds the text without the carriage returns that had a character behind them, or (UTF-8 target) what comes before the first code point whose low 16 bits are a surrogate value, and the copy ends in invalid_code_point."
  },
  {
   "property": "C103",
   "status": "partial",
   "theorems": [
    "Cmp.C103_violated",
    "Cmp.C103_partial",
    "Cmp.C103_exact",
    "Cmp.C103_partial_file"
   ],
   "note": "Violated for values of several bytes in the byte order that is not the host's (C48). Proved for containers and for files otherwise, without the code points UTF-8 streams refuse (C50) and without carriage returns (C55). C103_exact (containers): what is written is always right; values in the order that is not the host's come back with their bytes in reverse and disturb nothing else, so the claim holds exactly if all of these are palindromes. Left out there: carriage returns, and the code points UTF-8 streams refuse."
  },
  {
   "property": "C104",
   "status": "proved",
   "theorems": [
    "Cmp.Bench.C104_observed",
    "Cmp.Bench.C104_balance"
   ],
   "note": "All dummies belong to one test module, which outlives them."
  },
  {
   "property": "C105",
   "status": "partial",
   "theorems": [
    "Cmp.C105_exact",
    "Cmp.C105_partial",
    "Cmp.C105_violated"
   ],
   "note": "C105_violated: one half in radix 3 without a place limit is never finished. C105_partial: it returns in every even radix and whenever a place limit is set, for every number of the format and every rounding to nearest; for numbers with at most prec-6 binary places it returns exactly if a limit is set, the radix is even or the number is an integer. C105_exact: integral parts outside long long, or its least value, are undefined behaviour; otherwise formatting comes back exactly if a limit is set or the remainder, as the machine rounds it, vanishes after some digit, and if it does not come back it never does. Missing: for odd radices without a limit and many binary places, a closed form of when that remainder vanishes."
  },
  {
   "property": "C106",
   "status": "partial",
   "theorems": [
    "Cmp.C106_exact",
    "Cmp.C106_partial",
    "Cmp.C106_negative",
    "Cmp.C106_violated",
    "Cmp.C106_exact_integers",
    "Cmp.C106_violated_places"
   ],
   "note": "C106_violated: -1.5 is written as -2.5, and C106_negative shows that every negative number with a fraction part comes out one too low. C106_partial proves the claim for numbers that are not negative or are integers. C106_exact: whenever formatting comes back, whatever the radix and the limit, the value is within the tolerance of the number, or of one less if it is negative and has a fraction part. C106_violated_places: with a limit of exactly two places 5 is written as 5; C106_exact_integers: no integer is given places, in any format; for all other numbers C106_partial and C106_exact prove that exactly n places are written."
  },
  {
   "property": "C107",
   "status": "partial",
   "theorems": [
    "Cmp.C107_negative",
    "Cmp.C107_partial",
    "Cmp.C107_violated"
   ],
   "note": "C107_violated: -1.25 comes back as -1.75. C107_partial proves the claim for numbers that are not negative or are integers and fit long long, in even radices, without separators and place limits. Missing: more binary places than PlacesFit allows, odd radices, separators (C150) and place limits (C151). C107_negative says what becomes of negative numbers with a fraction part: up to rounding they come back off by twice the fraction part of the absolute value less one."
  },
  {
   "property": "C108",
   "status": "partial",
   "theorems": [
    "Cmp.C108_exact",
    "Cmp.C108_partial",
    "Cmp.C108_violated",
    "Cmp.C108_violated_ieee"
   ],
   "note": "C108_violated: 1-2 is accepted as -12 (as by C23). C108_partial: if the integral part has no sign after its first character and no leading separator, whatever is accepted is a numeral, and everything else is reported as parse_failed if its characters are below 256 and the integral part is short enough not to overflow long long. C108_exact says for every text and every format which texts are accepted and as what value, the order in which the places are added up included."
  },
  {
   "property": "C109",
   "status": "partial",
   "theorems": [
    "Cmp.C109_partial",
    "Cmp.C109_violated",
    "Cmp.C109_violated_none",
    "Cmp.C109_violated_ieee"
   ],
   "note": "Violated both ways: with exactly three places demanded 1.5 is accepted (C109_violated), and with at most three places allowed 1. is refused (C109_violated_none). C109_partial is the exact behaviour: the text is refused if and only if a limit is set, its count is not zero and the text ends in the radix character."
  },
  {
   "property": "C110",
   "status": "partial",
   "theorems": [
    "Cmp.C110_exact",
    "Cmp.C110_exact_arithmetic",
    "Cmp.C110_partial",
    "Cmp.C110_violated",
    "Cmp.C110_violated_ieee"
   ],
   "note": "C110_violated: the x in 1.x is reported as wrong_place_limit. C110_partial: failures in the integral part have the reason of parse_integer (see C24), whatever the encoding; a character in the fraction part that is no digit is always reported as wrong_place_limit. C110_exact says for every text, in every encoding, what parse_floating_point does with it, the undefined cases included. C110_exact_arithmetic: with the arithmetic of the machine, or any other, exactly the same texts are accepted and the rest are refused with the same reasons."
  },
  {
   "property": "C111",
   "status": "partial",
   "theorems": [
    "Cmp.C111_violated",
    "Cmp.C111_partial",
    "Cmp.C111_exact"
   ],
   "note": "C111_violated: the buffer is in a virtual base class, which a defaulted move assignment may assign twice; the second time the source has no buffer any more, and the bytes in the buffer are delivered again. C111_partial: all histories in which such an assignment is made only while nothing is in the buffer; copying, copy assignment, move construction and single move assignment are always right. Reads are at most as long as the buffer (C33), copy assignment does not go to an object with a larger buffer. C111_exact: every history, including assignments that lose what is in the buffer: the object then reads on at the start of the page that was in it while it reports a position and an end as if it were where the original was."
  },
  {
   "property": "C112",
   "status": "partial",
   "theorems": [
    "Cmp.C112_violated",
    "Cmp.C112_exact",
    "Cmp.C112_violated_number",
    "Cmp.C112_partial"
   ],
   "note": "C112_violated: 'A' written as char does not come back. C112_exact: for every char in every encoding, byte order and buffer size what comes back is never the character: for a digit its value, for other ASCII characters a parse failure, for the others invalid_code_point or, in UTF-16, where they were written as U+FFFxx, undefined behaviour. C112_violated_number: char8_t is written as a number. C112_partial: char8_t, char16_t and wchar_t come back as numbers; missing: char and the least wchar_t. For char32_t see C50."
  },
  {
   "property": "C113",
   "status": "partial",
   "theorems": [
    "Cmp.C113_violated",
    "Cmp.C113_violated_order",
    "Cmp.C113_partial",
    "Cmp.C113_partial_apart",
    "Cmp.C113_exact"
   ],
   "note": "C113_violated: uin is tied to uout only, so a question written to uerr has not arrived when the answer is awaited. C113_violated_order: at the end of the program uerr is flushed before uout. C113_partial, if the system accepts what it is given and reading does not fail: what has arrived is a prefix of what was sent, less than a buffer is missing, flushing makes it arrive without touching the other handle, uout (and uerr if unbuffered or just flushed) has arrived before input is asked for, and at the end everything has. C113_partial_apart: whatever the system accepts, nothing mixes and the order is kept. C113_exact: when input is asked for, a question has arrived exactly if it was written to uout or nothing of that handle is waiting in its buffer; the bytes on the screen are, call by call, those of the abstract screen."
  },
  {
   "property": "C114",
   "status": "partial",
   "theorems": [
    "Cmp.C114_violated",
    "Cmp.C114_violated_order",
    "Cmp.C114_partial",
    "Cmp.C114_exact"
   ],
   "note": "C114_violated: in the compiled library uin_resource is constructed before uout_resource, to whose base class it is tied. C114_violated_order: objects in translation units that are initialised before the library's. C114_partial: header-only, every program. C114_exact: compiled, if tying to an object that does not exist yet is harmless, exactly the programs in which no object that is constructed before the library's uses a stream."
  },
  {
   "property": "C115",
   "status": "partial",
   "theorems": [
    "Cmp.C115_exact",
    "Cmp.C115_violated",
    "Cmp.C115_partial"
   ],
   "note": "Violated on Windows: every block of a large transfer is taken from the same address. C115_partial: data within one block (2^63-1 bytes on Unix, 2^32-1 on Windows). C115_exact: for every size the count is right and what is stored is the first block, repeated. The system is assumed to accept what it is given in one call."
  },
  {
   "property": "C116",
   "status": "proved",
   "theorems": [
    "Cmp.C116_line",
    "Cmp.C116_all",
    "Cmp.C116_word",
    "Cmp.C116_char",
    "Cmp.C116_values",
    "Cmp.C116_kept"
   ],
   "note": "C116_line, C116_all and C116_word give outcome, target and remaining items exactly, for all bytes and every source that delivers its bytes; C116_char and C116_values the same for the other operators; C116_kept holds for any source at all, also for one that fails on its own account."
  },
  {
   "property": "C117",
   "status": "partial",
   "theorems": [
    "Cmp.C117_outcomes",
    "Cmp.C117_exact",
    "Cmp.C117_violated",
    "Cmp.C117_partial",
    "Cmp.C117_lost"
   ],
   "note": "Violated: the unit that shows that a character is cut short is consumed with it, so the next character is lost (C117_violated; the Unicode Standard, chapter 3.9, asks not to consume it). C117_partial: stray units lose nothing. C117_lost: a character cut short always costs exactly the next one. C117_exact: what is read from all bytes whatsoever, with termination; C117_outcomes: the outcome of every single read on every source."
  },
  {
   "property": "C118",
   "status": "partial",
   "theorems": [
    "Cmp.C118_exact",
    "Cmp.C118_violated",
    "Cmp.C118_partial"
   ],
   "note": "C118_partial: the log, for reads that are unbuffered or no larger than the buffer. C118_violated: a larger read gets what the buffer held twice. C118_exact: what every operation gives for any number of readers and writers on one container in all sequences, with copies, destruction, all positions and element sizes and changes by the program between, and exactly when the behaviour is undefined."
  },
  {
   "property": "C119",
   "status": "partial",
   "theorems": [
    "Cmp.C119_violated",
    "Cmp.C119_partial",
    "Cmp.C119_exact"
   ],
   "note": "C119_partial: transparent resources, and opaque ones whose content is used through the I/O class. C119_violated: the base classes of an opaque I/O resource have containers of their own, so what is written is not found through them. C119_exact: through the input class the content is always empty, through the output class it is what was last assigned through that class, and neither has an influence on the rest."
  },
  {
   "property": "C120",
   "status": "partial",
   "theorems": [
    "Cmp.C120_violated",
    "Cmp.C120_violated_zero",
    "Cmp.C120_violated_large",
    "Cmp.C120_partial",
    "Cmp.C120_exact",
    "Cmp.C120_near"
   ],
   "note": "Violated for negative numbers, where the code rounds down instead of leaving out places (C120_violated); for 309 places or more zero is not equal to itself, since the power of ten is infinite (C120_violated_zero); and numbers whose products overflow are all equal (C120_violated_large). C120_partial: numbers that are not negative, when the products do not round. C120_exact: the rule for all numbers when the products do not round. C120_near: with rounding, numbers that compare equal differ by less than one unit of the last place plus the precision of the numbers."
  },
  {
   "property": "C121",
   "status": "partial",
   "theorems": [
    "Cmp.C121_violated",
    "Cmp.C121_violated_undefined",
    "Cmp.C121_partial",
    "Cmp.C121_exact"
   ],
   "note": "Violated: is_radix_digit asks std::tolower, so in Turkish (ISO 8859-9) the letter I is refused in radix 36 (C121_violated), and parsing the character U+00DD, whose number is that of the dotted capital letter there, runs off the end of a function (C121_violated_undefined). C121_partial: locales with plain letters. C121_exact: those are all the locales in which the digits, or the numbers parsed, are those of the locale \"C\"."
  },
  {
   "property": "C122",
   "status": "partial",
   "theorems": [
    "Cmp.C122_violated",
    "Cmp.C122_partial",
    "Cmp.C122_exact"
   ],
   "note": "Violated: a code point is inserted unit by unit, so that a string with room for one byte keeps the first byte of U+00E9 and is ill-formed (C122_violated). C122_partial: characters of one unit and strings with room for four more. C122_exact: when memory runs out the first units of the encoding remain, and each number of them less than all can remain; all other exceptions are those of unlimited memory and change nothing."
  },
  {
   "property": "C123",
   "status": "partial",
   "theorems": [
    "Cmp.C123_violated",
    "Cmp.C123_refines",
    "Cmp.C123_partial",
    "Cmp.C123_forms",
    "Cmp.C123_exact"
   ],
   "note": "The second half is proved (C123_refines). The first is violated when the result has more units than the source (C123_violated: UTF-32 to UTF-8). C123_partial: results that are no longer. C123_forms: all texts from UTF-8, to UTF-32, and between equal forms. C123_exact: a conversion that succeeds asks only for what it reserves exactly if the result fits in that."
  },
  {
   "property": "C124",
   "status": "partial",
   "theorems": [
    "Cmp.C124_violated",
    "Cmp.C124_exact",
    "Cmp.C124_partial"
   ],
   "note": "Violated: the functions are noexcept and copy a string (C124_violated). C124_partial: strings of up to 15 bytes, which the common implementations keep in the object. C124_exact: they end the program exactly if the string does not fit in the capacity and memory is refused; otherwise the string is the one given."
  },
  {
   "property": "C125",
   "status": "partial",
   "theorems": [
    "Cmp.C125_violated",
    "Cmp.C125_violated_short",
    "Cmp.C125_partial",
    "Cmp.C125_exact"
   ],
   "note": "Violated: a reader that asks for more than its buffer holds gets what the buffer held twice (C125_violated), and on Unix a reader whose calls are answered with less than was asked for gets parts stored over each other (C125_violated_short). C125_partial: readers without a buffer or with reads no larger than it, for all interleavings, on both systems. C125_exact: any number of readers and writers (each one or the other) on one file that also changes by other means, with seeking and reads of any size: what is seen and what the file holds are given by a board of pages and kept data."
  },
  {
   "property": "C126",
   "status": "partial",
   "theorems": [
    "Cmp.C126_exact",
    "Cmp.C126_partial",
    "Cmp.C126_violated",
    "Cmp.C126_exact_when"
   ],
   "note": "Violated for UTF-16 in the byte order that is not the system's, with every buffer that holds a code unit: the two units of a character beyond U+FFFF are written one by one, one of them may be in the file and the other one kept back, and whoever reads then loses the character (C126_violated). C126_partial: all other cases, for texts without carriage returns; C126_exact_when: exactly these. C126_exact: for all contents of the file and all texts, with carriage returns: what each gets is what the bytes that appeared since the last time are by themselves."
  },
  {
   "property": "C127",
   "status": "proved",
   "theorems": [
    "Cmp.C127",
    "Cmp.C127_negative",
    "Cmp.C127_finite",
    "Cmp.C127_places"
   ],
   "note": "C127: the value and its error, for all lengths. C127_negative: negative numerals, where the fraction is added to the negative integral part as in C28, are finite too. C127_finite: every text. C127_places: which digits do not matter."
  },
  {
   "property": "C128",
   "status": "partial",
   "theorems": [
    "Cmp.C128_exact",
    "Cmp.C128_partial",
    "Cmp.C128_violated"
   ],
   "note": "Violated: infinities, NaN and numbers of 2^63 and more are converted to long long, which is undefined (C128_violated, for every format). C128_exact: formatting is defined exactly for the finite numbers whose integral part, rounded down, is in long long and not its least value; in an even radix or with a place limit it returns exactly then. C128_partial: these numbers."
  },
  {
   "property": "C129",
   "status": "partial",
   "theorems": [
    "Cmp.C129_exact",
    "Cmp.C129_partial",
    "Cmp.C129_violated",
    "Cmp.C129_violated_character"
   ],
   "note": "Violated: a word at the end of the input, without anything behind it, ends the program with an uncaught exception (C129_violated), and so does a word with U+1D800 (C129_violated_character). C129_exact: what is printed and how the program ends for every input, and that the question is on the terminal whenever the system is asked. C129_partial: words with whitespace behind."
  },
  {
   "property": "C130",
   "status": "partial",
   "theorems": [
    "Cmp.C130_exact",
    "Cmp.C130_exact_close",
    "Cmp.C130_exact_range",
    "Cmp.C130_partial",
    "Cmp.C130_violated"
   ],
   "note": "Violated: when the counter is switched off and on again within a second, the title keeps the plain text although updates come (C130_violated, on every platform). C130_exact: report, visibility and title for every history; C130_exact_close: the end of the program; C130_partial: the title when the second was not counted before the counter was switched on. The seconds must fit into int. `C130_exact_range`: at the first counted second that does not fit into int the program is undefined."
  },
  {
   "property": "C131",
   "status": "partial",
   "theorems": [
    "Cmp.C131_partial",
    "Cmp.C131_violated"
   ],
   "note": "C131_violated: 0.12 is read as the double above the nearest one. C131_partial proves it for numerals without fraction digits (any radix and sign), for decimal numerals with one fraction digit whose integral part is a value of the format, and for numerals with integral part zero of which only the last fraction digit is not zero, as long as the powers of the radix are values of the format. Missing: all other numerals; their error is bounded by C28_partial."
  },
  {
   "property": "C132",
   "status": "partial",
   "theorems": [
    "Cmp.C132_partial",
    "Cmp.C132_violated"
   ],
   "note": "C132_violated: 7/8 is written as 0.875, which is read as the next double. C132_partial proves it for all numbers with at most two binary places, negative integers included; C132_violated shows that three are too many. For more places C107_partial bounds the error, and in radices that are powers of two the same number comes back (C70_partial)."
  },
  {
   "property": "C133",
   "status": "proved",
   "theorems": [
    "Cmp.C133_exact",
    "Cmp.C133_shown",
    "Cmp.C133_typed"
   ],
   "note": "C133_exact: it returns 0 iff the items of the input are a line ツ, a word that parses as 5.5 and a word that parses as -75, each with its terminator (which words those are is C21 to C28). C133_shown: what is seen then. C133_typed: typing the three answers as asked for, with LF or CRLF, whatever comes behind, passes. Without a terminator behind the last answer the program is terminated (example). How std::cout and uout are mixed on the terminal is not modelled."
  },
  {
   "property": "C134",
   "status": "partial",
   "theorems": [
    "Cmp.C134_exact",
    "Cmp.C134_partial",
    "Cmp.C134_partial_library",
    "Cmp.C134_exact_test",
    "Cmp.C134_violated",
    "Cmp.C134_violated_mach"
   ],
   "note": "C134_partial and C134_partial_library: it holds when the compiler defines marks of exactly one supported system. C134_violated: on OpenBSD the header of a file is accepted without any class for files in it, and CMP_OS_NAME is undefined; C134_violated_mach: GNU/Hurd, which defines __MACH__, is taken for macOS. C134_exact: with any marks the first of Windows, macOS, Linux-based, FreeBSD is chosen, with none nothing. C134_exact_test: tests/manual/test_platform.cpp compiles exactly where a system is chosen, and what it prints. The headers behind the choice are entered but their contents are not preprocessed here, except for the io package."
  },
  {
   "property": "C135",
   "status": "partial",
   "theorems": [
    "Cmp.C135_partial",
    "Cmp.C135_exact",
    "Cmp.C135_partial_excluded",
    "Cmp.C135_exact_excluded",
    "Cmp.C135_violated",
    "Cmp.C135_violated_on"
   ],
   "note": "C135_partial: it holds on a supported system when the setting for header-only use reads as 0 or 1 in a condition (true, false, any other identifier: 0). C135_violated: with 2 neither side defines the streams; C135_exact: the sides define them exactly for 1 and for 0. C135_partial_excluded: excluded packages. C135_violated_on: CMP_CONFIG_IO_PACKAGE_EXCLUDED=ON reads as 0 in the conditions and fails the assertion, so that the library does not compile; C135_exact_excluded: exactly then. That the library and its user are compiled with the same settings is up to the build."
  },
  {
   "property": "C136",
   "status": "partial",
   "theorems": [
    "Cmp.C136_exact",
    "Cmp.C136_exact_settings",
    "Cmp.C136_exact_copies",
    "Cmp.C136_exact_toolkit",
    "Cmp.C136_partial",
    "Cmp.C136_violated",
    "Cmp.C136_violated_off",
    "Cmp.C136_violated_on",
    "Cmp.C136_violated_header_only",
    "Cmp.C136_violated_dev"
   ],
   "note": "C136_partial: it holds when every answer is true or false in small letters, or none, and the library is not header-only. C136_violated: with CMP_BUILD_STATIC=ON the library is shared and copied nowhere; C136_violated_off: with CMP_CONFIG_DESKTOP_GUI_PACKAGE_EXCLUDED=OFF on Linux the GTK code is compiled but GTK not linked; C136_violated_on: with ON the package is compiled; C136_violated_header_only: a header-only library cannot be configured without GTK although nothing of it is compiled; C136_violated_dev: CMP_DEV=false counts as yes. C136_exact, C136_exact_settings, C136_exact_toolkit: for any values, what is built, which macros are defined, and when code and toolkit fit. Link-time optimisation also follows CMAKE_INTERPROCEDURAL_OPTIMIZATION, a variable of CMake's own. C136_exact_copies: where the library is copied to, for any values."
  },
  {
   "property": "C137",
   "status": "partial",
   "theorems": [
    "Cmp.C137_exact",
    "Cmp.C137_partial",
    "Cmp.C137_violated"
   ],
   "note": "C137_violated: with CMP_CONFIG_IO_PACKAGE_EXCLUDED=true the tests of the io package are still added, and including its headers is an error. C137_exact: every program can be compiled exactly when the io package is there and, with CMP_DEV, the desktop_gui package too. C137_partial: the programs that use the headers only can always be compiled. Modelled of each program are the headers of the library that it includes, each by itself; that they can be included is what the preprocessor of C134 decides, not the C++ in them."
  },
  {
   "property": "C138",
   "status": "proved",
   "theorems": [
    "Cmp.C138",
    "Cmp.C138_tests",
    "Cmp.C138_others",
    "Cmp.C138_utf8"
   ],
   "note": "Holds (C138, C138_tests). That the macros of a library are those of what links with it is how PUBLIC definitions work in CMake and part of the model; so is that link-time optimisation that is asked for by a variable takes effect for targets added afterwards in that directory and below. C138_others: when the manual tests and the examples are built, from what, linked with what, and that the former are no part of the test run; C138_utf8: with the Microsoft compiler everything is compiled as UTF-8."
  },
  {
   "property": "C139",
   "status": "partial",
   "theorems": [
    "Cmp.C139_exact",
    "Cmp.C139_partial",
    "Cmp.C139_violated",
    "Cmp.C139_exact_rest"
   ],
   "note": "C139_violated: in the default build CMP_LIBRARY_NAME is defined first as nothing and then as CMP_EXPORT, in the library and in every program that links with it; C++ forbids this (compilers warn). C139_partial: the marks are always right, and with a static library no macro is defined in two ways. C139_exact: which macros are defined in two ways, for every target. C139_exact_rest: everything else that core/config.hpp defines is the same with the part for shared libraries and without it (so that leaving it out in C134 to C138 does no harm), and functions are declared inline exactly in header-only use. The header that CMake writes is modelled after its manual."
  },
  {
   "property": "C140",
   "status": "partial",
   "theorems": [
    "Cmp.C140_exact_view",
    "Cmp.C140_exact",
    "Cmp.C140_exact_unsized",
    "Cmp.C140_partial",
    "Cmp.C140_violated",
    "Cmp.C140_exact_one",
    "Cmp.C140_exact_max"
   ],
   "note": "`C140_violated`: `char8_t* volatile` points to characters that may be read and changed, and no trait takes it for text, although `volatile std::u8string` and `volatile char8_t*` are text; asking about `char8_t[]` (an array declared `extern` without its size) does not compile, since each trait divides `sizeof` of the type, and the error is not one a constraint can absorb. `C140_partial`: for every type that has a size and is no volatile pointer, all eighteen traits answer correctly. `C140_exact` and `C140_exact_unsized`: what they answer for all types; `C140_exact_view`: the two view traits are right about every type; `C140_exact_one`: at most one encoding; `C140_exact_max`: the maximum the array sizes rest on."
  },
  {
   "property": "C141",
   "status": "partial",
   "theorems": [
    "Cmp.C141_exact",
    "Cmp.C141_exact_convert",
    "Cmp.C141_exact_two",
    "Cmp.C141_exact_validate",
    "Cmp.C141_exact_bool",
    "Cmp.C141_exact_writing",
    "Cmp.C141_exact_output",
    "Cmp.C141_partial",
    "Cmp.C141_violated"
   ],
   "note": "`C141_violated`: `validate_string` admits neither views (for which `value_type_t` is `const char8_t`, and `by_code_point<const char8_t>` is the empty class) nor pointers (which have no `std::begin`); a `volatile` string is admitted by the concept, `parse_integer` of it does not compile, and `prepend_code_point` on it compiles and does nothing, since no branch of `insert_code_point` is for it; a `volatile` pointer to characters is refused. `C141_partial`: with a size and nothing volatile, all functions but `validate_string` do what is claimed. `C141_exact` (one argument by reference), `C141_exact_two`, `C141_exact_validate`, `C141_exact_bool` (by value), `C141_exact_convert` and `C141_exact_writing`: what becomes of the calls for all types. `C141_exact_output`: the formatters and the text input streams admit `volatile` strings and do not compile for them, and otherwise do what is claimed."
  },
  {
   "property": "C142",
   "status": "partial",
   "theorems": [
    "Cmp.C142_exact",
    "Cmp.C142_violated",
    "Cmp.C142_partial"
   ],
   "note": "`C142_violated`: parse_integer<bool> of \"2\" is true, and \"-0\" is refused. `C142_partial`: writing, reading back, and numerals of 0 and 1 without a minus sign. `C142_exact`: exactly the texts that are accepted (those that parse_integer accepts for `unsigned char`) and what becomes of them: true exactly if there is a digit other than zero; the refusals and the undefined cases are those of `unsigned char`."
  },
  {
   "property": "C143",
   "status": "partial",
   "theorems": [
    "Cmp.Exceptions.C143_violated",
    "Cmp.Exceptions.C143_exact",
    "Cmp.Exceptions.C143_exact_what",
    "Cmp.Exceptions.C143_exact_seen",
    "Cmp.Exceptions.C143_partial"
   ],
   "note": "C143_violated: when memory is exhausted, the noexcept constructors of parse_failed and invalid_radix end the program, and the Windows application throws a const char*. C143_exact says for every other place and state of memory which handler of any list is entered, and what get_type returns; C143_exact_what is about the explanations; C143_partial is the claim with memory. The explanation of a std::out_of_range thrown by std::basic_string is not the library's."
  },
  {
   "property": "C144",
   "status": "partial",
   "theorems": [
    "Cmp.C144_violated",
    "Cmp.C144_refines",
    "Cmp.C144_partial",
    "Cmp.C144_exact"
   ],
   "note": "C144_violated: set_position is noexcept and flushes, so it ends the program if the memory is refused. C144_refines: for any resource and any sequence of writes and flushes, a caller who carries on gets what they would have got in unlimited memory with nothing or a flush instead of each call that threw. C144_partial is the claim for appending whole elements. C144_exact says exactly when a change of the position ends the program. A resize that is refused memory is assumed to leave the container unchanged, as the standard demands."
  },
  {
   "property": "C145",
   "status": "partial",
   "theorems": [
    "Cmp.C145_violated",
    "Cmp.C145_exact",
    "Cmp.C145_partial"
   ],
   "note": "C145_violated: a supplementary character in UTF-16 of the other byte order is written in two calls, so that its first half may be left alone; and the destructor, which is noexcept, flushes, so that it ends the program if memory is refused. C145_exact says for all such programs which bytes are there, in portions of one write each, and exactly when the destructor ends the program. C145_partial is the claim about whole characters for all other streams and texts. Texts that are not written correctly even in unlimited memory (C75) are excluded by Fine."
  },
  {
   "property": "C146",
   "status": "partial",
   "theorems": [
    "Cmp.C146_violated",
    "Cmp.C146_exact",
    "Cmp.C146_partial"
   ],
   "note": "C146_violated: the character for which there is no memory has been taken from the stream already, so that it is lost, and the string may keep the first of its code units. C146_exact says for all reads that they end as in unlimited memory, or else exactly this happens to one character, those before it being in the string and those behind it in the stream. C146_partial is the claim for strings with room for the text. Strings that are refused memory are assumed to stay as they are, as the standard demands."
  },
  {
   "property": "C147",
   "status": "partial",
   "theorems": [
    "Cmp.C147_violated",
    "Cmp.C147_partial",
    "Cmp.C147_partial_once",
    "Cmp.C147_exact"
   ],
   "note": "C147_violated: a compiler may let the move assignment assign the virtual base class that has the buffer twice; then the bytes in the buffer are lost and the next flush reads outside the buffer. C147_partial covers programs that flush before they assign, C147_partial_once compilers that assign the base class once, and C147_exact says exactly when an assignment that assigns twice is harmless. Copies are the subject of C152."
  },
  {
   "property": "C148",
   "status": "partial",
   "theorems": [
    "Cmp.C148_violated",
    "Cmp.C148_exact",
    "Cmp.C148_partial",
    "Cmp.C148_kept"
   ],
   "note": "C148_violated: the digits before the refusal and the one for which there was no memory are gone, and the rest of the number is read next as a number of its own. C148_exact says for all reads that they end as in unlimited memory (C116), or else exactly this happens; C148_partial is the claim for words that fit into small strings; C148_kept says that the variable keeps its value on any source at all."
  },
  {
   "property": "C149",
   "status": "proved",
   "theorems": [
    "Cmp.C149",
    "Cmp.C149_read"
   ],
   "note": "C149 for all programs of writes and flushes; C149_read for reading back in the byte order of the host (in the other one values come back reversed, C48). The destructor, which ends the program if its flush throws, is in C145_exact."
  },
  {
   "property": "C150",
   "status": "partial",
   "theorems": [
    "Cmp.C150_exact",
    "Cmp.C150_partial",
    "Cmp.C150_exact_same",
    "Cmp.C150_violated"
   ],
   "note": "C150_violated: 0.125 is written as `0.125,`, which is refused, and with periods for both the separator and the radix character 1234 is written as `1.234`, which is read as 1.234. C150_exact: with different characters, read back if and only if fewer than three places are written. C150_exact_same: with the same character, exactly which numbers are read back, refused or misread. C150_partial: at most two binary places. Missing: odd radices and a place limit (for both, C110 and C107)."
  },
  {
   "property": "C151",
   "status": "partial",
   "theorems": [
    "Cmp.C151_partial",
    "Cmp.C151_exact_separators",
    "Cmp.C151_negative",
    "Cmp.C151_violated"
   ],
   "note": "C151_violated: with one place -1.25 is written as -2.2 and read as -1.8. C151_partial proves it, with the bound 1/radix^n + 4 (n + 1) (|x| + 2) / 2^prec, for numbers that are not negative or are integers, without separators or with at most two places, in every radix, odd ones included. C151_exact_separators says for more places which texts with separators are read back: those with fewer than three digits before the zeros that fill up the places. C151_negative says what becomes of negative numbers with a fraction part. Missing: separators like the radix character (C150), limits so great that the powers of the radix leave the range of the type."
  },
  {
   "property": "C152",
   "status": "partial",
   "theorems": [
    "Cmp.C152_violated",
    "Cmp.C152_partial",
    "Cmp.C152_exact",
    "Cmp.C152_exact_over"
   ],
   "note": "C152_violated: a copy that was left behind while another object was written to makes the container longer when it is flushed, and the flush of the other one then adds the bytes of both, so surplus zero bytes stay at the end. C152_partial covers all programs with copies and moves that flush copies left behind only when everything that was written has been flushed. C152_exact says for both orders of the flushes what the container has, for bytes that fit the buffer. C152_exact_over: if they do not fit the buffer, flushing the copy first does no harm."
  }
 ]
}