# Formal model of libcmp/ccl: design

The code under study is the C++20 library in `/repo/api` (pinned commit, read as text, never built
here). Everything is modelled in Lean 4 under `lean/Verif`:

* `Verif/Base`    outcomes of C++ evaluations, C++ integer types, histories of operations;
* `Verif/Spec`    specifications that do not mention the model: Unicode encodings after the Unicode
                  Standard, positional numerals, decimal numerals, binary floating-point formats,
                  arrays of bytes with a cursor, byte orders and byte order marks, what a test run
                  reports, windows and their owners, keyboard layouts;
* `Verif/Model`   the model, function by function, each definition citing file and lines;
* `Verif/Proofs`  helper lemmas;
* `Verif/Props`   the property theorems (`C01_...`, `C02_...`), each with a concrete non-trivial
                  instance that meets its hypotheses;
* `Verif/Checks`  tests, not proofs: the automated tests of the project (`/repo/tests/automated`)
                  carried out on the model. They show that the model does what the authors of the
                  code expect of it in those cases, and support the transcription; no property rests
                  on them. The manual test of the standard streams is modelled (C133). `wchar_t` has
                  four bytes in them, but where both sizes are tried.

Some specification files import a model for the types it speaks about (C++ types, preprocessor and
CMake syntax, windows, arrays of memory). `Spec/Resource.lean` imports one for more than that: it states what streams
need of the resource below them (`Reader.Delivers`, `Writer.Collects`), in terms of the calls they
make. That containers, files, standard input and standard output satisfy it is proved in
`Proofs/Resource.lean`, so that theorems on streams hold for each of them.

How theorems are named: `Cxx_violated` proves the negation of the full statement by a concrete
witness; `Cxx_partial` proves what holds and says in its comment what is missing. A property with
either has the status "partial" in `MANIFEST.json`.

## Trusted base

* Lean 4.33.0's kernel. The axioms each property theorem depends on are listed at the end of this
  file; they are at most `propext`, `Classical.choice` and `Quot.sound`. No own axioms, no `sorry`,
  no `native_decide`, no `bv_decide`, nothing `unsafe` or `implemented_by`.
* Mathlib's definitions (`Rat`, `Int.floor`, `List`, `BitVec`, powers); its theorems are checked by
  the kernel.
* The transcription of the C++ into Lean. The comments give file and line ranges.
* The C++ standard library facilities the code calls, by their documented meaning:
  `std::basic_string::insert/size/append/erase`, `std::memcpy`, `std::reverse`,
  `std::vector::resize/push_back/erase` (with iterator invalidation on reallocation),
  `std::reverse_iterator`, `std::find`, `std::find_if`, `std::floor`, `std::abs`, `std::tolower` in
  the "C" locale (undefined outside `unsigned char` and `EOF`; the locale is a parameter in C121),
  `std::queue`, `std::chrono::duration_cast`. `std::pow` is a parameter. Memory is unlimited but in
  `Model/Memory`, where which requests are granted is a parameter and an operation of
  `std::basic_string` that is refused memory leaves the string as it was.
* Platform: 8-bit bytes, 32-bit `int`, 64-bit `long`, `long long` and `size_t`, two's complement,
  `char` signed, `wchar_t` of 32 bits holding UTF-32 on Unix (16 bits holding UTF-16 on Windows where
  stated). The byte order of the host is a parameter.
* Floating-point numbers are the rational numbers they stand for; each arithmetic operation is the
  exact one followed by a parameter `rnd`. What a theorem assumes of `rnd` is in its statement (exact
  on values of the format; for error bounds also relative error at most 2^-prec in the normal range, or
  round to nearest with any choice at ties, `Spec.BinFmt.Nearest`). That the rounding of IEEE
  arithmetic, to nearest with ties to even, meets both is proved (`Spec.BinFmt.tiesToEven_nearest`).
  Signed zeros are not modelled; infinities and NaNs are in `Model/Compare` and `Model/Overflow`, where
  `rnd` may overflow (`Cmp.Spec.Rounds`).
* Operating system, standard input and output: `::read`, `::write`, `ReadFile`, `WriteFile` follow a
  schedule of transferred amounts or failures, which is a parameter; theorems quantify over it or
  state what they assume.
* Operating system, files: a file is a list of bytes changed only through the modelled calls; several
  descriptors can be open on one file, and what is written through one is there for the others at once
  (`Model/Disk`); each descriptor has an offset; `::read` returns at least one byte unless at the end and otherwise
  follows a schedule; `::write` accepts everything; `::lseek` refuses negative targets; the lowest
  free descriptor is given out; opening fails only if the file is not there and is not to be created
  (permissions are not modelled).
* Toolkits (GTK, AppKit, Win32): a native window exists from its creation until it is destroyed; the
  toolkit asks the delegate or handler while `close` runs; callbacks arrive one at a time; the
  clock's readings are a parameter. A title is kept up to its first NUL; `NSString` accepts at least
  well-formed UTF-8; windows appear, disappear and change their mode when told to.
* CMake: the commands mean what its manual says; `MATCHES` is used with plain words only; an operand of
  `if` that is not quoted is replaced by the variable of that name, if there is one; what is set in a
  directory is set there and below. Which packages are found and whether the compiler can optimise at
  link time are parameters. `generate_export_header` writes the header that its manual shows, and
  `cmp_EXPORTS` is defined exactly while a shared library is compiled. A setting that is not a single
  preprocessing token is left out (`Cmp.Spec.Simple`).
* The C++ compiler, for C140 and C141: the standard type traits, `sizeof`, deduction of template arguments,
  constraints and overload resolution follow the C++20 standard; what has no size makes a trait an error
  that stops the compilation. The bodies of the functions are taken to compile once the argument has
  become a range of code points.

## Outcomes

A C++ evaluation ends in one of: `ok v`, `throw e`, `terminate` (an exception leaving a `noexcept`
function), `ub` (undefined behaviour: out-of-bounds access, signed overflow, division by zero,
falling off the end of a non-void function, use of an indeterminate value or invalid iterator) or
`hang` (a loop that does not end within the bound the model gives it; theorems show that it is never
reached under their hypotheses, or that it is). No theorem assumes undefined behaviour away: it is
proved absent, or the hypothesis that excludes it is visible in the statement.

## Properties and how each is approached

Unicode (`Model/Unicode`, against `Spec/Unicode`: scalar values, UTF-8 and UTF-16 by the Standard's
tables on natural numbers)

* C01 (UTF-8 append/iterate round trip; partial): `insert_code_point` and the forward iterator of
  `by_code_point` as functions on a list of code units and an index; decode-after-encode by
  arithmetic on the bits, texts by induction.
* C02 (is_code_point_valid recognises exactly the Unicode scalar values; partial):
  `is_code_point_valid` against the definition of a scalar value, for all 2^32 values by arithmetic
  (no enumeration).
* C03 (UTF-8 encoder emits the standard well-formed encoding; proved): `initialize_utf8_sequence`
  and insertion against the Standard's table, case by case on the ranges.
* C04 (UTF-16 encoder emits the standard encoding; proved): As C03 for UTF-16.
* C05 (forward iteration over UTF-16 text visits every code point once; partial): `operator ++` on
  UTF-16: it moves by one unit on a surrogate pair. Induction over the text for the rest.
* C06 (forward iteration over UTF-8 text visits every code point once; proved): Induction over a
  well-formed text with the cursor at a boundary as invariant.
* C07 (backward iteration over UTF-8 mirrors forward iteration; proved): `operator --` undoes
  `operator ++`; reverse traversal by induction from the end.
* C08 (backward iteration over UTF-16 mirrors the code point sequence; proved): As C07 for UTF-16.
* C09 (moving an iterator by n equals n single steps; partial): `operator +=`, `-=`, `+`, `-` as
  loops, induction over the count. For UTF-16 the actual destination is computed for all strings and
  counts.
* C10 (decoding never reads outside the string view; partial): Arbitrary, also ill-formed, strings:
  each access is in bounds or `ub`; termination by a decreasing distance. The exact class of unsafe
  increments is stated with a separate notion of a sequence cut off.
* C11 (convert_string preserves the text; partial): Composition of iteration and insertion for all
  pairs of character types.
* C12 (validate_string accepts all well-formed text; partial): Run of the validation loop over
  well-formed text by induction; totality on every string.
* C13 (validate_string rejects all ill-formed text at the first ill-formed sequence; partial):
  Characterisation of the prefix the loop accepts. The accepted language is described with byte
  groups (Spec/Loose.lean).
* C14 (starts_with is prefix testing on code points; partial): The loop over two iterators refined
  to `List.IsPrefix` on code points.
* C15 (ends_with is suffix testing on code points; proved): As C14 backwards, `List.IsSuffix`.
* C16 (insertion is exact and failure leaves the string unchanged; proved): List insertion, and the
  string of the exception case.
* C17 (is_whitespace is the Unicode White_Space property; proved): Case analysis over all values
  against the list of White_Space code points.
* C18 (is_radix_digit recognises exactly the digits of the radix; partial): Case analysis with
  `std::tolower` undefined outside its domain.
* C79 (A failed increment leaves the iterator where it was; partial): The iterator as a state that
  each operator changes step by step, so that the state an exception leaves behind is visible;
  induction over the trailing bytes.
* C80 (signed offsets move in either direction; partial): Loops over a signed counter; induction
  over its absolute value.
* C81 (postfix operators and comparison; proved): State-passing operators compared with the prefix
  ones; the loop by induction.
* C82 (string_size counts the code units before the terminator; proved): The loop on the array the
  pointer points into; induction over the text.
* C94 (the examiners of code units tell where characters begin; proved): The values of the examiners
  as intervals of unit values (checked over all 256 bytes, by order for 16-bit units), then
  induction over the characters of the text.
* C122 (inserting a code point is all or nothing when memory runs out; partial): `Model/Memory`
  repeats insertion on strings with a capacity that ask an arbitrary memory for more; each insertion
  of one unit is all or nothing, as the standard demands. Induction over the units gives the prefix
  that remains; the converse is a memory that refuses and a string with room for just that many.
* C123 (A conversion reserves the memory that it needs; partial): The loop of the conversion in
  `Model/Memory` simulates that of `Model/Unicode`; an invariant says that a string which made no
  request has its old capacity and fits in it.
* C140 (what the library takes for text is what holds text; partial): C++ types are an inductive
  type; `is_same_v`, `remove_volatile_t`, `remove_cv_t`, `decay_t`, `is_pointer_v` and `sizeof` are
  functions on it, and each trait is written out as it stands in the header. The specification reads
  off a type what text it holds. Proved by cases on the type; the array case rests on (n * size) /
  size = n.
* C141 (what holds text can be passed to the functions that take text; partial): A call is refused,
  broken (admitted, but the body does not compile) or compiled. Template argument deduction, the
  constraint, the return type, the conversions to views and the `if constexpr` branches are modelled
  for each function; that the rest of the bodies compiles for the five character types is assumed.
  Proved by cases on the argument type from the characterisation of the traits.

Numbers (`Model/Number`, `Model/Float`, against `Spec/Numeral`: positional value, grouping, grammar;
`Spec/Real`: binary formats)

* C19 (format_integer denotes the integer; partial): Formatter loop with C++ integer types (usual
  arithmetic conversions, wrap-around, signed overflow = `ub`) for every width; induction over the
  digits. For the least values the loop is followed as a map on the values of the type: a
  divisibility argument where it ends right, a closed set without zero where it never ends.
* C20 (thousands grouping; partial): Invariant relating the digits still to come to the separators
  already inserted.
* C21 (parse_integer inverts format_integer; partial): C19 and C22 composed, over all formats and
  encodings.
* C22 (parse_integer value is the positional value; partial): Induction from the right with place
  value and sum as invariant.
* C23 (parse_integer rejects every string that does not conform to the format; partial): Accepted
  strings are characterised by the grammar; the contrapositive gives rejection. The language
  actually accepted is an inductive grammar, read from the right end.
* C24 (parse_integer reports the right failure kind; partial): Induction up to the first offending
  character from the right. Every text is either read to its left end or has a first character at
  which the reading gets stuck.
* C25 (parse_integer never overflows silently; partial): Congruence modulo 2^bits as invariant for
  unsigned types. For signed types the outcome is computed digit by digit and compared with the sums
  of digits times reduced place values.
* C26 (boolean formatting and parsing are inverse; partial): Comparison of code point sequences
  through C14. C26_exact covers every pair of format texts (also equal or empty ones) and every
  text: formatting gives the text or, for std::u8string and a code point whose low 16 bits are a
  surrogate value, throws invalid_code_point; parsing compares with the two texts, or throws for
  texts that cannot be converted to std::u8string.
* C27 (format_floating_point denotes the number; partial): Digit loop on rationals with `rnd`;
  exactness of each step when the format has room for the places. `C27_exact` drops the hypotheses
  on sign and range: the text denotes x, or x - 1 for a negative number with a fraction part;
  outside the range the outcome is undefined behaviour.
* C28 (parse_floating_point denotes the numeral; partial): Error bound as a product of (1 + u)
  factors, induction over the digits. `C28_exact`: sums of digits stay on a grid of multiples of a
  power of two, so the loop is exact for either sign and the result is the signed integral part plus
  the fraction part.
* C29 (A number format always has a usable radix; partial): Invariant over histories of constructor
  and setter calls. The exact version computes the last radix set.
* C30 (count_digits counts the digits; proved): Induction on the number.
* C70 (floating-point text round trip in binary radices; partial): C27 and C28 composed in
  power-of-two radices. `C70_exact` combines `C27_exact` with the grid lemma of `C28_exact`.
* C71 (approximate comparison is an equivalence; proved): Direct from the definition for every
  rounding function.
* C105 (format_floating_point returns; partial): Each step removes a binary place in an even radix,
  rounding included; in an odd radix the fraction of a dyadic number never becomes zero (invariant).
  `C105_exact`: the loop over any format follows the sequence of rounded remainders.
* C106 (format_floating_point is accurate when the machine rounds; partial): Rounding to nearest of
  a product with a radix stays below the radix and keeps binary places; the error of step i is
  scaled by r^-i, and the sum is at most two units. `C106_exact`: the error sum along the sequence
  of remainders of C105_exact.
* C107 (parsing a formatted number gives nearly the number back, for ordinary doubles; partial):
  Relative errors of the formatting loop (C106) and of the parsing loop are composed.
  `C107_negative`: absolute errors of the parsing loop started at a negative integer.
* C108 (parse_floating_point accepts only numerals; partial): The text is cut at the first radix
  character; C23 for the integral part, induction over the fraction part. `C108_exact` from
  C23_exact and C110_exact.
* C109 (parse_floating_point observes the place limit; partial): Case analysis on the fraction part
  after cutting the text at the radix character.
* C110 (parse_floating_point reports the right reason; partial): As C108. `C110_exact`: case
  analysis at the first radix character and induction over the places. `C110_exact_arithmetic`: the
  two models of the parser run in step.
* C120 (cmp_equal compares numbers up to the given number of decimal places; partial):
  `Model/Compare` has the comparison on values that may be infinite or NaN. The specification
  defines the digits of a number at each place and what it means to agree in them; an induction over
  the places shows that this is equality of the floors of the products, and the three departures are
  concrete numbers for every arithmetic that rounds correctly.
* C121 (digits and numerals mean the same in all locales; partial): `Model/Locale` repeats the
  examiner and the parsers with the locale as a parameter; a theorem says that with the locale "C"
  they are the functions of the other models. A locale is plain if it maps A to Z to a to z, keeps
  those, and maps nothing else but digits there. The converse of the characterisation reads the
  lower case of each letter off the radices in which it is a digit.
* C124 (the strings of bool_format report lack of memory; partial): The assignment and the copy of
  `Model/Memory` ask for room and end the program if it is refused.
* C127 (parse_floating_point gives a finite number near the numeral, however many digits it has;
  proved): Floating-point values with infinities and NaN (`FloatValue`), rounding to nearest with
  overflow as a specification. Induction over the digits: as long as the place value is finite it is
  near the power of the radix and the sum near the number read so far; once it is infinite the sum
  stays. The parts of the text are found as for C28.
* C128 (format_floating_point is defined for every value of the type; partial): The function on
  `FloatValue`; on finite numbers it is the function of C105 on the finite part of the rounding,
  because no intermediate result overflows.
* C131 (parsing gives the double nearest to the number that is written; partial): Ties to even as a
  computable function, proved to round to nearest; a sum of an integer and tenths is never so near
  to a midpoint of two values that rounding the tenths first matters.
* C132 (A double written in the default format is read back as the same double; partial): The text
  of a number with two binary places is exact (C27); a half is one decimal place (C131), and for
  quarters the error after the first digit is at most two fifths of the last place.
* C142 (A truth value can be written and read as a number; partial): The instances of the templates
  for bool are modelled with the conversions to bool at every assignment. The parser is related step
  by step to the one for `unsigned char`, and the value follows by induction on the texts that are
  read from right to left.
* C150 (numbers written with thousands separators are read back; partial): The text as in C107, with
  groups; the parser up to the first separator after the radix character.
* C151 (numbers written with a place limit are read back within one unit of the last place;
  partial): The text has the integral part and the digits cut at the limit (C106); a place is
  written if one may be, so that the parser does not refuse the text (C109); the parser is accurate
  (C28).

Input and output (`Model/Buffer`, `Container`, `Stdio`, `File`, `Handle`, `Opaque`, against
`Spec/ByteArray`: an array with a cursor)

* C31 (buffered output loses and reorders nothing; proved): Invariant over all histories of writes
  and flushes: received bytes plus pending bytes are what was written.
* C32 (buffered output never touches memory outside the buffer; proved): Invariant bounding the
  position by the capacity, for devices that do anything except what is itself undefined.
* C33 (buffered input delivers the source in order; partial): Machine of `input_resource`,
  `io_buffer` and a container; refinement to the cursor. Pages: invariant that the buffer holds the
  page the last byte came from, pages one behind the other; from it the size up to which reads are
  right and what larger ones return.
* C34 (reads no larger than the buffer deliver the source in order; proved): As C33 for reads within
  the capacity.
* C35 (get_position and is_at_end report the logical position; partial): The relation between buffer
  position, source position and cursor. `C35_exact`: a specification of page turns (Spec/Turn.lean)
  and a refinement of buffered reads to it (Proofs/Turn.lean).
* C36 (seeking from the beginning; partial): From any state, a seek re-establishes the reading
  invariant. `C36_exact` by the refinement to page turns.
* C37 (relative seeking; partial): As C36, relative. `C37_exact` by the refinement to page turns.
  `C37_exact_file` from C89_exact.
* C38 (container output writes like a byte array; partial): `write_raw` as overlay of lists.
  `C38_exact`: buffered writing is reduced to the batches handed on (Proofs/Batches.lean), which are
  then written to the container one by one.
* C39 (appending through a container output resource; proved): As C38 at the end, with a buffer,
  over histories.
* C40 (mixed reads and writes behave like a byte array with a cursor; partial): Both directions over
  one buffer; a discipline (inductive predicate on histories) under which it refines the array.
  `C40_exact_write`, `C40_exact_read`: as for C74.
* C41 (A read on a tied input first flushes the tied output; partial): Order of the events in the
  operating system's log. `C41_exact` by a simulation over the batches offered.
* C42 (standard input delivers bytes in order for every chunking; proved): Invariant: returned,
  buffered and unsupplied bytes make up the supply, for all schedules.
* C43 (standard output delivers every byte; partial): Subsequence invariant for all schedules;
  equality if everything is accepted. `C43_exact`: a simulation that tracks the batches offered so
  far and the bytes kept, for all schedules at once.
* C44 (file access mode is enforced; proved): Invariant over histories of all operations of a file
  object, including ones that throw.
* C45 (A file read fills the caller's buffer for every short-read schedule; partial): The read loop
  over a schedule of short reads, induction over the schedule. Pages as for C33. `C45_exact_short`,
  `C45_exact_page`: the loop against the portions of `Spec/ShortReads.lean`, for all schedules.
* C46 (re-opening a file starts afresh; partial): State after `open` from any state of an open
  object; refinement of the reads that follow. `C46_exact`, `C46_exact_after_reads`: the stale
  buffer as a source whose first page is left over.
* C72 (an error on standard input is not reported as data; partial): Result of a read when the
  system call fails. `C72_exact` by cases on the state of the buffer.
* C73 (A file read is right for every size; partial): The loop over blocks of a request. `C73_exact`
  by induction over the blocks; the array is compared with a specification that says which byte is
  at each index.
* C74 (A file for reading and writing acts like an array of bytes; partial): C40's machine over the
  file device of either platform, then the whole file object up to its close. `C74_exact_write`,
  `C74_exact_read`: the state of the buffer after reading is a page of the file.
* C59 (copies of an opaque container resource are independent; partial): Heap of resource objects
  whose content pointers refer to containers of objects; histories of construction, copy, move,
  destruction and I/O. `C59_exact`: induction over the operations after the copy.
* C60 (A moved-from file object no longer owns the file; partial): Process with a table of open
  descriptors; histories of construction, move, destruction. `C60_exact`, `C60_exact_closes`:
  invariant in both directions.
* C83 (dialogues on the standard streams; proved): The two resources form one state with the log of
  system calls. An invariant says what has been written, what is still to be read and how much input
  was handed out; reading one unit flushes first and asks the system only if nothing is held. Lines
  and words are shown to take exactly their bytes; then induction on the turns.
* C84 (reading an answer does not wait for more input than the answer; proved): The log records how
  much each call handed out. The invariant of C83 also says that every call so far was made when the
  input handed out was used up, so it had not reached the end of the answer.
* C85 (files and containers report the right position and end; partial): The refinement relation of
  C40 and C74 determines the device's position and what the buffer holds in each session; position
  and end test are computed from it. `C85_exact`, `C85_exact_container`: the size of the store in
  each session of the relation.
* C88 (positions counted from the end; partial): Representation invariant of C40 and C74; the seek
  itself from the platform's specification of lseek and SetFilePointerEx. `C88_exact` by the
  refinement to page turns.
* C89 (positions outside of the content are harmless; partial): A file positioned behind its end
  acts like an empty source (source_behind); otherwise as C88. `C89_exact`: the target is given by a
  small specification of the system call.
* C95 (A file object opened later behaves like one constructed with the path; partial): Blindness:
  every operation but is_at_end commutes with changing the stored path; a successful open of the
  default object gives the constructed one with another path. `C95_exact`: the same commutation
  along a whole run.
* C96 (what is saved to a file is what is loaded from it; partial): An invariant over writes and
  flushes (file and pending buffer are the bytes so far over the old content), closing, then C45.
* C98 (an object that has no file neither delivers nor accepts bytes; partial): Invariant over
  histories: no descriptor, empty buffer, files as they were; the observable outcome of every
  operation is given by a function of the operation alone. `C98_exact`: simulation by an automaton
  whose state is the number of bytes waiting and whether the buffer counts as loaded.
* C99 (counts returned by standard output tell what the system accepted; partial): Induction over
  the schedule of the system: each attempt moves a prefix of the rest to the output; with a buffer,
  the invariant of output resources. `C99_exact` by strong induction over what is left to send.
* C100 (container resources for one direction act like an array with a cursor; partial): Resources
  for one direction simulate resources for both (without pending output, or without loaded input);
  then the refinement of C40. `C100_exact`: simulation of the two small machines of
  `Spec/OneWay.lean` (`Lens`, `Pen`) by the resources, operation by operation (`Shows`, `Holds`).
  `C100_exact`: simulation of the two small machines of `Spec/OneWay.lean` (`Lens`, `Pen`) by the
  resources, operation by operation (`Shows`, `Draws`).
* C101 (reading and writing in portions makes a copy; partial): Generic loop over any resource that
  delivers and any that collects, induction on what is left; instances for containers and files.
  `C101_exact`: the page that is repeated (C33) traced through the loop.
* C111 (input resources on containers can be copied and moved; partial): Objects are numbered
  resources (`Model/Views`); the specification is a world of cursors on texts. Simulation by
  induction on the history, from the invariant for reading from containers; the violation is a
  history of five operations. `C111_exact`: simulation of readers with a page and a lag
  (`Spec.Glass`).
* C113 (standard output and standard error keep apart, lose nothing and are visible before input is
  awaited; partial): Three buffers and one log of system calls (`Model/Trio`), lifted from the
  standard resources of `Model/Stdio`; invariant by induction on the history, with a frame argument
  for the handle that is not used. `C113_exact`: refinement to a screen with two queues
  (`Spec.Screen`).
* C114 (standard streams in constructors and destructors of static objects; partial): Objects with
  what their constructors and destructors access, in the order of their definitions
  (`Model/Statics`); construction as a stack, destruction in reverse; induction on the list of the
  program's objects.
* C115 (A file write is right for every size; partial): Induction over the blocks; the file
  afterwards is compared with a specification that says which byte is at each index.
* C118 (A container is a log that one resource writes and many read; partial): Model/Common has the
  container with the resources that refer to it, each operation performed on the content the
  container has then; the specification is a board with a lens for each reader and a pen for each
  writer (those of C100), and a log with a cursor for each reader. The refinement to the board is by
  induction over all sequences; the log by an invariant of the board.
* C119 (the content of a container I/O resource is the same through all its classes; partial):
  Model/Faces has the three containers of an opaque I/O resource; the specification has one. By
  induction over all sequences of steps.
* C125 (A file that one object appends to is a journal for the objects that read it; partial):
  `Model/Disk` puts any number of `file` objects of `Model/File` on common files. Invariant by
  induction over the steps: the file is the log up to what the writer keeps back, each reader's page
  is a part of the file, and appending keeps both. For the full description each object is related
  to a page with a place, or to kept data with a place, neither of which mentions the content, so
  that writes by others cannot disturb it.
* C129 (the example for the standard streams repeats the first word that is typed; partial): The
  program as a composition of the stream operations; the question by the laws of the tied streams
  (C83), the word by the items of the input (C116).
* C133 (the manual test of the standard streams passes exactly if what is asked for was typed;
  proved): An invariant for both pairs of streams through each call; every failure stays in the list
  of the module, so that a zero in the end means that each test returned true, which is inverted to
  what was read.
* C144 (writing to a container loses nothing that was accepted when memory runs out; partial): Let
  the device ask for memory when it outgrows its capacity, with an arbitrary schedule of refusals,
  and use the existing model of the buffer. Prove that every call refines the same call, no call or
  a flush in unlimited memory, and combine this with C39.
* C147 (output resources on containers can be moved while they are written to; partial): Model a
  container with any number of resources on it, and prove by induction over the operations that one
  of them holds the writer, that it has been given everything that was written, and that the others
  are empty.

Streams (`Model/Stream`, `Text`, against `Spec/Wire`, `Spec/Decimal`)

* C47 (endianness inversion; proved): `invert_endianness` as in-place swaps on a list; reversal by
  induction.
* C48 (data stream round trip; partial): Write then read on any resource that collects and then
  delivers.
* C49 (wire format of data_output_stream; proved): Bytes of a value in the chosen order on any
  output resource.
* C50 (text stream round trip; partial): C51 composed with the reading of code points.
* C51 (text output bytes conform to the Unicode encoding schemes; partial): Bytes of each code point
  by the encoding scheme, text by induction.
* C52 (byte order mark detection; proved): Case analysis over marks; then the text that follows.
* C53 (read_bom without a mark returns the first code point; partial): As C52 without a mark. The
  exact version covers every first character, including surrogate pairs and U+FFFE.
* C54 (lines are split at LF and CRLF, losslessly; partial): `get_line` loop refined to splitting of
  lists. C54_exact covers every text, with carriage returns anywhere and with characters
  std::u8string refuses, read by a program that catches the exception and goes on: the result of
  every attempt is given, and the stream is at its end after them.
* C55 (only CRLF pairs are translated; partial): Code point reader with its CR look-ahead against a
  translation of lists. C55_exact covers every text, with carriage returns anywhere and with
  characters std::u8string refuses, read by a program that catches the exception and goes on.
* C56 (word extraction splits at whitespace; partial): `>>` for strings refined to words of lists.
  C56_exact covers every text, with carriage returns anywhere and with characters std::u8string
  refuses, read by a program that catches the exception and goes on.
* C57 (integers survive a trip through a text stream; partial): Formatter and parser composed
  through the text stream, sequences by induction. For the converse the words of the joined text are
  counted: a lone carriage return makes one too few.
* C58 (truncated input is reported, never fabricated; proved): Reads at and across the end of the
  bytes.
* C75 (string output is transcoded to the stream's encoding; partial): `<<` for strings of each
  character type, with and without transcoding.
* C77 (output operators write the text of their argument; partial): Every `operator <<` overload
  against the text its argument means; sequences of arguments by induction. For the exact version
  each kind of argument is shown to be supported or to stop.
* C78 (floating-point numbers survive a trip through a text stream; partial): C70 composed with
  C57's reading of words. `C78_negative`: the text of a negative number in the sequence theorem of
  C70.
* C86 (records of fixed size in a random access file; partial): IoMembers.Acts (Proofs/IoStream)
  says that a resource acts like an array with a cursor; proved for byte containers and for files on
  both platforms from the representation invariant of C40 and C74. Over it, induction over the
  history of record operations against a list of records (Spec/Record), with the content as the
  concatenated wire bytes. `C86_exact`: the loads of the general simulation (`ctrRecords`,
  `fileRecords`) with fields exchanged.
* C87 (notes in a text file for reading and writing; partial): Over IoMembers.Acts (as C86):
  induction over the history; the program's remembered positions are the lengths of the text before
  each note; reading takes words of the filtered text behind that position (`read_note`), which are
  those of the note if the separators separate (`words_separate`).
* C97 (A text saved with a byte order mark is loaded on any machine; partial): C77 over the saving
  invariant of C96, then the mark (C52) and the lines (C54) over the file as a source. `C97_exact`:
  the saving invariant over an old file, then C54 with text after the lines.
* C102 (copying a text changes its encoding and nothing else; partial): Induction over the text with
  the single-step lemmas of reading and writing a code point on generic resources; CR LF against an
  independent specification. C102_exact covers every text: the target holds the text without the
  carriage returns that had a character behind them, or (UTF-8 target) what comes before the first
  code point whose low 16 bits are a surrogate value, and the copy ends in invalid_code_point.
* C103 (streams with different settings share a resource; partial): Streams as settings beside one
  resource; the settings in force for each item by a specification that follows the program;
  induction over the program on generic resources, for writing and for reading. `C103_exact`:
  `read_all` generalised from readable items to all but carriage returns.
* C112 (characters through text streams; partial): The output and input operators of `Model/Text`;
  for `char` all 256 values are told apart by the branch they take, the texts and streams by the
  general lemmas on writing and reading code points; the other types are instances of C57.
* C116 (what was read before a failure is not lost; proved): Model/Target.lean models the functions
  with the variable as state, next to the stream; Proofs/Target.lean proves that it agrees with
  Model/Text.lean. The specification (Spec/Recover.lean) splits any byte sequence into items -
  characters, malformed units, a cut end - and `gather` says what reading into a string makes of
  items. By induction over the items.
* C117 (reading goes on behind malformed input; partial): On top of the items of C116: the items of
  texts with stray units and with characters cut short are computed by induction
  (Proofs/RecoverText.lean).
* C126 (whoever follows a text file while it is written gets whole characters; partial): The stream
  layer over `Model/Disk`. A character is written in one piece or two; the buffer moves whole
  pieces, so an invariant by induction over the steps gives the bytes in the file and those kept
  back. What is read on is given by the items of the bytes (C117), which for whole characters is the
  text. For the violation a text of the right length is constructed for every size of the buffer.
* C145 (text written to a container while memory runs out stays whole; partial): State what it means
  that a resource may refuse a write, prove it of containers in limited memory, and prove of every
  such resource, by induction over strings and operations, that a stream writes a prefix of a list
  of portions. Then show that portions are characters, except in foreign UTF-16.
* C146 (text that is read while memory runs out is not lost; partial): Let the loops of C116 append
  to the strings of C122, and prove by induction over the items of the source that they end in one
  of two ways.
* C148 (values that are read while memory runs out; partial): Let the operators read into the
  strings of C146, and derive both endings from C146_exact.
* C149 (values that data streams write while memory runs out; proved): Each value is one write,
  which the resource accepts or refuses as a whole (C144); induct over the program.
* C152 (output resources on containers can be copied while they are written to; partial): The model
  of C147 with copy construction and copy assignment. The specification keeps the set of objects
  that are up to date; the invariant says that each of them, with the container, has taken
  everything that was written.

Core (`Model/TestModule`, `Application`)

* C61 (test runner totals; partial): `run` as a loop over test functions, which are state
  transformers within a stated interface; totals by induction. `C61_exact`: refinement to a ledger
  that notes what each function does.
* C62 (test message queue is first-in first-out; proved): The queue refined to a list of messages
  over all histories.
* C63 (zero padding; partial): Zero padding with `int` conversion against digits of the number.
  `C63_exact` by induction over the digits.
* C69 (the application accessor returns the application object; partial): Histories of construction,
  move, destruction; what `app()` designates.
* C76 (applications carry their command line and notice; proved): Histories against a specification
  that reads the values off the history.
* C104 (dummies report every special member function and keep their values; proved): Simulation by
  the message queue of C62 and a specification of the values that looks back through the history;
  the balance by counting the objects in each step.
* C134 (the code for the targeted system is compiled, or the translation unit is refused; partial):
  A preprocessor for the directives that occur (definitions, conditions, inclusion, assertions) on
  the modelled headers; each header is a lemma about the macros before and after, with include
  guards, composed for every unit.
* C135 (the standard streams are defined exactly once, with the configured buffers, and an excluded
  package is not there; partial): As C134; the definitions of objects are directives that record the
  name, whether it is inline, and the capacity after macro replacement.
* C136 (the library is built as it was asked for; partial): An interpreter for the commands of the
  build files that decide something (set, if, add_library, target_*, find_package, add_subdirectory
  with its scope); segments of the script are evaluated symbolically for all variables; MATCHES
  against a word is proved to be substring search; the macros that result are handed to the
  preprocessor of C134.
* C137 (A project that was configured without a package can be built; partial): The targets of the
  configured project in closed form; the macros of each program are those of the library or the one
  for header-only use; each program's headers are classified and the theorems of C134 and C135
  applied.
* C138 (what is tested is what is built; proved): As C137; the scripts of the 16 automated tests are
  folded by induction over their list.
* C139 (what a shared library offers is exported by it and imported from it; partial): The part of
  core/config.hpp that the model of C134 leaves out is added, with a second interpreter that records
  redefinitions; both are run piece by piece for all macros that may be defined before; the macros
  come from the targets of C138.
* C143 (what the library throws can be caught as std::exception and explains itself; partial): Model
  the hierarchy of the classes, the places that throw with the objects they make, the constructors
  with an allocation that may be refused inside noexcept, and the search for a handler. Prove by
  cases over the places, for all lists of handlers.

Desktop GUI (`Model/Gui`, `Key`, against `Spec/Gui`)

* C64 (native events reach exactly the right window object; partial): Window objects, native windows
  and the list of associations as a transition system per platform; refinement to owners of windows
  over disciplined histories. `C64_exact`: the table of the model simulates a ledger of addresses
  (`Tracks`), step by step, undefined steps included.
* C65 (close requests can be vetoed and otherwise close the window; partial): As C64 with close
  handlers that decide and may construct windows. `C65_exact`: instance of the simulation behind
  `C64_exact`.
* C66 (A closed window can be opened again; partial): From every state: what `open` returns after
  `close`.
* C67 (key translation and naming; proved): Translation tables against layouts stated independently;
  all native codes.
* C68 (frame times add up; partial): Clock sequence as parameter; deltas and totals over histories.
* C90 (windows have the title they were given last; partial): `Model/Desk` puts the windows of the
  toolkit beside the window objects; titles pass through the conversions of C11 on Windows.
  Refinement to an abstract world in which windows have looks, by an invariant over histories.
  `C90_exact`: simulation of the world of `Spec/Sight`, whose titles are byte strings and whose
  readings are outcomes; conversion back from UTF-16 characterised for every text.
* C91 (windows are visible as they were last told, in their mode; partial): The same invariant as
  C90; on Windows the mode kept for `show` is followed until the window is shown. `C91_exact`: the
  same simulation.
* C92 (the application runs until the last window is gone; partial): `Model/Loop`: the loop over a
  list of turns, with iterators over the associations. Induction over the turns with the invariant
  of C90. `C92_exact`: the loop of the model simulates the abstract loop with the order in which
  windows were opened (`Lined`); the order is kept because every operation leaves a sublist of the
  old handles and the new one.
* C93 (handlers may use the library; partial): As C92; the loop that calls a handler of an event is
  left at once, the one that updates is not, and adding or removing an association in it is
  undefined behaviour. `C93_exact`: one turn of the simulation behind `C92_exact`.
* C130 (the example window reports what happens to it and counts the seconds in its title; partial):
  Invariant of the loop: the members of the window, the native title and the output are those of a
  small machine over the happenings; a second induction relates the machine to the number of
  switches and the seconds of the updates.

What each partial property lacks is said in its theorem's comment and in `MANIFEST.json`.

## Where the code disagrees with the properties

Each point is proved by the theorem named (`_violated`), with a concrete witness.

Unicode
* Validity of a code point is tested on its low 16 bits, so U+1D800 and the like are rejected by
  the UTF-8 encoder (C01, C02, C11, C26, C50, C51, C54).
* UTF-16 iterators move by one unit over a surrogate pair (C05, C11, C12, C14, C75), and `-=` and
  `-` move forward (C09).  What follows for every text is proved by the theorems with suffix
  `_exact`; among it that a UTF-8 text which ends in a supplementary code point does not start with
  the same text in UTF-16, by the answer `false` (C14_exact).
* Incrementing an iterator over a truncated UTF-8 sequence reads `*end` (C10).
* A failed increment has moved a UTF-8 iterator (C79); negative offsets do not move UTF-8 and UTF-16
  iterators (C80).
* `validate_string` accepts overlong forms and encoded surrogates (C13).
* `std::tolower` is called with characters outside its domain (C18, C24).
* When memory runs out in the middle of a character, its first units remain (C122). A conversion to
  UTF-8 asks for memory again after reserving (C123).

Numbers
* The least value of a signed type cannot be formatted: undefined for `int`, an endless loop for
  `signed char` (C19, C20, C21, C57, C77, C87).
* `1-2` is parsed as -12 and `,123` as 123 (C23, C108); overflow is silent or undefined (C22, C25).
* Negative fractions are floored: -1.5 is formatted as -2.5 and parsed as -0.5; -1.25 comes back as
  -1.75 (C27, C28, C70, C78, C106, C107, C151). Integral parts outside `long long`, infinities and NaN are
  undefined (C27, C128).
* On machines with IEEE arithmetic the digits after the radix character are added one by one, each
  rounded: `0.12` is not read as 0.12 (C131), and 7/8 is written as `0.875` but read back as another
  double (C132).
* A limit of exactly n places gives integers no places: 5 is written as `5` (C106).
* Formatting a fraction in an odd radix without a place limit need not end: one half in radix 3 (C105).
* Parsing ignores the place limit but for texts that end in the radix character, which are refused
  even if no places are allowed (C109); a character in the fraction part that is no digit is reported
  as a wrong place limit (C110).
* The formatter puts thousands separators among the places, too, where the parser refuses them: 0.125 is
  written as `0.125,`, which cannot be read back. A format may have the same character for both: 1234 is
  then written as `1.234` and read as 1.234 (C150, C151).
* `set_radix` accepts every radix (C29).
* `cmp_equal` rounds negative numbers down instead of leaving out digits; for 309 places or more zero
  is not equal to itself, and numbers whose products overflow are all equal (C120).
* What a digit is depends on the locale: in Turkish the letter I is none, and U+00DD is undefined (C121).
* The accessors of `bool_format` end the program when memory runs out (C124).

Resources
* A read that needs more than the rest of the buffer and a whole buffer delivers buffered bytes twice
  (C33, C36, C101, C118; files C45, C125).
* Positions are computed in units of `sizeof(element)` twice: wrong for buffered containers of larger
  elements (C35, C100). Relative seeks start at the loaded chunk (C37, C100).
* `write_raw` grows a container by the whole data although part of it overlaps (C38).
* One buffer for both directions: a write after a read can copy behind the buffer, a read after a
  write loses the data (C40, C74).
* What `::write` does not accept at once is dropped (C41, C43); -1 from `::read` on standard input
  is taken for a count of 2^64-1 (C72).
* After a short read the Unix file reads the rest to the same address, asks for the whole count
  again and may be told more than it asked for; a buffer then has a size beyond its memory, which
  later reads copy from (C45).  Blocks of large
  transfers on Windows go to the same address (C73).
* `is_at_end` after an append that is still in the buffer says no, for files and containers, because
  it compares the position, which counts the pending bytes, with the size on the device, which does
  not; `get_position` of a closed file on Windows reads an indeterminate value (C85).
* `set_position` with `position_reference::end` counts towards the beginning for containers and away
  from it for files (C88). Positions outside of a container make the next read undefined; a negative
  position is clamped on Unix but leaves the position unchanged on Windows, where the distance is
  taken before the clamping; behind the end of a file `is_at_end` says no (C89).
* `open` on an open object keeps the old buffer and the old path (C46); on an object made without a
  path it sets none, and `is_at_end` terminates (C95). It never truncates: a shorter content saved over
  a longer file leaves the end of the old one (C96, C97).
* With a buffer, writes to an object that has no file are reported as done (C98), and writes to
  standard output are counted as accepted before the system is asked (C99).
* `uin` is tied to `uout` only: a question written to `uerr` has not arrived when the answer is
  awaited (C113). The compiled library constructs `uin_resource`, which refers to `uout_resource`,
  before that, and objects of other translation units may use the streams before their construction
  (C114).
* On Windows a write of more than 2^32 - 1 bytes passes the first block to the system every time, so the
  file repeats it (C115).
* Moved file objects close descriptors twice or leak them (C60); copied opaque container resources
  refer to the container of the original (C59).  The base classes of
  an opaque I/O resource have containers of their own, which `grab_content` shows if the resource is
  used as one of them (C119). A move assignment that assigns the virtual base class
  twice loses the buffer, and bytes that were read ahead are delivered again (C111).

Streams
* `data_input_stream` inverts the byte order twice (C48, C86, C103).
* `read_bom` without a mark returns the lowest byte only (C53).
* The unit that shows that a character is cut short is consumed with it: the next character is lost
  (C117).
* UTF-16 in the byte order that is not the system's is written a code unit at a time: with a buffer half
  a character may be in the file, and whoever follows the file loses it (C126).
* A lone CR is lost (C55, C56, C57, C87, C102).
* A non-ASCII `char` is sign-extended when written (C77). A `char` is written as a character but
  read as a number, and `char8_t`, `char16_t` and `wchar_t` are written as numbers (C112).

Core and GUI
* A second run of a test module counts old failures again; a test that announces itself too often
  writes behind a string (C61). Totals of 2^32 or more are converted to `int` (C63).
* `app()` stays at the moved-from object (C69).
* Moving a window object whose window was closed is undefined; a vetoed move assignment leaves an
  object with events of a window it no longer owns (C64). A close handler that constructs a window
  and accepts lets `erase` use an invalid iterator (C65). A closed window cannot be opened again (C66).
* Frame totals are not the sums of the deltas in doubles (C68).
* On Windows a title with a character outside of the BMP cannot be read back; on macOS `get_title`
  of an object without a window follows a null pointer (C90). Hiding and showing a window on Windows
  forgets that it is maximized (C91).
* Destroying an object with a window leaves the window, and the loop uses the object (C92). An update
  handler that opens or closes a window invalidates the iterators of the loop (C93).
* The stdio example is terminated by an exception when nothing is typed behind the first word (C129). The
  counter of the GUI example is not shown when it is switched off and on within a second (C130).
* A system that is not supported is not refused: on OpenBSD the headers compile without the classes for
  files and streams and `CMP_OS_NAME` is undefined; GNU/Hurd is taken for macOS (C134).
* `CMP_CONFIG_HEADER_ONLY=2` leaves the standard streams undefined everywhere;
  `CMP_CONFIG_IO_PACKAGE_EXCLUDED=ON` does not exclude the package but stops the library from
  compiling (C135).
* The build files ask whether the text of an answer contains `true` or `false`: `CMP_BUILD_STATIC=ON` gives
  a shared library that is copied nowhere; `CMP_CONFIG_DESKTOP_GUI_PACKAGE_EXCLUDED=OFF` compiles the GTK
  code without linking GTK, and `ON` compiles it too; a header-only library still needs GTK to be
  configured; `CMP_DEV=false` counts as yes (C136).
* With `CMP_CONFIG_IO_PACKAGE_EXCLUDED=true` the tests of the io package are still built, and do not
  compile (C137).
* In the default build, that of a shared library, `CMP_LIBRARY_NAME` is defined twice in two ways (C139).
* `char8_t* volatile` is no text object, although `volatile std::u8string` is one; asking whether an array
  of unknown size is one does not compile (C140).
* `validate_string` takes neither views nor pointers; a `volatile` string is admitted by functions that then
  do not compile, and `prepend_code_point` on one compiles and does nothing (C141).
* `parse_integer<bool>` takes every number other than zero for true, and refuses minus zero (C142).
* When memory is exhausted, a parse failure or a refused radix ends the program, because the constructors of
  `parse_failed` and `invalid_radix` are `noexcept`; the Windows application throws a `const char*` (C143).
* `set_position` on a container resource ends the program when the memory for what is in the buffer is
  refused (C144).
* A supplementary character written in UTF-16 of the other byte order is torn when memory is refused between
  its halves, and the destructor of a stream ends the program when the memory for what is in the buffer is
  refused (C145).
* The character for which a string is refused memory is lost to text input, and may be torn (C146).
* Move assignment of an output resource on a container may assign the base class with the buffer twice;
  then bytes that were accepted are lost, and the next flush is undefined (C147).
* A copy of an output resource on a container that is flushed after the original was written to, but before
  it is flushed, leaves surplus zero bytes at the end of the container (C152).
* After memory was refused within a number that was being read, the rest of its digits is read next as another
  number (C148).
## What is modelled

`api/src/cmp/` and `api/include/cmp/`, by module of the model:

| code | model | left out or simplified |
|---|---|---|
| `unicode/examiners.ipp`, `unicode/impl/impl.cpp` | `Model/Unicode`, `Model/Locale` | |
| `unicode/by_code_point.cpp` | `Model/Unicode`, `Model/Iterator` | an iterator is an index into its string, so comparing iterators of different strings is not expressible; default-constructed iterators are left out; the `const` `finish_sequence` overloads are dead code |
| `unicode/algorithms.ipp`, `algorithms.cpp` | `Model/Unicode`, `Model/Iterator`, `Model/Memory` (allocation failure) | |
| `unicode/formats.cpp`, `formats.hpp` | `Model/Number`, `Model/Memory` | copy and move operations (defaulted) |
| `unicode/formatters.ipp`, `parsers.ipp`, `parsers.cpp` | `Model/Number`, `Model/NumberBool` (bool), `Model/Float`, `Model/Overflow` (infinities, NaN), `Model/Locale` |  |
| `unicode/exceptions.*`, `io/exceptions.*`, `parse_failed`, `invalid_radix` | `Base/Outcome`, `Model/Exceptions` (classes, explanations, memory) | copy and move operations (defaulted) |
| `unicode/concepts.hpp`, `*/type_traits.hpp` | `Model/TypeTraits` (the traits), `Model/TextCalls` (what the functions make of the types of their arguments) | `constant_max_t` (nothing uses it) |
| `core/general.ipp` | `Model/Float`, `Model/Compare` | |
| `core/application.*` | `Model/Application` | `run` of a derived class |
| `core/test_module.*` | `Model/TestModule`, `Model/Dummy` | `log_info` and `log_error` (they print a prefix and return the stream); copies of a test module |
| `io/io_buffer.cpp`, `input_resource.cpp`, `output_resource.cpp`, `io_resource.cpp`, `seekable_*.ipp` | `Model/Buffer` | |
| `io/impl/ctr_essence.ipp`, `io/transparent_container_*.ipp` | `Model/Container`, `Model/Views`, `Model/Quills`, `Model/QuillCopies`, `Model/Common`, `Model/MemoryIo` (allocation failure) | contiguous containers of trivially copyable elements; but in `Model/Common` a resource is its container and buffer |
| `io/opaque_container_*.ipp` | `Model/Opaque`, `Model/Faces` | |
| `io/impl/unix_like/*_uin.cpp`, `*_uout.cpp`, `io/impl/windows/*_uin.cpp`, `*_uout.cpp` | `Model/Stdio`, `Model/Trio` | |
| `io/uio.cpp`, `io/impl/common/common_uio.cpp` and the stream constructors in the `*_uin.cpp`, `*_uout.cpp` | `Model/Console`, `Model/Statics` (construction and destruction, with `io/definitions.cpp`) | text operations of `uerr` (as those of `uout`) |
| `io/file.cpp`, `io/impl/unix_like/unix_like_file.cpp`, `io/impl/windows/windows_file.cpp` | `Model/File`, `Model/Handle`, `Model/Disk` (several objects on one file) | permissions, other processes, signals |
| `io/input_stream.ipp`, `output_stream.ipp`, `data_*_stream.ipp`, `io/general.*` | `Model/Stream`, `Model/Shared`, `Model/MemoryIo` (destructor) | |
| `io/text_input_stream.ipp`, `text_output_stream.ipp` | `Model/Text`, `Model/Shared`, `Model/Target` and `Model/MemoryTarget`, `Model/MemoryValues` (the variables that are read into) | |
| `io/data_io_stream.ipp`, `text_io_stream.ipp` | `Model/IoStream` | the two halves' references to the resource are one resource |
| `desktop_gui/general.cpp`, `impl/*/…window.*` (key tables) | `Model/Key` | |
| `desktop_gui/impl/common/common_window.cpp`, `impl/gtk/gtk_window.cpp`, `impl/macos/macos_window.mm`, `impl/windows/windows_window.cpp` | `Model/Gui`, `Model/Desk` | sizes, what the toolkit draws |
| `desktop_gui/impl/*/*_desktop_gui_application.*` | `Model/Gui`, `Model/Loop` | creation of the native application |
| `examples/unicode_stdio_example/src/main.cpp` | `Model/StdioExample` | the line that uses `std::cout` |
| `tests/manual/test_uio.cpp` | `Model/UioTest` | how `std::cout` and `uout` are mixed |
| `core/compiler.hpp`, `config.hpp`, `platform.hpp`, `operating_system.hpp`, `inclusion_assert.hpp`, `io/definitions.cpp`, `desktop_gui/definitions.cpp` and the directives of the headers that choose a platform | `Model/Preprocessor`, `Model/Exports` | the macros for warnings; the marks of exported declarations are in `Exports`, for `config.hpp` only; longer replacements than one token; other headers than those that choose are only entered |
| `tests/manual/test_platform.cpp` | `Model/Preprocessor` | the lines of the test module (C61 to C63) |
| `CMakeLists.txt`, `api/CMakeLists.txt`, `tests/**/CMakeLists.txt`, `examples/**/CMakeLists.txt` | `Model/Cmake`, `Model/Exports` | include directories (but for that of the generated header), language standards, output names, flags that decide nothing; of the sources of tests and examples only which headers they include |
| `examples/desktop_gui_example/src/main.cpp` | `Model/GuiExample` | the application object (C85) |

Not modelled at all: threads (the library has none), `/repo/tests` apart from the
two manual tests (its automated tests are carried out on the model in `Verif/Checks`).

## Axioms

Output of `#print axioms` for every theorem of `MANIFEST.json`, by set of axioms (all names in
namespace `Cmp`).

* `Classical.choice`, `Quot.sound`, `propext` (376): `C01_partial`, `C01_exact`, `C02_partial`,
  `C02_exact`, `C03_utf8_encoder`, `C04_utf16_encoder`, `C05_partial`, `C05_exact`,
  `C06_utf8_forward`, `C07_utf8_backward`, `C08_utf16_backward`, `C09_exact`, `C10_partial`,
  `C10_exact`, `C11_partial`, `C11_exact`, `C12_partial`, `C12_exact`, `C13_violated`,
  `C13_partial`, `C13_exact`, `C13_exact_accepted`, `C14_partial`, `C14_exact`, `C15_ends_with`,
  `C16_insert_exact`, `C17_whitespace`, `C18_exact`, `C18_partial`, `C19_partial`, `C19_exact`,
  `C20_partial`, `C20_exact`, `C21_partial`, `C21_exact`, `C22_partial`, `C22_exact`, `C23_partial`,
  `C23_exact`, `C24_violated`, `C24_partial`, `C24_exact`, `C25_partial`, `C25_exact`,
  `C26_partial`, `C26_exact`, `C27_violated`, `C27_violated_range`, `C27_partial`, `C27_exact`,
  `C27_violated_ieee`, `C28_violated`, `C28_partial`, `C28_exact_partial`, `C28_exact`,
  `C28_violated_ieee`, `C33_partial_pages`, `C33_exact`, `C33_violated_always`, `C33_partial`,
  `C34_small_reads`, `C35_exact`, `C35_partial`, `C36_exact`, `C36_partial`, `C37_exact`,
  `C37_exact_bytes`, `C37_exact_file`, `C37_partial`, `C38_exact`, `C39_append`, `C40_exact_write`,
  `C40_exact_read`, `C40_partial`, `C41_violated`, `C41_partial`, `C41_exact`, `C42_stdin_in_order`,
  `C42_stdin_in_order_windows`, `C42_stdin_progress`, `C43_violated`, `C43_exact`, `C45_partial`,
  `C45_partial_pages`, `C45_exact`, `C45_exact_short`, `C45_exact_schedule`, `C45_exact_page`,
  `C45_violated_buffer`, `C46_partial`, `C46_exact`, `C46_exact_after_reads`, `C47_inversion`,
  `C47_involution`, `C48_exact`, `C48_violated`, `C48_violated_always`, `C48_partial`,
  `C49_wire_format`, `C49_container`, `C50_partial`, `C50_exact`, `C51_partial`,
  `C51_partial_container`, `C51_exact`, `C52_mark`, `C52_text`, `C53_exact`, `C53_exact_when`,
  `C53_violated_always`, `C53_partial`, `C54_partial`, `C54_partial_any`, `C54_exact`,
  `C55_partial`, `C55_exact`, `C56_partial`, `C56_exact`, `C57_exact_least`, `C57_exact`,
  `C57_partial`, `C58_values`, `C58_code_points`, `C58_cut`, `C60_partial`, `C60_exact`,
  `C60_exact_closes`, `C61_exact`, `C61_violated`, `C61_violated_announced`, `C61_partial_result`,
  `C61_partial`, `C62_endTest`, `C63_partial`, `C64_partial`, `C64_partial_owner`, `C64_exact`,
  `C65_partial`, `C65_exact`, `C66_violated`, `C66_partial`, `C66_partial_open`, `C67_gtk`,
  `C67_macos`, `C67_reachable`, `C68_partial`, `C68_partial_exact`, `C68_violated`, `C70_violated`,
  `C70_partial`, `C70_exact`, `C70_violated_ieee`, `C71_cmp_equal`, `C72_exact`, `C73_violated`,
  `C73_partial`, `C73_exact`, `C74_partial`, `C74_exact_write`, `C74_exact_read`, `C75_exact`,
  `C75_partial`, `C75_partial_container`, `C77_exact`, `C77_partial`, `C77_partial_container`,
  `C78_negative`, `C78_nearest_partial`, `C78_partial`, `C78_violated`, `C79_partial_utf8`,
  `C81_traversal`, `C82_agree`, `C83_dialogue`, `C84_prompt`, `C85_exact`, `C85_exact_container`,
  `C85_partial`, `C86_violated`, `C86_partial`, `C86_exact`, `C87_exact`, `C87_partial`,
  `C88_partial`, `C88_exact`, `C89_partial`, `C89_exact`, `C90_partial`, `C90_partial_set`,
  `C90_exact`, `C90_exact_closed`, `C91_partial`, `C91_violated`, `C91_exact`, `C92_partial`,
  `C92_partial_runs`, `C92_exact`, `C93_partial`, `C93_violated`, `C93_exact`, `C94_utf8`,
  `C94_utf16`, `C94_count`, `C94_fits`, `C96_exact`, `C96_partial`, `C97_partial`, `C97_exact`,
  `C100_partial`, `C100_exact`, `C101_partial`, `C101_partial_files`, `C101_exact`,
  `C101_exact_iff`, `C102_partial`, `C102_partial_container`, `C102_partial_marked`, `C102_exact`,
  `C103_partial`, `C103_exact`, `C103_partial_file`, `Bench.C104_observed`, `Bench.C104_balance`,
  `C105_exact`, `C105_partial`, `C105_violated`, `C106_exact`, `C106_partial`, `C106_negative`,
  `C106_violated`, `C106_exact_integers`, `C106_violated_places`, `C107_negative`, `C107_partial`,
  `C107_violated`, `C108_exact`, `C108_partial`, `C108_violated`, `C108_violated_ieee`,
  `C109_partial`, `C109_violated`, `C109_violated_none`, `C109_violated_ieee`, `C110_exact`,
  `C110_exact_arithmetic`, `C110_partial`, `C110_violated`, `C110_violated_ieee`, `C111_partial`,
  `C111_exact`, `C112_exact`, `C112_partial`, `C113_partial`, `C113_partial_apart`, `C113_exact`,
  `C115_exact`, `C115_violated`, `C115_partial`, `C116_line`, `C116_all`, `C116_word`, `C116_char`,
  `C116_values`, `C116_kept`, `C117_outcomes`, `C117_exact`, `C117_partial`, `C117_lost`,
  `C118_exact`, `C118_partial`, `C120_violated`, `C120_violated_zero`, `C120_violated_large`,
  `C120_partial`, `C120_exact`, `C120_near`, `C121_partial`, `C121_exact`, `C122_partial`,
  `C122_exact`, `C123_refines`, `C123_partial`, `C123_forms`, `C123_exact`, `C125_partial`,
  `C125_exact`, `C126_exact`, `C126_partial`, `C126_violated`, `C126_exact_when`, `C127`,
  `C127_negative`, `C127_finite`, `C127_places`, `C128_exact`, `C128_partial`, `C128_violated`,
  `C129_exact`, `C129_partial`, `C129_violated`, `C129_violated_character`, `C130_exact`,
  `C130_exact_close`, `C130_exact_range`, `C130_partial`, `C130_violated`, `C131_partial`,
  `C131_violated`, `C132_partial`, `C132_violated`, `C133_exact`, `C133_shown`, `C133_typed`,
  `C134_exact`, `C134_partial`, `C134_partial_library`, `C134_exact_test`, `C134_violated`,
  `C134_violated_mach`, `C135_partial`, `C135_exact`, `C135_partial_excluded`,
  `C135_exact_excluded`, `C135_violated`, `C135_violated_on`, `C136_exact`, `C136_exact_settings`,
  `C136_exact_copies`, `C136_exact_toolkit`, `C136_partial`, `C136_violated`, `C136_violated_off`,
  `C136_violated_on`, `C136_violated_header_only`, `C136_violated_dev`, `C137_exact`,
  `C137_partial`, `C137_violated`, `C138`, `C138_tests`, `C138_others`, `C138_utf8`, `C139_exact`,
  `C139_partial`, `C139_violated`, `C139_exact_rest`, `C141_exact_output`, `C141_partial`,
  `C142_exact`, `C142_partial`, `Exceptions.C143_exact_what`, `C144_partial`, `C145_violated`,
  `C145_exact`, `C145_partial`, `C146_exact`, `C146_partial`, `C147_partial`, `C147_partial_once`,
  `C147_exact`, `C148_exact`, `C148_partial`, `C148_kept`, `C149`, `C149_read`, `C150_exact`,
  `C150_partial`, `C150_exact_same`, `C150_violated`, `C151_partial`, `C151_exact_separators`,
  `C151_negative`, `C151_violated`, `C152_partial`, `C152_exact`, `C152_exact_over`.
* `Quot.sound`, `propext` (115): `C01_violated`, `C05_violated`, `C09_violated`, `C09_partial`,
  `C10_violated`, `C11_violated`, `C12_violated`, `C14_violated`, `C19_violated`,
  `C19_violated_narrow`, `C20_violated`, `C21_violated`, `C22_violated`, `C23_violated`,
  `C23_violated_separator`, `C25_violated`, `C25_violated_signed`, `C26_violated`,
  `C29_partial_accepted`, `C29_partial`, `C30_count_digits`, `C31_output_in_order`,
  `C32_output_memory_safe`, `C35_violated`, `C37_violated`, `C38_violated`, `C38_partial`,
  `C40_violated`, `C43_partial`, `C44_access_mode`, `C47_opposite`, `C50_violated`, `C51_violated`,
  `C53_violated`, `C54_violated`, `C55_violated`, `C56_violated`, `C57_violated`,
  `C57_violated_separator`, `C59_partial`, `C59_exact`, `C60_violated`, `C62_fifo`, `C63_exact`,
  `C63_violated`, `C63_partial_numeral`, `C64_violated`, `C67_windows`, `C67_distinct`,
  `C69_partial`, `C69_partial_moved`, `C69_partial_alive`, `C72_violated_always`, `C75_violated`,
  `C76_values`, `C77_violated`, `C77_violated_char`, `C79_violated`, `C79_partial`, `C80_violated`,
  `C80_partial`, `C80_partial_nonnegative`, `C81_postfix`, `C87_violated`, `C87_violated_separator`,
  `C90_violated`, `C90_violated_empty`, `C92_return`, `C92_violated`, `C95_partial`, `C95_exact`,
  `C97_violated`, `C98_violated`, `C98_partial`, `C98_exact`, `C99_partial`, `C99_exact`,
  `C102_violated`, `C103_violated`, `C112_violated`, `C112_violated_number`, `C113_violated`,
  `C114_partial`, `C114_exact`, `C117_violated`, `C121_violated`, `C121_violated_undefined`,
  `C122_violated`, `C123_violated`, `C124_exact`, `C124_partial`, `C140_exact_view`, `C140_exact`,
  `C140_exact_unsized`, `C140_partial`, `C140_violated`, `C140_exact_one`, `C140_exact_max`,
  `C141_exact`, `C141_exact_convert`, `C141_exact_two`, `C141_exact_validate`, `C141_exact_bool`,
  `C141_exact_writing`, `C141_violated`, `C142_violated`, `Exceptions.C143_violated`,
  `Exceptions.C143_exact`, `Exceptions.C143_exact_seen`, `Exceptions.C143_partial`, `C144_refines`,
  `C146_violated`, `C147_violated`, `C148_violated`, `C152_violated`.
* `propext` (35): `C18_violated`, `C29_exact`, `C33_violated`, `C36_violated`, `C45_violated`,
  `C46_violated`, `C59_violated`, `C64_violated_closed`, `C65_violated`, `C66_violated_example`,
  `C67_gtk_case`, `C67_name`, `C69_violated`, `C74_violated`, `C82_pointer`, `C85_violated`,
  `C88_violated`, `C89_violated`, `C95_violated`, `C96_violated`, `C99_violated`, `C100_violated`,
  `C101_violated`, `C111_violated`, `C114_violated`, `C114_violated_order`, `C118_violated`,
  `C119_violated`, `C119_partial`, `C119_exact`, `C124_violated`, `C125_violated`,
  `C125_violated_short`, `C144_violated`, `C144_exact`.
* no axioms (4): `C02_violated`, `C29_violated`, `C72_violated`, `C113_violated_order`.
