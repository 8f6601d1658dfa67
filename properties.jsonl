{"id": "C01", "title": "DICT integers decode back from every legal encoding", "statement": "For every 32-bit integer and every operand form of the CFF specification that can hold it (one byte, two bytes positive, two bytes negative, 0x1c + 16 bits, 0x1d + 32 bits), reading a compact1::Number at the first byte of that encoding returns Number::Integer of exactly that integer and leaves the tape right after the encoding, whatever precedes or follows it on the tape.", "quantifier": "all i32 values, all applicable encoding forms, all surrounding bytes, all tape positions", "why_tests_cant": "there are 2^32 integers times five forms times unbounded contexts; the unit tests probe nine literals", "anchors": ["src/compact1/number.rs Number::read"]}
{"id": "C02", "title": "Every successful DICT integer read is one of the five encodings, without overflow", "statement": "Whenever reading a compact1::Number returns an integer, the bytes it consumed are one of the legal encodings of exactly that integer, the integer fits in i32, at most five bytes were consumed, and no arithmetic overflow can occur on the way for any input.", "quantifier": "all byte strings, all tape positions", "why_tests_cant": "soundness of a decoder quantifies over every input, not over the ones an encoder happens to produce", "anchors": ["src/compact1/number.rs Number::read"]}
{"id": "C03", "title": "Reserved lead bytes and truncated operands are rejected", "statement": "Reading a compact1::Number whose first byte is below 0x1c, 0x1f or 0xff fails with a non-EOF error; reading one whose encoding is cut short by the end of the tape fails with UnexpectedEof; no number is ever fabricated.", "quantifier": "all byte strings, all tape positions, all truncation points", "why_tests_cant": "every truncation point of every encoding must be rejected", "anchors": ["src/compact1/number.rs Number::read", "src/compact1/number.rs parse"]}
{"id": "C04", "title": "Real operands are the correctly rounded value of the spelled decimal", "statement": "For every decimal literal (optional minus, digits with optional point, optional exponent with optional minus), packed two characters per byte with the CFF nibble code and terminated by nibble 0xf, reading a compact1::Number returns Number::Real of the f32 nearest (ties to even) to the literal's exact rational value and consumes exactly the packed bytes.", "quantifier": "all decimal literals of any length, all paddings and surrounding bytes", "why_tests_cant": "unbounded set of literals; tests check two", "anchors": ["src/compact1/number.rs parse"]}
{"id": "C05", "title": "Real operands: everything that is not a decimal literal is rejected", "statement": "A packed-decimal operand is accepted only if the text it spells is a decimal literal (at least one mantissa digit, at most one point, a non-empty exponent if an exponent mark is present, a minus only in front of the mantissa, fused into the exponent mark or directly after it); the reserved nibble 0xd and every other text are rejected with an error, and no input makes the read panic or loop.", "quantifier": "all nibble sequences of any length", "why_tests_cant": "negative space of a grammar is infinite", "anchors": ["src/compact1/number.rs parse"]}
{"id": "C06", "title": "Offsets are big-endian of the announced width", "statement": "Reading an Offset of size 1, 2, 3 or 4 returns the big-endian value of exactly that many bytes; any other size is rejected; the value written back in that many bytes gives the bytes read.", "quantifier": "all sizes 0..255, all byte strings", "why_tests_cant": "2^32 values in four widths and every context", "anchors": ["src/compact1/offset.rs Offset::read"]}
{"id": "C07", "title": "INDEX round trip", "statement": "Serialising any list of at most 65535 byte strings as a CFF INDEX with any offset width that can hold the total size, and reading it back, returns exactly these strings in order (with matching count, offset width and offsets) and leaves the tape just after the INDEX.", "quantifier": "all lists of byte strings, all adequate offset widths, all surrounding bytes", "why_tests_cant": "unbounded collections; round trip must hold for every one", "anchors": ["src/compact1/index/mod.rs Index::read", "src/compact1/offset.rs Offset::read"]}
{"id": "C08", "title": "INDEX soundness: the result is exactly the slices named by the offset array", "statement": "Whenever reading an Index succeeds, count equals the number of elements, there are count+1 offsets (none if count is 0), the first is 1, they never decrease, element i is exactly the bytes of the tape between offset i and offset i+1 of the data area, and the tape ends right after the last element; in other words the consumed bytes are the serialisation of the result.", "quantifier": "all byte strings, all tape positions", "why_tests_cant": "aliasing and slicing bugs show only for particular offset arrays", "anchors": ["src/compact1/index/mod.rs Index::read"]}
{"id": "C09", "title": "INDEX reading is robust", "statement": "No input makes Index reading panic: decreasing offsets, a first offset other than 1, an offset width outside 1..4 and truncated data are all reported as errors, and truncation is always reported as UnexpectedEof.", "quantifier": "all byte strings, all tape positions, with and without overflow checks", "why_tests_cant": "must hold for every malformed input", "anchors": ["src/compact1/index/mod.rs Index::read"]}
{"id": "C10", "title": "A dictionary is the last-write-wins map of its operations", "statement": "Reading a DICT made of any sequence of complete operations returns the map that sends each operator to the operands of its last occurrence in the sequence and nothing else.", "quantifier": "all finite sequences of operations with any operands in any legal encoding", "why_tests_cant": "depends on every ordering and repetition of operations", "anchors": ["src/compact1/operation.rs Operations::read", "src/compact1/operation.rs Operation::read"]}
{"id": "C11", "title": "Dictionary operation order is irrelevant when operators are distinct", "statement": "Permuting the operations of a DICT that has no repeated operator does not change the map that is read.", "quantifier": "all operation sequences without repeated operators and all their permutations", "why_tests_cant": "quantifies over all permutations", "anchors": ["src/compact1/operation.rs Operations::read"]}
{"id": "C12", "title": "A truncated dictionary yields exactly its complete operations", "statement": "Cutting a well-formed DICT at any byte makes reading succeed with the map of the operations that are complete before the cut; the partial operation is dropped silently and never surfaces as an error, a panic or a bogus entry.", "quantifier": "all well-formed dictionaries, all cut points", "why_tests_cant": "all cut points of all dictionaries", "anchors": ["src/compact1/operation.rs Operations::read"]}
{"id": "C13", "title": "A dictionary is rejected exactly when an operation in it is malformed", "statement": "Reading Operations never panics and never returns UnexpectedEof; it fails only with the error of a malformed number or an unknown operator, and it always terminates, consuming at least one byte per operation.", "quantifier": "all byte strings, all tape positions", "why_tests_cant": "termination and error classification for every input", "anchors": ["src/compact1/operation.rs Operations::read", "src/compact1/operation.rs Operation::read"]}
{"id": "C14", "title": "Lookup in a dictionary falls back to the specification defaults", "statement": "Operations::get returns the stored operands if the operator occurs, otherwise the default operands listed in the CFF specification if there are any, otherwise nothing; get_single and get_double return the first one or two of these when that many exist and nothing otherwise.", "quantifier": "all dictionaries and all operators", "why_tests_cant": "all dictionaries; the default table must be right for every operator", "anchors": ["src/compact1/operation.rs Operations::get", "src/compact1/operation.rs get_single", "src/compact1/operation.rs get_double", "src/compact1/operation.rs Operator::default"]}
{"id": "C15", "title": "DICT operator codes are a partial bijection", "statement": "Operator::from accepts exactly the operator codes of the CFF specification, maps distinct codes to distinct operators, reaches every operator, and rejects every other 16-bit code.", "quantifier": "all 65536 codes and all operators", "why_tests_cant": "tests touch a handful of codes; reserved gaps matter", "anchors": ["src/compact1/operation.rs Operator::from"]}
{"id": "C16", "title": "Converting a dictionary INDEX parses each entry independently", "statement": "Converting Dictionaries to a vector of Operations succeeds iff every entry parses, and then entry i of the vector is the parse of entry i of the INDEX; the error otherwise is that of the first entry that fails.", "quantifier": "all dictionary indices of any size", "why_tests_cant": "all sizes and failure positions", "anchors": ["src/compact1/index/dictionaries.rs Dictionaries::get", "src/compact1/index/dictionaries.rs TryFrom<&Dictionaries>"]}
{"id": "C17", "title": "String lookup spans standard and custom strings", "statement": "Strings::get returns the standard string for identifiers below 391, the custom string number id-391 for the following ones as long as it exists, and nothing beyond; each stored string is reachable by exactly one identifier from 391 on, as long as 391 and its number together fit 16 bits, and not at all otherwise.", "quantifier": "all string indices, all 65536 identifiers", "why_tests_cant": "off-by-one at the 391 boundary for every index size", "anchors": ["src/compact1/index/strings.rs Strings::get", "src/compact1/index/strings.rs get_standard_string"]}
{"id": "C18", "title": "The standard string table is complete and unambiguous", "statement": "Each identifier from 0 to 390 has a standard string, none from 391 on has one, and no two identifiers share a string, so a standard name determines its identifier.", "quantifier": "all identifiers and all pairs of identifiers", "why_tests_cant": "pairwise distinctness over the table is not tested", "anchors": ["src/compact1/index/strings.rs get_standard_string"]}
{"id": "C19", "title": "Valid UTF-8 text is decoded exactly, invalid text never fails", "statement": "Converting Names to strings never fails and keeps the number and order of entries; an entry (and a custom string in Strings::get) that is the UTF-8 encoding of some text decodes to exactly that text; other entries decode to text with replacement characters.", "quantifier": "all byte strings", "why_tests_cant": "infinitely many byte strings", "anchors": ["src/compact1/index/names.rs TryFrom<Names>", "src/compact1/index/strings.rs Strings::get"]}
{"id": "C20", "title": "String identifiers are converted from dictionary numbers without loss", "statement": "Converting a Number to a StringID succeeds only for integers from 0 to 65535 and preserves the value; negative integers and reals are rejected.", "quantifier": "all numbers", "why_tests_cant": "the whole i32 range must be checked, including values above 65535", "anchors": ["src/compact1/mod.rs TryFrom<Number> for StringID"]}
{"id": "C21", "title": "Character sets cover the glyphs exactly", "statement": "Whenever reading a custom character set for n glyphs succeeds, it describes exactly n-1 glyphs: format 0 lists n-1 identifiers, formats 1 and 2 have ranges whose sizes (1 + left count) add up to n-1; ranges overshooting n are rejected and reading stops at the first range completing the cover.", "quantifier": "all byte strings, all glyph counts", "why_tests_cant": "all range partitions of all glyph counts", "anchors": ["src/compact1/character_set.rs CharacterSet::read", "src/compact1/character_set.rs CharacterSet0::read", "src/compact1/character_set.rs CharacterSet1::read", "src/compact1/character_set.rs CharacterSet2::read"]}
{"id": "C22", "title": "Character set round trip", "statement": "Serialising any character set in format 0, 1 or 2 and reading it back with the glyph count it covers returns the same character set and consumes exactly its bytes.", "quantifier": "all character sets in the three formats, all surrounding bytes", "why_tests_cant": "unbounded", "anchors": ["src/compact1/character_set.rs CharacterSet::read"]}
{"id": "C23", "title": "Reading a character set never panics", "statement": "Reading a CharacterSet returns a value or an error for every input and every glyph count.", "quantifier": "all byte strings, all glyph counts including zero, with and without overflow checks", "why_tests_cant": "the corner glyph count is an INDEX of length zero, which no fixture has", "anchors": ["src/compact1/character_set.rs CharacterSet0::read"]}
{"id": "C24", "title": "Predefined character sets name glyphs consistently with the standard strings", "statement": "For the ISOAdobe, Expert and ExpertSubset character sets, whatever name get returns for an identifier is the standard string with that identifier; ISOAdobe names exactly identifiers 1 to 228; ExpertSubset agrees with Expert wherever it is defined; custom character sets name no glyph.", "quantifier": "all 65536 glyph identifiers, all six kinds of character set", "why_tests_cant": "tables of several hundred entries are not tested at all", "anchors": ["src/compact1/character_set.rs CharacterSet::get", "src/compact1/character_set.rs get_iso_adobe", "src/compact1/character_set.rs get_expert", "src/compact1/character_set.rs get_expert_subset"]}
{"id": "C25", "title": "Predefined character sets are indexed by glyph identifier", "statement": "CharacterSet::get(g) returns the name of the g-th glyph of the predefined character set as listed in the CFF specification (Appendix C).", "quantifier": "all glyph identifiers", "why_tests_cant": "needs a comparison of the whole table with the specification", "anchors": ["src/compact1/character_set.rs get_expert", "src/compact1/character_set.rs get_expert_subset"]}
{"id": "C26", "title": "Predefined encodings are total on codes, consistent and unambiguous", "statement": "Encoding::get for the Standard and Expert encodings returns an identifier for every code 0..255 and nothing above; every identifier returned is a standard string and it is the one named in the table; two codes share an identifier only if it is .notdef; custom encodings return nothing.", "quantifier": "all 65536 codes, both tables, all kinds of encoding", "why_tests_cant": "512 table entries and their pairwise comparisons", "anchors": ["src/compact1/encoding.rs Encoding::get", "src/compact1/encoding.rs get_standard", "src/compact1/encoding.rs get_expert"]}
{"id": "C27", "title": "Encoding tables round trip and dispatch on the format byte", "statement": "Serialising an encoding in format 0, format 1 or the supplemental format and reading it back returns the same encoding and consumes exactly its bytes; every other format byte is rejected; the number of entries read equals the announced count; nothing panics.", "quantifier": "all encodings with up to 255 entries, all format bytes, all byte strings", "why_tests_cant": "unbounded contents", "anchors": ["src/compact1/encoding.rs Encoding::read", "src/compact1/encoding.rs Encoding0", "src/compact1/encoding.rs Encoding1", "src/compact1/encoding.rs EncodingSupplemental"]}
{"id": "C28", "title": "Encodings with a supplement keep their base encoding", "statement": "An encoding whose format byte has the high bit set is read as the base encoding in format 0 or 1 followed by the supplement, as the CFF specification lays it out.", "quantifier": "all encodings with supplements", "why_tests_cant": "no fixture has one", "anchors": ["src/compact1/encoding.rs Encoding::read", "src/compact1/encoding.rs EncodingSupplemental"]}
{"id": "C29", "title": "FontSet::count announces the number of fonts that FontSet::read returns", "statement": "On every tape where both succeed from the same position, FontSet::count returns the number of names of the set, and it equals the number of top dictionaries, character strings, character sets, encodings and records of the set.", "quantifier": "all tapes and positions", "why_tests_cant": "malformed files where the name INDEX and the top DICT INDEX disagree", "anchors": ["src/compact1/font_set/mod.rs FontSet::count", "src/compact1/font_set/mod.rs FontSet::read"]}
{"id": "C30", "title": "The per-font vectors of a font set are parallel", "statement": "Whenever FontSet::read succeeds, operations, encodings, character_strings, character_sets and records have the same length, and entry i of each is determined by top dictionary i.", "quantifier": "all tapes and positions", "why_tests_cant": "every number of fonts and every input", "anchors": ["src/compact1/font_set/mod.rs FontSet::read"]}
{"id": "C31", "title": "A font set can be embedded anywhere in a file", "statement": "If FontSet::read succeeds on a byte string from position 0, it succeeds with an equal result on any file that contains this byte string at any offset, with anything before and after it, and is read from that offset (positions staying below the seek limit of the tape): offsets are relative to the start of the font set, not of the file.", "quantifier": "all font sets, all prefixes (hence all base positions) and all suffixes", "why_tests_cant": "the base offset is arbitrary; tests use two", "anchors": ["src/compact1/font_set/mod.rs FontSet::read", "src/compact1/font_set/character_name_keyed.rs Record::read", "src/compact1/font_set/character_id_keyed.rs Record::read"]}
{"id": "C32", "title": "A font laid out at its declared offsets is read back", "statement": "For any file in which the header, the four leading INDEXes, the character strings, the character set, the encoding, the private dictionary and the local subroutines of every font sit at the offsets declared in the dictionaries, FontSet::read returns exactly these objects, in any placement, even overlapping.", "quantifier": "all font contents, all placements, all numbers of fonts", "why_tests_cant": "the space of layouts is unbounded", "anchors": ["src/compact1/font_set/mod.rs FontSet::read", "src/compact1/font_set/character_name_keyed.rs Record::read", "src/compact1/font_set/character_id_keyed.rs Record::read"]}
{"id": "C33", "title": "The kind of a record is decided by the ROS operator", "statement": "A record is character-ID-keyed iff the top dictionary contains ROS; the character-name-keyed one has exactly the private dictionary named by Private and the local subroutines at the private offset plus Subrs, or none if Subrs is absent; a missing or malformed Private, CharStrings, FDSelect or FDArray is an error (with FDArray missing, a build with overflow checks may panic at a bad FDSelect offset before it notices).", "quantifier": "all top dictionaries and tapes", "why_tests_cant": "all dictionaries", "anchors": ["src/compact1/font_set/mod.rs Record::read", "src/compact1/font_set/character_name_keyed.rs Record::read", "src/compact1/font_set/character_id_keyed.rs Record::read", "src/compact1/font_set/character_id_keyed.rs RecordInner::read"]}
{"id": "C34", "title": "Character-ID-keyed records have one private record per font dictionary", "statement": "Whenever reading a character-ID-keyed record succeeds, records and operations have the same length, registry, ordering and supplement are the three ROS operands, and inner record i has the private dictionary and local subroutines of font dictionary i.", "quantifier": "all tapes and top dictionaries", "why_tests_cant": "any number of font dictionaries", "anchors": ["src/compact1/font_set/character_id_keyed.rs Record::read", "src/compact1/font_set/character_id_keyed.rs RecordInner::read"]}
{"id": "C35", "title": "Glyph-to-dictionary encodings round trip", "statement": "Serialising an FDSelect in format 0 (one entry per glyph) or format 3 and reading it back returns it and consumes exactly its bytes; formats other than 0 and 3 are rejected; format 0 has one entry per character string.", "quantifier": "all FDSelect tables, all glyph counts", "why_tests_cant": "unbounded", "anchors": ["src/compact1/font_set/character_id_keyed.rs Encoding::read", "src/compact1/font_set/character_id_keyed.rs Encoding0::read", "src/compact1/font_set/character_id_keyed.rs Encoding3"]}
{"id": "C36", "title": "FontSet::read never panics", "statement": "Reading a font set from any bytes at any position returns a value or an error, with and without overflow checks.", "quantifier": "all byte strings and positions, both build modes", "why_tests_cant": "panics hide behind negative offsets and sizes that no fixture has", "anchors": ["src/compact1/font_set/mod.rs FontSet::read", "src/compact1/font_set/character_name_keyed.rs Record::read", "src/compact1/character_set.rs CharacterSet0::read"]}
{"id": "C37", "title": "Type 2 operands decode back from every legal encoding", "statement": "For every integer in the range of a Type 2 operand form and every applicable form, and every 16.16 fixed-point value, reading the operand yields the f32 nearest to its exact value (exactly it for all integers and for all fixed-point values with at most 24 significant bits) and consumes exactly the encoding.", "quantifier": "all integers -32768..32767 in all forms, all 2^32 fixed-point values, all surrounding bytes", "why_tests_cant": "2^32 values", "anchors": ["src/type2/number.rs read"]}
{"id": "C38", "title": "Type 2 operator codes are a partial bijection disjoint from operands", "statement": "Operator::from of type2 accepts exactly the specified codes and maps distinct codes to distinct operators; no operator code is an operand lead byte; a program whose operator code is reserved or not implemented (Put, Get, Random) makes next fail.", "quantifier": "all 65536 codes", "why_tests_cant": "reserved gaps", "anchors": ["src/type2/operation.rs Operator::from", "src/type2/program.rs Program::next"]}
{"id": "C39", "title": "An operation gets the longest acceptable suffix of the operand stack", "statement": "When next returns an operation with a path, flex or hint-stem operator, its operands are the longest suffix of the operands accumulated so far whose number the Type 2 specification allows for that operator; next fails iff no suffix is acceptable; the operand stack is empty afterwards.", "quantifier": "all operators, all stack depths and contents", "why_tests_cant": "stack depth is unbounded, alternatives interact", "anchors": ["src/type2/program.rs Program::next (clear!)"]}
{"id": "C40", "title": "The width is written once", "statement": "width() is None until some operation leaves surplus operands below its own (or the program ends with operands left), then it is Some of the operand just below the operands taken, and it never changes afterwards over any number of further calls to next, even across errors.", "quantifier": "all programs, all numbers of calls to next", "why_tests_cant": "a property of every history of calls", "anchors": ["src/type2/program.rs Program::next", "src/type2/program.rs Program::width"]}
{"id": "C41", "title": "The width is the extra leading operand only", "statement": "width() returns the extra operand that precedes the operands of the first stack-clearing operator, and stays None for glyphs that do not carry one, including glyphs whose first hint mask takes implicit vertical stems.", "quantifier": "all well-formed glyph programs", "why_tests_cant": "width omission and implicit stems combine", "anchors": ["src/type2/program.rs Program::next (HintMask, EndChar)"]}
{"id": "C42", "title": "Hint masks are skipped by the number of stems seen so far", "statement": "Along any run, the number of bytes skipped after a hint mask operator is ceil(s/8), where s is the number of operand pairs given to all hint operators so far, including the implicit ones of the mask itself; mask bytes are never interpreted as code.", "quantifier": "all programs and histories", "why_tests_cant": "depends on the whole history of hint operators", "anchors": ["src/type2/program.rs Program::next (stems)"]}
{"id": "C43", "title": "Arithmetic, conditional and stack operators compute their specified result", "statement": "Each arithmetic, conditional and stack-manipulation operator replaces exactly its arguments on top of the operand stack by the result given in the Type 2 specification (with f32 arithmetic) and leaves the rest of the stack, the hints and the width unchanged; with too few operands next fails.", "quantifier": "all stacks and operand values", "why_tests_cant": "all operand values", "anchors": ["src/type2/program.rs Program::next (Abs..IfElse)"]}
{"id": "C44", "title": "Roll rotates", "statement": "roll with arguments N and J replaces the top N operands by their rotation by J positions towards the top (J taken modulo N), for every J of either sign; it keeps all other operands; rolling by J and then by -J restores the stack; N larger than the stack or negative is an error; N = 0 changes nothing.", "quantifier": "all N, J and stacks", "why_tests_cant": "all rotations, negative and larger than N", "anchors": ["src/type2/program.rs Program::next (Roll)"]}
{"id": "C45", "title": "Subroutine numbers are biased by the size of the index", "statement": "callsubr and callgsubr with operand a enter subroutine a + bias of the local or global index, where bias is 107 below 1240 subroutines, 1131 below 33900 and 32768 otherwise; any other target, a non-integer operand or an empty stack is an error.", "quantifier": "all index sizes and operand values", "why_tests_cant": "boundaries of three size classes with all operands", "anchors": ["src/type2/program.rs bias", "src/type2/program.rs Program::next (CallSubr)"]}
{"id": "C46", "title": "Subroutine calls are transparent", "statement": "Calling a subroutine whose body ends with return yields the same operations, operands, width and hint count as writing the body in place of the call, to any nesting depth.", "quantifier": "all programs, all subroutine bodies, all nesting depths", "why_tests_cant": "quantifies over all programs and nesting", "anchors": ["src/type2/program.rs Program::next (CallSubr, Return)"]}
{"id": "C47", "title": "endchar ends the program", "statement": "endchar makes next return None; inside a subroutine it succeeds iff the subroutine and every calling subroutine have no code left, and fails otherwise.", "quantifier": "all call stacks", "why_tests_cant": "all nesting depths", "anchors": ["src/type2/program.rs Program::next (EndChar)"]}
{"id": "C48", "title": "After the end of the program next keeps returning None", "statement": "Once next has returned None, every later call returns None and width() does not change.", "quantifier": "all programs and all later calls", "why_tests_cant": "a property of all histories", "anchors": ["src/type2/program.rs Program::next"]}
{"id": "C49", "title": "Program execution terminates", "statement": "next returns after finitely many steps on every program; a program and subroutines without subroutine calls executes at most as many operators as it has bytes.", "quantifier": "all programs and subroutines", "why_tests_cant": "termination cannot be tested", "anchors": ["src/type2/program.rs Program::next"]}
{"id": "C50", "title": "Program execution never panics", "statement": "No program, subroutines or history of calls makes next panic, with and without overflow checks.", "quantifier": "all programs, histories and both build modes", "why_tests_cant": "overflow at extreme operands", "anchors": ["src/type2/program.rs Program::next (CallSubr, Roll)"]}
{"id": "C51", "title": "A truncated program never yields a partial operation", "statement": "If the code of the current routine ends inside an operand, an escaped operator or a hint mask, or after operands without an operator, next fails with UnexpectedEof; every operation returned is determined by bytes that are present.", "quantifier": "all programs and all cut points", "why_tests_cant": "all cut points", "anchors": ["src/type2/program.rs Program::next"]}
{"id": "C52", "title": "Programs compose sequentially", "statement": "If running a piece of code yields a list of operations and comes to its end (with no routine left open and no endchar), then running it followed by more code yields the same list and then what the rest yields from the state reached: the operations emitted do not depend on what follows.", "quantifier": "all pieces of code and continuations", "why_tests_cant": "all splits", "anchors": ["src/type2/program.rs Program::next"]}
{"id": "C53", "title": "Integer arguments are recognised exactly", "statement": "An operand is accepted as an integer argument (of index, roll, callsubr, callgsubr) iff it is an integral f32 in the i32 range, and then its value is used exactly; NaN, infinities and fractions are rejected.", "quantifier": "all f32 values", "why_tests_cant": "2^32 values and rounding at the ends of the range", "anchors": ["src/type2/program.rs Program::next (pop!(i32))"]}
{"id": "C54", "title": "next is the Type 2 machine", "statement": "For every program in good order, next returns an operation, or None, exactly if the Type 2 machine (a small relational specification of operands, operators, subroutine calls, hints and width) yields that operation, or ends, and then leaves the program in the state of the machine; it fails, or panics, exactly if the machine comes to a state with code left in which it cannot go on; the result is unique.", "quantifier": "all programs, subroutines and states in good order", "why_tests_cant": "an equivalence of two semantics over all programs", "anchors": ["src/type2/program.rs Program::next"]}
{"id": "C55", "title": "A glyph survives being written as a character string", "statement": "For every glyph (an optional width and a list of drawing, hint and mask operations with the operand counts their operators take), every way to write it as bytes according to the Type 2 format, with any encoding of each operand and the width before the operands of the first operation that takes one, runs as exactly that list of operations, ends regularly, and shows that width, whatever bytes follow endchar; and every glyph with representable operands can be written.", "quantifier": "all glyphs of any length, all encodings of their operands, all bytes after the end, all subroutines", "why_tests_cant": "a round trip over an infinite set of glyphs and their encodings", "anchors": ["src/type2/program.rs Program::next", "src/type2/number.rs read"]}
{"id": "C56", "title": "The programs of a font set are in good order", "statement": "Every character string of a font set that was read, run with the global subroutines of the font set and the local subroutines of its font, is a program in good order (its sizes fit the integers of the machine), so that everything stated about such programs holds of it.", "quantifier": "all byte strings, all fonts, all character strings, every private dictionary of a font", "why_tests_cant": "all files; the sizes concerned cannot be tested", "anchors": ["src/compact1/font_set/mod.rs FontSet::read", "src/type2/program.rs Program::new"]}
{"id": "C57", "title": "Truncation is noticed or harmless", "statement": "If a file is cut short at any point, FontSet::read either fails with the error UnexpectedEof or does exactly what it does on the whole file (the same font set and final position, or the same error, or the same panic); in particular bytes after those that were read do not matter. The same holds for FontSet::count.", "quantifier": "all byte strings, all points of truncation, all starting positions, all builds", "why_tests_cant": "every prefix of every file", "anchors": ["src/compact1/font_set/mod.rs FontSet::read", "src/compact1/font_set/mod.rs FontSet::count"]}
{"id": "C58", "title": "Debug and release builds agree", "statement": "If a build with overflow checks does not panic, a build without them does the same: FontSet::read and FontSet::count give the same result, or the same error, and one call of Program::next gives the same result and leaves the same program, or does not return in either.", "quantifier": "all byte strings and positions; all programs and states", "why_tests_cant": "tests run one build on few inputs", "anchors": ["src/compact1/font_set/mod.rs FontSet::read", "src/compact1/font_set/mod.rs FontSet::count", "src/type2/program.rs Program::next"]}
{"id": "C59", "title": "Failures do not depend on where a font set is", "statement": "Reading a font set in the midst of other bytes gives what reading it on its own gives, also if that is an error or a panic, unless reading it on its own fails at a seek, which only a negative offset can cause; counting its fonts always gives the same.", "quantifier": "all byte strings, well-formed or not, all bytes in front of them, all positions with 2^31 seekable bytes after them", "why_tests_cant": "malformed files at arbitrary places", "anchors": ["src/compact1/font_set/mod.rs FontSet::read", "src/compact1/font_set/mod.rs FontSet::count"]}
{"id": "C60", "title": "A font set that was written is read back, glyphs included", "statement": "For every description of a font set (names, strings, global subroutines, and fonts keyed by names or by character identifiers with their dictionaries, character sets, encodings, FDSelect, private dictionaries, local subroutines and character strings), the bytes that a simple writer makes of it, in the midst of any other bytes, are read as a font set with exactly these parts; and a glyph that was written as one of the character strings is what running it with the subroutines of the font shows.", "quantifier": "all valid descriptions below 2^31 bytes, all bytes before and after, all builds", "why_tests_cant": "unbounded descriptions; tests have a handful of fixture fonts", "anchors": ["src/compact1/font_set/mod.rs FontSet::read", "src/type2/program.rs Program::next"]}
{"id": "C61", "title": "The recursion of next is bounded by the size of the program", "statement": "One call of next, which calls itself after every operator that yields nothing, has at most one activation more than there are bytes in the program and its subroutines, if it returns at all; in particular the native stack it needs is linear in the size of the font.", "quantifier": "all programs with subroutines, all states", "why_tests_cant": "resource use over all programs; the worst case is an adversarial program", "anchors": ["src/type2/program.rs Program::next"]}
{"id": "C62", "title": "Whatever was read can be written again", "statement": "A font set that was read from any file, in any layout, can be written in one piece such that reading that piece, in the midst of any other bytes and by any build, succeeds and gives a font set with the same contents: names, strings, subroutines, dictionaries, character sets, encodings, private dictionaries and character strings.", "quantifier": "all files and positions from which a font set is read, subject to a bound of 2^31 on 100 times the size of the file times the number of fonts and private dictionaries; all bytes before and after; all builds", "why_tests_cant": "unbounded files and layouts; no fixture contains every layout", "anchors": ["src/compact1/font_set/mod.rs FontSet::read"]}
{"id": "C63", "title": "Nothing is invented", "statement": "Every name, string, subroutine and character string of a font set that was read is a contiguous piece of the file; none is longer than the file, and no font set has more than 65535 fonts, names, strings, global subroutines, or glyphs in a font.", "quantifier": "all files, positions and builds for which reading succeeds", "why_tests_cant": "a claim about all files, adversarial ones included", "anchors": ["src/compact1/font_set/mod.rs FontSet::read", "src/compact1/index/mod.rs Index::read"]}
{"id": "C64", "title": "Glyphs can be flattened", "statement": "What a character string shows until it ends (operations, width, number of stems) can be shown by a flat one, without subroutines, arithmetic and shuffling of operands, exactly if every number it shows can be written as an operand, that is, is a multiple of 2^-16 from -2^15 to 2^15 other than the negative zero; in particular always if neither it nor the subroutines contain the escape byte.", "quantifier": "all programs with any subroutines that run to their end, with a bound of 2^63 on the size of what they show; all builds", "why_tests_cant": "a claim of existence for all programs", "anchors": ["src/type2/program.rs Program::next", "src/type2/program.rs Program::width"]}
{"id": "C65", "title": "Fragments can be exchanged", "statement": "In a character string or subroutine a fragment can be exchanged for another one without any visible difference (operations, width, number of stems, outcome) if both, executed from the state before the fragment, are used up, show the same and lead to the same state. In particular operands can be re-encoded, an arithmetic, conditional or stack operator behind its operands can be replaced by its result, and exch exch, dup drop, neg neg can be left out where there are enough operands.", "quantifier": "all programs, at any point of their execution and any depth of calls, all fragments and all code before and behind them; all builds", "why_tests_cant": "a claim about all contexts and all continuations of a fragment", "anchors": ["src/type2/program.rs Program::next", "src/type2/program.rs Program::width"]}
{"id": "C66", "title": "Unneeded subroutines can be spared", "statement": "A program that runs to its end although some subroutines are replaced by the byte 0, or are missing behind the others (without changing the bias), runs the same with all of the subroutines: those replaced, whatever they contain, do not matter.", "quantifier": "all character strings, all lists of global and local subroutines, all choices of those spared; all builds", "why_tests_cant": "a claim about all bodies of the subroutines replaced", "anchors": ["src/type2/program.rs Program::new", "src/type2/program.rs Program::next"]}
{"id": "C67", "title": "Computations do not depend on what is below their operands", "statement": "A piece of a Type 2 program that, executed on its own with some operands, yields no operation and leaves other operands, does the same whatever operands are below its own, whatever the stems and width recorded, and whatever code calls or follows it. In particular a piece that computes constants from nothing can be replaced by these constants anywhere.", "quantifier": "all fragments, operands, contexts and continuations; all builds", "why_tests_cant": "a claim about all contexts of all computations", "anchors": ["src/type2/program.rs Program::next"]}
{"id": "C68", "title": "A failure of next is final", "statement": "After a call of next of a Type 2 program has failed, no later call yields an operation.", "quantifier": "all sound programs, all failures, all builds and all behaviours of the cursor at a failed read", "why_tests_cant": "a claim about all failures and all later calls", "anchors": ["src/type2/program.rs Program::next"]}
{"id": "C69", "title": "Reading numbers keeps their order", "statement": "If the value of a real operand of a dictionary is at most that of another one, as rational numbers, then the binary32 number read for it is at most the other. Two spellings of one value with one sign give the same number. The same holds of the fixed-point operands of Type 2 programs.", "quantifier": "all legal literals with any number of digits and any exponent; all fixed-point operands; all builds", "why_tests_cant": "unboundedly many literals, and all pairs of them", "anchors": ["src/compact1/number.rs Number", "src/type2/number.rs Number"]}
{"id": "C70", "title": "What a dictionary can hold", "statement": "A number is the result of reading some operand exactly if it is a 32-bit integer or a binary32 number other than NaN. A map from operators to lists of numbers is the result of reading some dictionary exactly if all of its numbers are such.", "quantifier": "all numbers, all dictionaries; all builds", "why_tests_cant": "an equivalence over all dictionaries", "anchors": ["src/compact1/number.rs Number", "src/compact1/operation.rs Operations"]}
{"id": "C71", "title": "Errors name their causes", "statement": "A call of next fails with a given error exactly if execution comes to a state with the fault that this error describes: the code ends inside an operand, an operator or a mask; an operator is unknown or not implemented; a path or stem operator has no acceptable arguments; an operator on the stack has too few operands, or one that has to be an integer is not; an index or a number of operands to roll exceeds the stack or is negative; there is no such subroutine, nowhere to return to, or code behind endchar in a subroutine. It panics exactly in the three corners named for that.", "quantifier": "all sound programs at any point of their execution, all errors and panics; all builds", "why_tests_cant": "an equivalence over all programs, for each of the errors", "anchors": ["src/type2/program.rs Program::next"]}
{"id": "C72", "title": "FDSelect gives each glyph one existing dictionary", "statement": "In a font keyed by character identifiers that was read, FDSelect gives each glyph exactly one dictionary number, and there is a dictionary, with its private record, of that number.", "quantifier": "all byte strings that read as a font set, all fonts of it, all glyphs", "why_tests_cant": "ranges over all FDSelect tables of both formats, including those no font tool writes: gaps, overlaps, numbers out of range", "anchors": ["src/compact1/font_set/character_id_keyed.rs Encoding::read", "src/compact1/font_set/character_id_keyed.rs Encoding0::read", "src/compact1/font_set/character_id_keyed.rs Encoding3", "src/compact1/font_set/character_id_keyed.rs Record::read"]}
{"id": "C73", "title": "Each glyph has a name", "statement": "In a font keyed by names that was read, each glyph has a name: the character set has an identifier for it, and looking that identifier up in the strings of the font set gives the standard or custom string that the specification has for it.", "quantifier": "all byte strings that read as a font set, all fonts of it, all glyphs", "why_tests_cant": "joins the character set, the number of glyphs and the string index for all of their contents", "anchors": ["src/compact1/character_set.rs CharacterSet::read", "src/compact1/index/strings.rs Strings::get", "src/compact1/font_set/mod.rs FontSet"]}
{"id": "C74", "title": "Executing a glyph comes to an end", "statement": "Calling next again and again on any glyph of a font set that was read, with the global subroutines and local ones of its font, comes to an end after finitely many operations.", "quantifier": "all byte strings that read as a font set, all glyphs, all choices of local subroutines", "why_tests_cant": "termination over all fonts, including adversarial ones", "anchors": ["src/type2/program.rs Program::next", "src/type2/program.rs Program::new", "src/compact1/font_set/mod.rs FontSet"]}
{"id": "C75", "title": "Programs stay within the limits of Type 2", "statement": "A program never comes beyond the implementation limits of the Type 2 specification (48 operands, 10 nested calls, 96 stem hints); in particular what it shows is bounded by its size.", "quantifier": "all programs with subroutines, all states reached", "why_tests_cant": "resource use over all programs; the worst case is an adversarial program", "anchors": ["src/type2/program.rs Program::next"]}
{"id": "C76", "title": "A font set that cannot be read fails as its first defect says", "statement": "Reading a font set, counting its fonts, and reading an INDEX, a dictionary, a character set or an encoding fails with a given error or panic exactly when the file has the defect that the failure stands for and everything read before it is sound: the file ends within a given structure; a width, a format, an operator or a number is none; offsets are out of order; an operation is missing, is no integer or has the wrong number of operands; a range has more glyphs than there are; a string identifier is none; a position cannot be sought; a sum of offsets overflows; or memory is asked for a negative size. Either a font set is laid out at the position or exactly one such defect is to blame, and the complaints that can be made are thirteen, each of which some file causes.", "quantifier": "all byte strings, positions, build modes and kinds of tape, and all failures", "why_tests_cant": "a test shows the error of one broken file; that each error is reported for all files with the defect and for no others, and that there are no other defects, concerns all files", "anchors": ["src/compact1/font_set/mod.rs FontSet::read", "src/compact1/font_set/mod.rs FontSet::count", "src/compact1/index/mod.rs Index::read", "src/compact1/character_set.rs CharacterSet::read", "src/compact1/encoding.rs Encoding::read", "src/compact1/font_set/character_id_keyed.rs Record::read", "src/compact1/font_set/character_name_keyed.rs Record::read"]}
{"id": "C77", "title": "What a font set holds is bounded by its file", "statement": "The names, strings, subroutines and character strings of a font set that FontSet::read returns take together no more bytes than the file has.", "quantifier": "all byte strings, positions, builds and font sets that are read from them", "why_tests_cant": "Fonts and dictionaries may share what they point at, so that the size of what is read depends on how offsets of any number of fonts coincide; a test reads files whose parts do not overlap.", "anchors": ["src/compact1/font_set/mod.rs: FontSet, impl crate::value::Read for FontSet", "src/compact1/font_set/character_id_keyed.rs: Record, RecordInner", "src/compact1/font_set/character_name_keyed.rs: Record", "src/compact1/index/mod.rs: Index"]}
{"id": "C78", "title": "Only the parts of a font set matter", "statement": "FontSet::read depends on nothing but the bytes of the parts of a font set: the header, the INDEXes behind it and what the dictionaries point at. Changing bytes elsewhere does not change what is read; cutting the file short changes it exactly if a byte of a part is cut off; and apart from the ways of writing dictionaries every byte of a part is determined by what was read, so that none can change unnoticed.", "quantifier": "all pairs of byte strings, positions, builds and font sets that are read from one of them", "why_tests_cant": "A test changes some bytes of some file; the claim is about all changes of all files, and about parts that overlap, are shared or are far apart.", "anchors": ["src/compact1/font_set/mod.rs: impl crate::value::Read for FontSet", "src/compact1/font_set/character_id_keyed.rs: impl crate::walue::Read for Record", "src/compact1/font_set/character_name_keyed.rs: impl crate::walue::Read for Record", "src/compact1/index/mod.rs: impl crate::value::Read for Index"]}
{"id": "C79", "title": "Font sets can be edited", "statement": "For every choice of fonts of a font set that was read and has as many names as fonts, there is a file of which reading gives exactly the chosen fonts, in the chosen order, with the same names and contents; and for every glyph and every character string, there is a file of which reading gives the same font set but for that glyph, which runs as the new character string says.", "quantifier": "all byte strings that read as a font set, of any layout, with a bound on the size; all choices of fonts without repetitions; all glyphs and character strings; all builds that read the result, wherever it is", "why_tests_cant": "a claim of existence for all files and all choices", "anchors": ["src/compact1/font_set/mod.rs FontSet::read", "src/type2/program.rs Program::next"]}
{"id": "C80", "title": "Character codes lead to glyphs", "statement": "In a font that was read, each character code leads to at most one glyph, which is there, and looking the code up in the encoding gives the identifier that the character set has for this glyph, with the name that the strings have for it.", "quantifier": "all fonts that were read, all kinds of encodings and character sets, all codes", "why_tests_cant": "joins tables of hundreds of entries and custom tables of any contents", "anchors": ["src/compact1/encoding.rs Encoding::get", "src/compact1/character_set.rs CharacterSet::get", "src/compact1/index/strings.rs Strings::get"]}
{"id": "C81", "title": "A 32-bit build reads the same font sets", "statement": "On tapes shorter than 2^31 bytes FontSet::read returns the same font set or the same error on targets with a 32-bit usize as on targets with a 64-bit usize; the only exception is that, where vectors reserve their memory before they are read, it may panic for want of memory where the 64-bit build reports an end of file. On tapes of any length an INDEX is read in the same way, unless it has an object of 2^31 bytes or more and memory is reserved, which panics.", "quantifier": "all tapes (shorter than 2^31 bytes for font sets), all positions, with and without overflow checks and reservation of memory", "why_tests_cant": "tests run on one target; the difference shows only for lengths and sizes that no fixture has, such as negative sizes, no glyphs, and objects of gigabytes", "anchors": ["src/compact1/font_set/mod.rs: FontSet::read", "src/compact1/index/mod.rs: Index::read", "src/compact1/character_set.rs: CharacterSet0::read", "src/compact1/font_set/character_name_keyed.rs: Record::read"]}
{"id": "C82", "title": "Subroutines can be given other numbers", "statement": "If the subroutines of a program are put into another order, if some that are not called are left out, others are added, or equal ones are merged, and the numbers in the calls are rewritten to match (with the bias of the new count), then the program yields the same operations, widths and stem counts and ends in the same way. For any selection of subroutines that contains all those called there are such a code and such tables, with exactly the selected subroutines.", "quantifier": "all programs whose calls have the number right before the operator, all global and local subroutines, all selections and orders, nested calls, masks, every configuration", "why_tests_cant": "numbers depend on the count of subroutines through the bias, calls are nested, and what looks like a call can be a part of an operand or of a mask whose length depends on the stems declared before; fixtures have one numbering each", "anchors": ["src/type2/program.rs: Program::new, Program::next", "src/type2/program.rs: bias"]}
{"id": "C83", "title": "Fonts can be subset", "statement": "For every font of a font set that was read and every choice of its glyphs that has .notdef, there is a file of which reading gives the same font set, but with only the chosen glyphs in this font: with the same character strings, string identifiers, character codes and private dictionaries, in the same order, everything else unchanged. Running a chosen glyph with the global subroutines and those of its private dictionary shows the same as before, its name is the same, and the same codes lead to it.", "quantifier": "all byte strings that read as a font set, of any layout, with a bound on the size; all fonts and increasing lists of glyphs whose identifiers fit 16 bits and whose codes fit 8; all builds that read the result, wherever it is", "why_tests_cant": "There are infinitely many fonts and exponentially many choices of glyphs; character sets, encodings and FDSelect tables come in formats that have to be turned into each other without a change of meaning.", "anchors": ["src/compact1/font_set/mod.rs: FontSet::read", "src/compact1/character_set.rs: CharacterSet", "src/compact1/encoding.rs: Encoding", "src/compact1/font_set/character_id_keyed.rs: Record, Encoding", "src/type2/program.rs: Program::new, Program::next"]}
{"id": "C84", "title": "Subroutines that are not called do not matter", "statement": "Two programs with the same code, with as many global and local subroutines, and with the same subroutine wherever the first comes to call one, yield the same operations, widths and stem counts and end or fail in the same way. For every font set that was read and every choice of subroutines that has all those its glyphs call, there is a file of which reading gives the same font set, but with nothing in place of the subroutines not chosen, and every glyph shows the same with it.", "quantifier": "all programs, tables of subroutines and configurations; all byte strings that read as a font set, of any layout, with a bound on the size; all choices of global subroutines, and of local ones for each private dictionary", "why_tests_cant": "Which subroutines are called depends on the execution, through computed numbers and nested calls; there are infinitely many programs and exponentially many choices.", "anchors": ["src/type2/program.rs: Program::new, Program::next", "src/compact1/font_set/mod.rs: FontSet::read"]}
{"id": "C85", "title": "Programs do the same on targets with words of 32 bits", "statement": "Executing a program on a target whose words have fewer than 64 bits yields the same operations, widths and stem counts, and ends or fails in the same way, as on one with words large enough. (False: the operand stack and the number of stem hints are bounded by nothing but the words, and programs of less than 200 bytes exceed 32 bits of either.)", "quantifier": "all programs, subroutines, configurations and widths of words up to 64 bits", "why_tests_cant": "Tests run on one target; the states that exceed the words come after billions of steps, and which programs come to them depends on the execution.", "anchors": ["src/type2/program.rs: Program::next, Program::new"]}
{"id": "C86", "title": "Executing a program takes work proportional to its size", "statement": "Executing a program without subroutines until it ends or fails takes a number of steps, counting activations of next, iterations of its loops and operands that it moves, at most proportional to the number of bytes of the program. (False: the rolls iterate as often as the shift says, whatever the number of operands, and 16 bytes take more than two billion iterations.)", "quantifier": "all programs without subroutines and all configurations; for the bounds that do hold, all programs and subroutines with calls nested to any given depth", "why_tests_cant": "Tests execute a few programs; how long the longest execution of a given size takes is a statement about all of them.", "anchors": ["src/type2/program.rs: Program::next"]}
{"id": "C87", "title": "Reading a font set takes work proportional to the size of the file", "statement": "Reading a font set takes a number of steps, counting reads, seeks and iterations of loops, at most proportional to the number of bytes of the file. (False: fonts may share dictionaries and these may share subroutines, and all are read again for each use: files of 56 n + m + 44 bytes take n^2 m steps.)", "quantifier": "all byte strings, whether or not they read as a font set, all positions and all configurations", "why_tests_cant": "Tests read a few files; how long the longest reading of a given size takes is a statement about all of them.", "anchors": ["src/compact1/font_set/mod.rs: FontSet::read", "src/compact1/font_set/character_id_keyed.rs: Record", "src/compact1/index/mod.rs: Index::read", "src/compact1/operation.rs: Operations::read", "src/compact1/number.rs: parse"]}
{"id": "C88", "title": "Reading a font set reserves memory in proportion to the size of the file", "statement": "Reading a font set never reserves memory for a vector of more bytes than are in proportion to the number of bytes of the file. (False: the lengths of vectors come from the file and are not compared with what is left of it; 15 bytes reserve 4 GB if vectors of given lengths reserve memory for all elements first, and 7 bytes reserve 256 kB if not.)", "quantifier": "all byte strings, whether or not they read as a font set, all positions and all configurations", "why_tests_cant": "The files that make a reader ask for much memory are those that nobody writes; the bound is a statement about all byte strings.", "anchors": ["src/compact1/index/mod.rs: Index::read", "src/compact1/index/dictionaries.rs: TryFrom<&Dictionaries>", "src/compact1/font_set/character_id_keyed.rs: Record", "src/compact1/character_set.rs: CharacterSet"]}
{"id": "C89", "title": "However a source answers, the same is read or its failure is reported", "statement": "Reading from a source that delivers fewer bytes than asked for, or is interrupted, gives the same font set, number of fonts, dictionary, number or INDEX, or the same error, as from one that delivers all at once. If the source fails, reading ends with this failure, whatever was read so far: no failure is lost, none is made up, and nothing more is asked of the source, except for the seek back at the end of a peek, whose failure takes precedence.", "quantifier": "all byte strings, all positions, all configurations and all finite sequences of answers of the source (numbers of bytes, interruptions, failures), after which it delivers everything", "why_tests_cant": "Tests read from memory or from files that deliver all bytes at once and do not fail; the ways in which a source may answer are infinitely many, and Operations::read takes one kind of error for a success.", "anchors": ["src/compact1/font_set/mod.rs: FontSet::read, FontSet::count", "src/compact1/operation.rs: Operations::read", "src/compact1/index/mod.rs: Index::read", "src/compact1/number.rs: Number::read", "src/lib.rs: tape"]}
{"id": "C90", "title": "Where the tape is after a font set was read", "statement": "After FontSet::read succeeded, the tape is at the end of the local subroutines of the last private dictionary that was read, or at the end of that dictionary if it has none, or, if there are no fonts, at the end of the global subroutines. This need not be the end of the font set: what comes behind it cannot be read by simply reading on. It is the end if the parts of each font are in the order in which they are read, with the record last, and then font sets one after another are read one after another from the same tape.", "quantifier": "all byte strings, all positions, all configurations; all sequences of font sets that can be written, with anything before and after them", "why_tests_cant": "Tests look at what was read and not at where the tape is; the position depends on offsets in dictionaries that may point anywhere.", "anchors": ["src/compact1/font_set/mod.rs: FontSet::read, Record::read", "src/compact1/font_set/character_name_keyed.rs: Record::read", "src/compact1/font_set/character_id_keyed.rs: Record::read, RecordInner::read", "src/compact1/index/mod.rs: Index::read"]}
{"id": "C91", "title": "The code of a font set can be replaced, renumbered and freed of subroutines", "statement": "For every font set that was read and any new character strings, global subroutines and local subroutines, there is a file of which reading gives the same font set with the new code and nothing else changed. If the new code differs from the old one in the order and the numbers of subroutines only, every glyph shows the same. If all the glyphs run to their ends, there is a file with the same font set but without any subroutines in which every glyph shows the same, exactly if all the numbers shown are multiples of 2^-16 in the range of operands; in particular if there is no arithmetic.", "quantifier": "all byte strings that read as a font set, of any layout, keyed by names or by character identifiers, with a bound on the size; all new codes, tables and numberings; all builds that read the result, wherever it is", "why_tests_cant": "a claim of existence for all files and all codes; the glyphs of a font depend on one another through the subroutines they share", "anchors": ["src/compact1/font_set/mod.rs FontSet::read", "src/type2/program.rs Program::new, Program::next", "src/compact1/index/mod.rs Index::read"]}
{"id": "C92", "title": "Comparing what was read", "statement": "Two numbers of dictionaries compare equal exactly if both are integers or both are reals and they have one value; whatever was read is equal to itself, and equality is symmetric and transitive there. Literals of one value are read as equal numbers. Two dictionaries are equal as maps exactly if they have the same operators and the last operations of each have equal operands. Offsets of one size compare as their bytes do. Operations of programs compare by operator and, by IEEE 754, operand; those of programs without arithmetic are equal to themselves, others need not be.", "quantifier": "all inputs, positions and builds; all literals of any length; all dictionaries; all offset sizes; all programs that run to their end", "why_tests_cant": "pairs of unboundedly many spellings, and the absence of values that differ from themselves", "anchors": ["src/compact1/number.rs Number", "src/compact1/operation.rs Operations", "src/compact1/offset.rs Offset", "src/type2/operation.rs Operation"]}
{"id": "C93", "title": "The state after a failure", "statement": "A call of next that fails leaves the program in one determined state: it goes on behind the operator that failed, the operands the operator had asked for are gone (all of them if there were too few), hints are counted even if their operands are refused or their mask is cut off, callers are gone if there was trailing data, and of code that ends too early is left what the tape says. So the results of any number of calls, also after errors and after the end, are those of the machine, and depend only on the code left, the operands, hints and width, not on what has been executed.", "quantifier": "all programs in good order, all subroutines, all sequences of calls that do not panic, tapes whose failed reads stay and tapes whose failed reads go to the end, all builds", "why_tests_cant": "every operator has its own way to fail part of the way, on stacks of any depth, and calls after a failure go on from there", "anchors": ["src/type2/program.rs Program::next", "src/type2/number.rs read", "src/tape.rs Read"]}
{"id": "C94", "title": "Font sets can be merged", "statement": "For every two font sets that were read from any files, in any layouts, have the same global subroutines and only string identifiers that lead to strings, and are small enough for 31-bit offsets and 16-bit counts, there is a file of which reading gives a font set with the fonts of the first and then those of the second, with the strings of both in one table. The fonts are as they were: all glyphs show the same when they are run, in any build, glyphs have the same names, the same codes lead to them, collections of character identifiers and the strings of dictionaries are the same. More generally, the strings of a font set can be moved by any renaming of string identifiers that keeps the standard ones and makes no two one.", "quantifier": "all pairs of files that can be read, all layouts and builds, all renamings of string identifiers, all glyphs, codes and dictionaries", "why_tests_cant": "identifiers of strings are in four places, of any number and in three formats, and each of them has to lead to the same string in every file", "anchors": ["src/compact1/font_set/mod.rs FontSet", "src/compact1/mod.rs StringID", "src/compact1/character_set.rs CharacterSet", "src/compact1/encoding.rs Encoding", "src/compact1/index/strings.rs Strings"]}
{"id": "C95", "title": "Strings that are not needed can be left out", "statement": "For every font set that was read and every choice of its strings, in any order, that has all those that glyph names, supplements of encodings and collections of character identifiers refer to, there is a file of which reading gives the same font set with only the chosen strings and with string identifiers to match. If the choice also has the strings that the dictionaries refer to, the fonts are as they were: all glyphs show the same when they are run, in any build, have the same names, the same codes lead to them, and the strings of dictionaries and collections are the same.", "quantifier": "all byte strings that read as a font set, of any layout, with a bound on the size; all choices and orders of strings; all builds that read the result, wherever it is", "why_tests_cant": "a claim of existence for all files and all choices", "anchors": ["src/compact1/font_set/mod.rs FontSet::read", "src/compact1/index/strings.rs Strings::get"]}
{"id": "C96", "title": "Font sets with different global subroutines can be merged", "statement": "For every two font sets that were read, with any global subroutines, and any new code for both with one table of global subroutines, there is a file of which reading gives a font set with the fonts of the first and then those of the second, with the new code, the strings of both in one table and string identifiers to match. If the new code differs from the old one in the order and the numbers of subroutines only (the global ones of both in one table, say), the fonts are as they were: all glyphs show the same when they are run, in any build, have the same names, the same codes lead to them, and the strings of dictionaries and collections are the same. So are they if all the glyphs run to their ends and the numbers shown can be written as operands, with flat code without any subroutines.", "quantifier": "all pairs of byte strings that read as font sets, of any layout, with a bound on the sizes; all renumberings; all builds that read the result, wherever it is", "why_tests_cant": "a claim of existence for all pairs of files, and of equality for all executions", "anchors": ["src/compact1/font_set/mod.rs FontSet::read", "src/type2/program.rs Program::next"]}
{"id": "C97", "title": "Fragments of code can be put into subroutines", "statement": "If a program is changed such that fragments of its code are in new subroutines, which are called in their places, it shows the same operations, widths and stem hints, and ends or fails alike; so also the other way round, when the code of subroutines is put in the places of the calls. A fragment inside the code ends with a return in the subroutine, and has none and no endchar itself; a fragment at the end of the code needs no return and may have endchar as its last operator. Fragments may be nested, be in subroutines too and have calls in them, and the other subroutines may be given other numbers. In particular, all the occurrences of a fragment without calls in any number of programs can be put into one new local or global subroutine, besides which the others keep their numbers. For every font set that was read there is a file with the code so changed, in which all glyphs show the same, in any build.", "quantifier": "all programs of both forms, all tables of subroutines, all fragments, nested to any depth; all builds; all byte strings that read as font sets, with a bound on the sizes", "why_tests_cant": "the equality of all executions of infinitely many pairs of programs, including those that fail or do not end", "anchors": ["src/type2/program.rs Program::next", "src/type2/program.rs bias", "src/compact1/font_set/mod.rs FontSet::read"]}
{"id": "C98", "title": "Neither the contents of masks nor the way operands are encoded is seen", "statement": "If the masks of a program, in its code and in its subroutines, are replaced by others of the same length, and operands are encoded in other ways, the program shows the same operations, widths and stem hints, and ends or fails alike. In particular, masks cannot be recovered from what a program shows, and their bytes are never taken for code. Subroutines that are not called can be different. For every font set that was read there is a file with masks and operands so changed, in which all glyphs show the same, in any build.", "quantifier": "all programs and tables of subroutines, all masks, all encodings of operands, code that need not make sense from some point on; all builds; all byte strings that read as font sets, with a bound on the sizes", "why_tests_cant": "the equality of all executions of infinitely many pairs of programs, including those that fail or do not end; where a mask is depends on all the hints before it", "anchors": ["src/type2/program.rs Program::next (HintMask, CntrMask)", "src/type2/number.rs read", "src/compact1/font_set/mod.rs FontSet::read"]}
{"id": "C99", "title": "Nothing of a glyph is lost", "statement": "Two glyphs (an optional width and a list of drawing, hint and mask operations with the operand counts their operators take) that are written as character strings in any way and show the same operations, widths, stem hints and outcome are the same glyph.", "quantifier": "all pairs of glyphs, all ways to write them, any bytes behind endchar, all tables of subroutines, all builds", "why_tests_cant": "injectivity is about all pairs of glyphs; a test can only show that some are told apart", "anchors": ["src/type2/program.rs Program::next", "src/type2/program.rs Program::width", "src/type2/number.rs read"]}
{"id": "C100", "title": "Font sets that differ are read as different ones", "statement": "Two font sets that were written (fonts keyed by names or by character identifiers, at any place of any file) are read by FontSet::read as font sets with the same contents if and only if they are made of the same things: the same names, strings and global subroutines, and fonts with the same character strings, character set, encoding, entries of dictionaries, local subroutines, registry, ordering, supplement, FDSelect and font dictionaries.", "quantifier": "all pairs of font sets that can be written, all files around them, all builds", "why_tests_cant": "injectivity is about all pairs of font sets; a test can only show that some are told apart", "anchors": ["src/compact1/font_set/mod.rs FontSet::read", "src/compact1/index/mod.rs Index::read", "src/compact1/operation.rs Operations"]}
{"id": "C101", "title": "What can be shown by a character string", "statement": "A list of operations, each with the width and the number of stems known behind it, and a final width can be shown by some character string exactly if they are in order: each operator has a number of operands that it accepts (masks have none), stems are counted by pairs, the width stays once it is known and becomes known in front of operands only if the operator could not take it for one of its own, and a mask declares stems on its side only if the width is known behind it; the numbers are any binary32 numbers, although operands are multiples of 2^-16. No subroutines are needed: whatever a character string with subroutines shows until it ends or fails can be shown by one without, and every font set of which all glyphs come to ends or to errors can be freed of subroutines.", "quantifier": "all lists of operations with a bound on their size, all binary32 numbers with infinities, NaN and the negative zero; all programs, all tables of subroutines, all byte strings that read as a font set; all builds", "why_tests_cant": "a claim of existence for all lists and all numbers, and one of impossibility for all programs", "anchors": ["src/type2/program.rs Program::next", "src/type2/program.rs Program::width", "src/compact1/font_set/mod.rs FontSet::read"]}
{"id": "C102", "title": "Any drawings can be the glyphs of a font", "statement": "In every font set that was read the glyphs can be exchanged for any drawings, that is, for any operations with widths and numbers of stems that are in order (C101), ended properly or by an error: there is a file of which reading gives the same font set but for the code, and in which every glyph that belongs to a private dictionary shows the drawing chosen for it and nothing else. And whatever a glyph of a font set that was read shows is such a drawing.", "quantifier": "all byte strings that read as a font set, all choices of a drawing for each glyph, with a bound on the size; all builds", "why_tests_cant": "a claim of existence for all fonts and all drawings", "anchors": ["src/compact1/font_set/mod.rs FontSet::read", "src/type2/program.rs Program::new, Program::next, Program::width"]}
{"id": "C103", "title": "Fonts can be made from scratch", "statement": "For any fonts, each given by its name, by the contents of its top and private dictionaries, by texts such as the full name and the notice, by glyphs with any names and any drawings that are in order (C101), and by an encoding, there is a file of which reading gives just these fonts: with these names, dictionaries and encodings, with these texts, when they are looked up in the strings of the font set, so that character codes lead to just the glyphs for which they are listed, as many glyphs, and glyphs that have just these names, when they are looked up in the strings of the font set, and show just these drawings, in any build. And every font keyed by names that was read is one that can be made so, if it has a name, a glyph, and a name for each glyph, and if its glyphs come to their ends or to errors in the same way in any build.", "quantifier": "all lists of fonts with any names, dictionaries, glyph names and drawings, with bounds on the numbers and the size only; all surroundings in a file, all builds; all byte strings that read as a font set for the converse", "why_tests_cant": "a claim of existence for all fonts that anyone may draw", "anchors": ["src/compact1/font_set/mod.rs FontSet::read", "src/compact1/index/strings.rs Strings::get", "src/compact1/character_set.rs CharacterSet::read", "src/type2/program.rs Program::new, Program::next, Program::width"]}
{"id": "C104", "title": "Fonts keyed by character identifiers can be made from scratch", "statement": "For any fonts keyed by character identifiers, each given by its name, by the contents of its top dictionary, by texts such as the full name and the notice, by a registry, an ordering and a supplement, by the contents of its font dictionaries and their private dictionaries, and by glyphs with any identifiers, any choice of a font dictionary for each, and any drawings that are in order (C101), and by an encoding, there is a file of which reading gives just these fonts: the names, the dictionaries, the encodings, the texts and the character collection, when their strings are looked up, and glyphs that have just these identifiers and font dictionaries and show just these drawings, in any build. And every font keyed by character identifiers that was read is one that can be made so, if it has a name, a glyph, a registry and an ordering, an identifier and just one font dictionary for each glyph, and if its glyphs come to their ends or to errors in the same way in any build.", "quantifier": "all lists of fonts with any names, character collections, dictionaries, identifiers and drawings, with bounds on the numbers and the size only; all surroundings in a file, all builds; all byte strings that read as a font set for the converse", "why_tests_cant": "a claim of existence for all fonts that anyone may draw", "anchors": ["src/compact1/font_set/mod.rs FontSet::read", "src/compact1/font_set/character_id_keyed.rs Record, Encoding", "src/compact1/index/strings.rs Strings::get", "src/type2/program.rs Program::new, Program::next, Program::width"]}
{"id": "C105", "title": "Font sets with fonts of both kinds can be made from scratch", "statement": "For any list of fonts, in any order, some keyed by names as in C103 and some keyed by character identifiers as in C104, there is a file of which reading gives just these fonts in this order, in any build. And a font set that was read consists of fonts that can be made so if and only if each of its fonts has a name, a glyph, glyphs that come to their ends or to errors in the same way in any build, and for each glyph a name, if the font is keyed by names, or else an identifier and just one font dictionary, and then also a registry and an ordering. And a font set tells fonts apart: if two fonts are both found in the same place of the same font set, they are of the same kind and have the same name, operations, texts, encoding, drawings, and names or identifiers of glyphs, and if keyed by identifiers the same character collection and font dictionaries.", "quantifier": "all lists of fonts of both kinds with any names, strings, dictionaries, identifiers and drawings, with bounds on the numbers and the size only; all surroundings in a file, all builds; all byte strings that read as a font set for the converse", "why_tests_cant": "a claim of existence for all font sets that anyone may draw, and of a characterization of all font sets that were read", "anchors": ["src/compact1/font_set/mod.rs FontSet::read", "src/compact1/font_set/mod.rs Record", "src/compact1/index/strings.rs Strings::get", "src/type2/program.rs Program::new, Program::next, Program::width"]}
{"id": "C106", "title": "Fonts stay what they are when a font set is written again or fonts are taken out of it", "statement": "Font sets with the same contents have the same fonts: any font of either kind, with its name, dictionaries, texts, drawings, encoding and names or identifiers of glyphs, that is in a place of the one is in this place of the other, and conversely. So a font set that was read from any file, in any layout, can be written in one piece, such that reading that gives the same fonts in the same places; and any of its fonts can be taken out, in any order, such that reading the file of these gives as many fonts, each being the one it was before. And other code with other subroutines, such as code of which fragments were put into subroutines, or which has other contents of masks and other encodings of operands, leaves the fonts what they are if the glyphs show the same with it. No font that was not there can be found afterwards.", "quantifier": "all pairs of font sets with the same contents; all byte strings that read as a font set and are not too big, all choices of different fonts in any order, all surroundings of the new file, all builds; all fonts of both kinds as in C103 and C104", "why_tests_cant": "a claim about all font sets and all choices of their fonts, and about what all glyphs show in all builds", "anchors": ["src/compact1/font_set/mod.rs FontSet::read", "src/compact1/index/strings.rs Strings::get", "src/compact1/font_set/character_id_keyed.rs Record", "src/type2/program.rs Program::new, Program::next"]}
