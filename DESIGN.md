# A formal model of bodoni/postscript in Lean 4

## Layout

* `lean/Verif/Model/*` — the model, function by function, each definition citing
  the file and lines of `/repo` it models.
* `lean/Verif/Spec/*` — small independent specifications: encoders and layouts
  (`Bytes`, `Number`, `Float`, `Index`, `Dict`, `Strings`, `CharacterSet`, `Codes`,
  `FontSet`, `Select`, `GlyphName`, `Size`, `Footprint`, `Ends`, `Writer`, `Rewrite`,
  `Distinct`), the faults of files (`Defect`, `Seek`), the relational Type 2 machine and
  what is said about it (`Program`, `Arithmetic`, `Glyph`, `Flat`, `Showable`, `Lost`,
  `Exchange`, `Frame`, `Final`, `Fault`, `Aftermath`, `Halt`, `Limits`, `Words`, `Work`),
  what tools do to code and font sets (`Edit`, `Subset`, `Merge`, `Prune`, `Join`,
  `Recode`, `Drawings`, `Faces`, `Collections`, `Mixed`, `Renumber`, `Uncalled`, `Outline`, `OutlineSet`, `Remask`,
  `RemaskSet`), orders and comparisons of numbers, builds and sources (`Order`,
  `Compare`, `Agree`, `Source`), and the notation `tape` (`Tape`). They use the data
  types of the model, not its functions, except for `Next` (a call of `next` that
  returns), in which histories and runs of programs are expressed.
* `lean/Verif/Lemmas/*` — helper lemmas.
* `lean/Verif/Props/*` — the property theorems, with `example`s showing that
  their hypotheses are met by concrete non-trivial cases.
* `properties.jsonl`, `MANIFEST.json`, `seeded/LOG.jsonl`.
* `tools/*` — `register.py` and `manifest.py` keep the lists current; `seed.py` builds
  the project with edited models; `refute.py` proves, for an edited model, the negation
  of a property theorem from a concrete input, so that the theorem itself (not just its
  proof) is seen to fail; `mutate.py` makes small edits everywhere in the model and
  reports those that no proof notices.

## How the code is modelled

**Tapes.** Every reader is generic over `tape::Read`. A tape is modelled as an
immutable byte string plus a position; a reader is a function
`Env → position → Result × position` (`Rd`), so the position after an *error* is
part of the model as well. `?` is the monadic bind. Errors keep their kind
(`UnexpectedEof`, seek failure, `raise!` with its site); panics are explicit
values (`Res.panic`), never totalised away.

**Parameters of the environment** (`Config`, universally quantified in the
theorems): overflow checks on/off (debug/release), whether `Vec` reading
reserves memory up front, the largest seekable position (Cursor: 2^64-1, File:
2^63-1), and where a failed `read_exact` leaves the position (an arbitrary
function, as it differs among `File` and versions of `Cursor`).

**Loops.** `for` loops are structural recursions. `loop`/`while` loops take fuel
computed from the tape length or the glyph count; running out of fuel is a
distinguished value `Panic.fuel` that theorems prove unreachable. The recursion
of `Program::next` is genuinely unbounded: `nextFuel n` is `none` when `n`
activations do not suffice; `Next` (returns) and `Diverges` quantify over fuel.

**f32.** binary32 is modelled exactly (`Model/F32.lean`): every operation is the
exact rational result rounded to nearest, ties to even; conversions truncate and
saturate as in Rust. NaN payloads are not modelled.

**HashMap.** `Operations` is the lookup function of the map (iteration order is
unspecified in Rust and not used by the crate).

## Trusted base

* Lean's kernel; axioms at most `propext`, `Classical.choice`, `Quot.sound`
  (checked with `#print axioms` on every property theorem). No axiom of our own, no `sorry`,
  no `native_decide`/`bv_decide`.
* The reading of the Rust source (no code was run). As a fidelity check the
  executable model was run on the two fixtures present in the repository and
  reproduces the values asserted in `tests/compact1.rs` and `tests/type2.rs`
  (header, names, all dictionaries, string and subroutine counts, the full
  operation lists of both sample glyphs, the width, and error-free execution of
  all glyphs). This is a test, not part of any proof. What of it the kernel can check in seconds
  is in `Verif/Tests/Fixtures.lean`, generated by `tools/fixtures.py`: the unit tests in `src`, the
  header, name and dictionaries of SourceSerifPro, and both sample glyphs with all subroutines.
* Assumptions about code outside the repository:
  * `typeface` (source not available): `take` of integers is big-endian
    `read_exact`; `table!` reads its fields in order and rejects a field
    `= { value }` that differs; `take_given(n)` for `Vec` reads `n` elements one
    by one; `peek` restores the position also on error; `jump_take!` and
    `jump_take_given!` seek to `position + offset as u64`; `raise!` returns an
    `io::Error` of kind `Other`; `q32` is a big-endian 16.16 number whose
    conversion to `f32` is correctly rounded.
  * the standard library: `str::parse::<f32>` accepts its documented grammar and
    is correctly rounded (its implementation stops reading an exponent beyond
    65536, which by `C04_great_exponents` makes no difference unless the mantissa
    has tens of thousands of digits); `String::from_utf8(_lossy)` as documented (maximal
    subparts); `HashMap`, `Vec`; IEEE 754 arithmetic of `f32` including `sqrt`;
    saturating `as` casts.
* Not modelled: I/O errors other than end of file and rejected seeks, except in `Model/Source.lean`
  (any failure of a read or seek, short reads and interruptions; there `peek` asks for the position,
  reads, and seeks back also after an error); memory
  exhaustion below `isize::MAX`; native stack overflow by deep recursion of
  `next`; running time (but see `Model/Work.lean` for the number of steps of programs and `Model/Metered.lean` for that of reading); texts of error messages; `usize` overflow of counters
  that need more than 2^60 bytes of input (`found_count`), or that many steps (`stems`, but see
  `Model/Words.lean`); targets other than 64-bit ones, except by `Model/Narrow.lean` (font sets)
  and `Model/Words.lean` (programs); `Debug`/`Clone` derives (for those of equality and order see `Model/Compare.lean`); the empty module `type1`.

## Plan per property

| id | model | proof |
|---|---|---|
| C01–C03 | `Number.read` | encoder relation in `Spec`; case analysis on the lead byte; `omega` |
| C04–C05 | `Number.parse`, `parseF32`, `F32.round` | nibble packer as spec, induction on the text; grammar as an inductive spec; rounding proved nearest-even over ℚ |
| C06 | `readOffset` | big-endian spec |
| C07–C09 | `Index.read` | serialiser as spec; induction on the list of strings / offsets |
| C10–C13 | `Operations.read` | operation serialiser as spec; induction on the sequence; fuel adequacy |
| C14–C15 | `Operator.default`, `Operator.from` | spec tables; finite table lifted to all codes |
| C16 | `Index.toOperations` | induction |
| C17–C18 | `getString`, standard table | finite table by kernel computation, lifted |
| C19 | `Utf8` | decode ∘ encode for every `Char`, induction on the text |
| C20 | `stringIDOfNumber` | false of the code above 65535: negation plus partial |
| C21–C23 | `CharacterSet.read` | loop invariant; round trip; C23 false for 0 glyphs in format 0: negation plus partial |
| C24–C26 | built-in tables | kernel computation over the whole tables; C25 false for Expert sets: negation plus partial |
| C27–C28 | `Encoding.read` | round trips; C28 false: negation plus partial |
| C29–C36 | `FontSet.read` and its parts | composition of the reader lemmas; C29 and C36 false in corner cases: negation plus partial; `C36_panic_iff_partial` has the exact condition, from C76 |
| C37–C38 | `Type2.readNumber`, `Operator.from` | as C01, exactness of `F32.ofInt` |
| C39 | `clear`, `reduce` | operand-count grammar as spec, `reduce` computes the least remainder |
| C40–C41 | `step`, `nextFuel` | invariant over all histories; C41 false: negation plus partial |
| C42 | `step` | ghost history of hint operators |
| C43–C45 | `dispatch` | symbolic execution; roll = rotation by induction |
| C46 | `nextFuel` | simulation between the calling and the inlined program; in the corner left (operands at the very end) both runs are followed to their ends |
| C47–C48 | `unwind`, `nextFuel` | induction on the call stack; C48 false: negation plus partial |
| C49 | `nextFuel` | measure for call-free code; C49 false with recursion: divergence witness plus partial |
| C50 | `step` | exact characterisation of the two overflow sites: negation plus partial |
| C51–C52 | `step` | locality of reads |
| C53 | `popInt` | exact arithmetic; false at 2^31: negation plus partial |
| C54 | `nextFuel` | equivalence with the relational machine of `Spec/Program.lean`: `step` by cases, `next` by induction on the fuel |
| C55 | `nextFuel` | writer relation `Glyph.Bytes` as spec; induction on the items through C54 |
| C56 | `FontSet.read`, `Program.new` | sizes of what C32 locates; `Sound` of C54 |
| C57–C59 | `FontSet.read`, `FontSet.count`, `step` | one relation on pairs of outcomes, closed under bind, through every reader (`Lemmas/Agree.lean`) |
| C60 | `FontSet.read`, `nextFuel` | a writer (`Spec/Writer.lean`) whose output is laid out as C32 asks; C55 for the glyphs |
| C61 | `nextFuel` | number of turns of the machine; false: subroutines that call the next one twice; negation plus exact depth and a bound by nesting |
| C62 | `FontSet.read` | a description built from the layout of C32, with bounds on its size; C60 |
| C63 | `FontSet.read` | the layout of C32: every INDEX sits in the file, its items are pieces of it |
| C64 | `nextFuel` | every emission of the machine (C54) repeated with its operands written out; flat strings show only what is written; the nearest binary32 numbers to the 16.16 numbers are the multiples of 2^-16 |
| C65 | `nextFuel` | fragments executed completely compose (`run_consumes`); two programs with the same view run the same |
| C66 | `nextFuel` | simulation of the machine of C54 with more subroutines: a turn into a blank body is stuck |
| C67 | `nextFuel` | each silent step can be made above further operands (`frame_turns`); composed with C65 |
| C68 | `nextFuel`, `Rd.readExact` | false: an unknown operator is skipped (`C68_false`); `_partial` for running out of bytes when the cursor is left at the end |
| C69 | `Number.read`, `Type2.readNumber`, `F32` | rounding to nearest is monotone (`nearest_mono`), through C07 and C37 |
| C70 | `Operations.read` | every binary32 number is a finite decimal; the operators are finitely many |
| C71 | `nextFuel`, `dispatch` | every fault makes `dispatch` fail with its error; an operator without fault succeeds; turns of the machine lead there |
| C72 | FDSelect as a relation between glyphs and numbers (Spec/Select.lean), for font sets that were read (C32) | false in three ways, each with a font set written as in C60: a number that does not exist, a gap, an overlap; proved for tables in order, which give one dictionary to exactly the glyphs of the font |
| C73 | the identifiers of the glyphs by index (Spec/GlyphName.lean), for font sets that were read (C32), and the lookup of C17 | false in two ways, with font sets written as in C60: an identifier without a string, more glyphs than a predefined character set has; a glyph has a name if and only if its identifier is below 391 and the number of strings together, and custom character sets have one identifier for each glyph |
| C74 | whole runs of a program (Run), for the glyphs of font sets that were read (C32) | false: a font set written as in C60 whose subroutine calls itself; the run ends if and only if the depth of calls is bounded, by a weight that each operator decreases; subroutines in layers bound the depth and the number of operations |
| C75 | the states of the machine that are reached (Executes), and the size of what is shown (Spec/Limits.lean) | false: any number of operands, stem hints and nested calls is accepted, and with subroutines the output can be exponential; bounded by |code|(L+1)^D with calls nested D deep, and by |code| without subroutines, by the same weight as C74 with the operand stack added |
| C76 | Spec/Defect.lean gives, for each structure of a file, an inductive relation between files and failures with one constructor per defect; nothing in it mentions a reader | each reader is shown to fail exactly as its relation says (Lemmas/Defect, DefectFont, DefectTables), composing readers of fixed width, readers whose results are known exactly and readers that do not depend on the position; with C32 the defects and the layouts exclude each other and exhaust all files |
| C77 | `FontSet.read`; the measure `held` in `Spec/Size.lean` counts the bytes of all objects | false: `C77_amplified` builds, for any numbers, files of `41 k + 15 d + m + 44` bytes that hold `k d m` bytes; `C77_bounded_partial` bounds everything by the size of the file, the number of fonts and the number of private dictionaries |
| C78 | `FontSet.read`; `Part`, `Occupied` in `Spec/Footprint` | through the layout of C32: the parts of a layout can be carried over to another file; positions and bytes of parts are unique |
| C79 | `FontSet.read`, the writer of C60 | the description of C62 edited; its size does not grow by more than the new character string; read back by C60, and run by C55 |
| C80 | `Encoding.get`, `CharacterSet.get`, `Index.getString`, `FontSet.read` | false: custom encodings answer nothing, and may be ambiguous or too long; proved for predefined ones, with the exact condition for custom ones |
| C81 | `Narrow.readFontSet` (Model/Narrow.lean): the readers that depend on the width of `usize`, with 32 bits | a relation between the two families of readers, closed under bind: equal, or end of file against a panic; reading more than there is fails in the same way however much it is (`replicate_beyond`) |
| C82 | the codes before and after are compared piece by piece (operands, operators, masks, calls) by an inductive relation; a simulation between states of the machine of C54 that is its own converse; induction on runs; for the selections the new code is built piece by piece |
| C83 | `GlyphsKept` compares two font sets part by part: picked character strings and identifiers, the same codes leading to the corresponding glyphs (`Leads`), the same dictionaries (`Selects`). Proved by editing the description that C62 gives of the font set (format 0 tables for the chosen glyphs) and reading it back with C60; `Shows` runs a glyph with its own local subroutines. |
| C84 | simulation between a machine and the one with the other tables, along the calls that are come to (`CallsGlobal`, `CallsLocal`); at the level of files, the definition of C62 with emptied subroutines is shorter, hence valid, and is written and read back with C60 |
| C85 | `Words.Next` (Model/Words.lean): `next` with the width of words as a parameter | equal to `next` step by step as long as nothing `Exceeds` the words (Spec/Words.lean), else a panic; the limits of the Type 2 specification and C75's bound keep programs within the words; without overflow checks the number of stem hints wraps around, which only masks look at (Lemmas/Wrap.lean); towers of subroutines that call the next one twice refute the full statement |
| C86 | `Timed.Next` (Model/Work.lean): `next` with a count of activations, iterations of loops and operands moved | erasing the count gives `next` (C86_same); the count of silent operators is exact (C86_turn), that of everything else is bounded by a potential, 2·stack + 7·weight, with the weight of C74; `roll` by a great shift refutes the full statement |
| C87 | `Metered.readFontSet` (Model/Metered.lean): all readers with loops again, with a count of steps and of memory reserved | erasing the count gives `FontSet.read` (C87_same); the steps of each reader are charged to bytes of the file that it consumes, 16 for each (`Pays`), and shared parts are counted for each font and private dictionary (`Tally`); the files of C77 refute the full statement |
| C88 | `Metered.readFontSet` (Model/Metered.lean): the same with the greatest number of bytes reserved at once | by induction over the readers (`Fits`), using that offsets are 32-bit and that the first one is 1, and that integers of dictionaries are 32-bit; two files refute the full statement, one of them reaching the bound |
| C89 | the readers again on a source of which each answer to a read or a seek comes from a list (Model/Source.lean); `read_exact` is the loop of the standard library | a relation to the readers on tapes (`Follows`) is preserved by sequencing and holds for each reader, by induction on the answers for `read_exact`; where the position is left at the end of file is shown not to matter |
| C90 | `FontSet.read` with the position it ends at; `Ends` (Spec/Ends.lean) is the end of the last record in terms of the layout of C32 | the position follows the sequence of reads and jumps; it is determined by the layout, so that the equivalence of C32 extends to it; the writer of C60 puts the record of each font last |
| C91 | readers and Type 2 machine as before; the definition of a font set (C62) with other code, `Recoded`, `RenumberedCode`, `Flattened` | the size of what the writer gives is bounded by that of the old definition and that of the new code; C60 reads it back; C82 and C64 for each glyph, with the local subroutines that FDSelect gives it |
| C92 | `Model/Compare.lean`: the derived and inherited comparisons | C70 excludes NaN from what is read; both directions of C69 give equality of values; a counting argument turns the comparison of maps by number of entries into one by operators; lexicographic order of big-endian numbers by induction; C64 for programs without escapes |
| C93 | Spec/Aftermath: `LeftBehind` and `leftover`, a table of what each operator leaves if it cannot be executed; `Responds`, `Replies` for operations, ends and errors together | by cases over all the faults of C71, with the exact state of the program; then induction over the calls |
| C94 | Spec/Merge: `Renaming`, `MovedFont`, `Merged`, `Preserved`, with what a user sees (`Shows`, `GlyphNamed`, `CodeLeads`, `Collection`, `DictString`) | a writer for fonts with other identifiers: dictionaries operand by operand, sets and supplements by elements; then C60 for the file, and by the identifiers for what fonts do |
| C95 | the renaming of string identifiers that a choice of strings leads to (Spec/Prune.lean) | an instance of C94: it keeps standard identifiers, makes no two one, and leads to the same strings; what is chosen is not larger than what there was |
| C96 | the composition of new code (C91) and merging (C94) on descriptions of font sets (Spec/Join.lean) | the description of a font set that was read gets the new code and is valid and in what is read from it; two such descriptions are merged as for C94; what C91 and C94 say of runs, names and codes is composed |
| C97 | `Outlined` (Spec/Outline) relates the two forms of the code token by token, a fragment to a call of a subroutine that has it; nothing is said about executions | simulation in one direction: the machine on the other side makes calls and returns until both are at the same token; the stacks of callers are related frame by frame (`Frames`). The other direction from determinism, and from C49 for executions that do not end: if one side goes on for ever its depth grows, and with it that of the other |
| C98 | `Remasked` (Spec/Remask) relates the two forms of the code token by token; `RemaskedCode` (Spec/RemaskSet) the code of font sets; nothing is said about executions | simulation (`Alike`), which is symmetric, so that one direction gives the other; for runs that end the lengths of masks are those shown (`ended_masks`). Font sets by C91 |
| C99 | `Indistinct` (Spec/Lost): instructions that differ in the contents of a mask and in the positions, not the number, of the vertical stems declared on its side; glyphs as in C55 | false as stated: a witness (`C99_false`). By C55 what is shown is `seen`, which is inverted by induction on the instructions, so that exactly `Indistinct` glyphs show the same |
| C100 | `FontSetDef` and `write` of Spec/Writer, `Same` of Spec/Distinct: the things two font sets are made of, part by part; the contents that are compared are those of C62 | from the round trip C60, part by part: each part of what is read determines the part it was written from; two dictionaries agree as maps iff the last operations of their operators agree |
| C101 | `Showable` (Spec/Showable): the order of operations, without code, stack or subroutines; `Run` of Spec/Program | both directions: by induction on the run, from the transitions of the machine (C40); and by induction on the list a program is built, in which each number is computed by doubling and halving integers (`computes_any`), the infinities and NaN by division. Font sets by C91 |
| C102 | `Drawable`, `Present` (Spec/Drawings); `Recoded` of Spec/Recode, `Comes` of Spec/Showable | a character string for each drawing by C101, and a file for these by C91; the converse from C101 by the soundness of the programs of a font set (C56) |
| C103 | `Drawing`, `Face`, `FacesFit`, `FaceIn` (Spec/Faces), on `Drawable` of Spec/Drawings and the writer of Spec/Writer | code for each drawing by C101, identifiers from 391 on for the names of glyphs and the texts (Lemmas/Texts), the round trip of the writer (C60), and the lookup of strings (C73); the converse from the layout (C32) and C102 |
| C104 | `CidFace`, `CollectionsFit`, `CollectionIn` (Spec/Collections), `NamedBy` (Spec/Faces), on `Drawable`, `Comes`, `Selects` and the writer of Spec/Writer | as C103, with two strings and the texts for each font and an FDSelect of format 0; the converse from the layout (C32) and C102 |
| C105 | `AnyFace`, `MixedFit`, `Whole`, `Alike` (Spec/Mixed), on Spec/Faces and Spec/Collections | the lemmas of C103 and C104 for one font in any font set that has its strings, with the strings of the fonts one after another; the converse font by font from C103 and C104; fonts told apart by the lookups that they share |
| C106 | `SameContents` (Spec/Rewrite), `AnyFace` (Spec/Mixed), the statement of C79 for what is chosen | a font whose parts agree with those of another, apart from where they are, is the same one in the sense of C103 and C104; for what glyphs show, local subroutines that agree as lists of bytes, or the statements of C97 and C98 for code that is different; with C62 and C79 |
