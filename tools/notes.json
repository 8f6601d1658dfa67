{
 "C20": {
  "status": "partial",
  "note": "The claim is false as stated: integers above 65535 are accepted modulo 65536 (C20_string_id_lossy is a witness). C20_string_id_partial proves the rest."
 },
 "C23": {
  "status": "partial",
  "note": "False for a glyph count of zero in format 0 (witnesses C23_panics_for_no_glyphs and C23_panics_for_no_glyphs_unchecked). Proved for all other counts and formats."
 },
 "C25": {
  "status": "partial",
  "note": "False for Expert and ExpertSubset, keyed by string identifiers, and for .notdef (witnesses). Proved for ISOAdobe; for the other two C25_expert_partial and C25_expert_subset_partial tell exactly for which glyphs it holds: for the space, and where there is no name to be given."
 },
 "C28": {
  "status": "partial",
  "note": "False: the supplement is read in place of the base encoding (C28_base_lost is a witness, C28_never_base shows that it always happens). Only the empty case holds."
 },
 "C29": {
  "status": "partial",
  "note": "False when the INDEX of names and the INDEX of top dictionaries have different counts (C29_count_differs is a witness). C29_count_partial proves the rest."
 },
 "C31": {
  "status": "partial",
  "note": "False only in a build with overflow checks reading from memory, for an empty private dictionary with a negative offset (C31_negative_offset is a witness). Proved in full without overflow checks (C31_embed_unchecked) and over files (C31_embed_file), and otherwise in C31_embed_partial."
 },
 "C36": {
  "status": "partial",
  "note": "False: negative sizes and offsets, and character sets of fonts without glyphs panic (witnesses). C36_panics_partial proves that every panic has one of these causes, and C36_panic_iff_partial gives the exact condition: a panic happens if and only if the first defect of the file is one of them."
 },
 "C41": {
  "status": "partial",
  "note": "False: a first hint mask with implicit vertical stems sets the width to the last of their operands (C41_width_false is a witness), and so does endchar with the operands of an accented character. Proved for movetos, stems, masks without implicit stems and endchar with nothing but the width; C41_mask and C41_endchar say exactly what the width is in the other cases: the last operand."
 },
 "C53": {
  "status": "partial",
  "note": "False at one value: 2^31, as an f32, is accepted and used as 2^31 - 1 (C53_exact_false is a witness). Proved for all other values."
 },
 "C44": {
  "status": "partial",
  "note": "False at one value: with J = -2^31 the code panics under overflow checks (C44_least_panics) and leaves the stack unchanged without them (C44_least_ignored); C44_false refutes the full statement C44Statement. C44_roll_partial proves every other J."
 },
 "C45": {
  "status": "partial",
  "note": "C45_call proves the call in full. The part about out-of-range indices is false with overflow checks when the index exceeds 2^31 - 1 - bias (C45_far_panics is a witness: a panic instead of an error). C45_errors_partial proves the rest."
 },
 "C46": {
  "status": "partial",
  "note": "False in one corner: a body that ends with operands, called at the very end of the code (C46_false refutes the full statement C46Statement: the call ends the program, the operands in its place are an error). C46_inline_partial proves everything else, C46_nested any number of replacements. C46_last and C46_operations include the corner: what is shown is always the same, and the only difference there can be is that the program with the calls ends where the other fails."
 },
 "C48": {
  "status": "partial",
  "note": "False: code behind an endchar of the main program is executed by the following calls (C48_false). C48_stays_partial proves it whenever no code is left, C48_left that code is left only behind an endchar."
 },
 "C49": {
  "status": "partial",
  "note": "The first sentence is false: a subroutine that calls itself makes next recurse forever (C49_false). C49_diverges_iff shows that unbounded call depth is the only cause; C49_bytes, C49_no_subroutines and C49_operators prove the second sentence."
 },
 "C50": {
  "status": "partial",
  "note": "False with overflow checks (C50_false). C50_causes_partial lists all causes of panics, after any history of calls including failed ones; C50_release_partial: none without overflow checks; C71_panic_iff gives the exact condition."
 },
 "C61": {
  "status": "partial",
  "note": "False: C61_exponential has, for every n up to 214, a program of 5n + 4 bytes that takes more than 2^n activations and returns (C61_false). C61_depth says exactly how deep the recursion is for every program; C61_depth_partial bounds it by the nesting of subroutines, and C49_bytes by the number of bytes when no subroutine is entered."
 },
 "C68": {
  "status": "partial",
  "note": "False: the call after an unknown operator goes on behind it (C68_false), and with a cursor that stays in place at a failed read the tail of a cut operand is executed as code (C68_reread). C68_truncated_partial: once a program has run out of bytes, with a cursor left at the end, all later calls return None."
 },
 "C72": {
  "status": "partial",
  "note": "False as stated (C72_false, C72_false_gap, C72_false_overlap): numbers and ranges are not checked. Proved for tables that are in order and mention only existing dictionaries; format 0 always has one number per glyph."
 },
 "C73": {
  "status": "partial",
  "note": "False as stated (C73_false, C73_false_predefined): identifiers are not checked. Proved: the exact condition under which a glyph has a name, and that custom character sets have exactly one identifier per glyph."
 },
 "C74": {
  "status": "partial",
  "note": "False as stated (C74_false): the depth of calls is not limited. Proved: a run ends if and only if the depth of calls is bounded, and the number of operations is then at most |code|(L+1)^D; glyphs whose subroutines are in layers end."
 },
 "C75": {
  "status": "partial",
  "note": "False as stated (C75_false, C75_operands, C75_stems, C75_exponential): no limit is enforced. Proved: bounds on the operand stack, the stem hints and the output in terms of the size of the code and the depth of calls."
 },
 "C77": {
  "status": "partial",
  "note": "False (C77_false, and C77_amplified for how much): objects may be shared by any number of fonts and font dictionaries, each getting a copy. C77_bounded_partial bounds what is held by |file| (1 + fonts + private dictionaries), with at most 65535 fonts and as many private dictionaries in each."
 },
 "C80": {
  "status": "partial",
  "note": "False as stated: `get` gives nothing for the codes of a custom encoding (C80_custom_lost), and a font set can be read in which a code leads to two glyphs and others to glyphs that there are not (C80_ambiguous). Proved: the meaning of `get` for predefined encodings with any character set (C80_predefined), that codes and glyphs correspond one to one without repetitions in the character set (C80_one_partial), that Standard and Expert are covered by ISOAdobe and Expert (C80_covered_partial), that the names agree (C80_names_partial), and the exact conditions for custom encodings (C80_custom_iff)."
 },
 "C85": {
  "status": "partial",
  "note": "False as stated: C85_false, with C85_operands (146 bytes panic in every build with words of 32 bits) and C85_stems (170 bytes panic with overflow checks). Proved instead: a call of next, and a whole run, do the same as long as nothing exceeds the words (C85_next_partial, C85_run_partial), in particular within the limits of the Type 2 specification (C85_limits_partial) and for programs with |code|(L+1)^D at most 2^(bits-4) (C85_small_partial); and with overflow checks next panics exactly if it does anyway or something exceeds the words (C85_panic_iff). Without overflow checks the operations and widths are the same and the numbers of stem hints are modulo 2^bits as long as no mask finds them in excess (C85_wraps), and C85_mask tells how long a mask is when they are."
 },
 "C86": {
  "status": "partial",
  "note": "False as stated: C86_false, as roll iterates as often as the shift says (C86_rolling: 16 bytes and more than two billion operands moved; C86_roll in general). Proved instead: everything but rolls takes at most 7|code|(L+1)^D + D + 7 steps with calls nested D deep and subroutines of L bytes (C86_loops), hence 7(|code|+1) without subroutines and rolls (C86_plain_partial) and cubic work for glyphs of font sets with subroutines in layers (C86_glyph); what rolls can take is bounded as well (C86_moves). C86_turn and C86_ends give the exact count of operators that do not yield an operation and of the end. The count is the one of the model: C86_same shows that counting does not change anything, C86_turn that the count of silent operators is exact, and C86_loops that operations and their operands are counted."
 },
 "C87": {
  "status": "partial",
  "note": "False as stated: C87_false, with C87_amplified for how many steps there may be. Proved instead: at least held and at most 100 (n + 1) (1 + fonts + private dictionaries) steps for files of n bytes that can be read (C87_read_partial), at most 100 (n + 1) (1 + D (1 + D)) with D = min(65535, n) for any file (C87_bounded_partial), and the exact number of steps of an INDEX (C87_index). The count is the one of the model: C87_same shows that counting does not change the result, not that the count is that of a machine."
 },
 "C88": {
  "status": "partial",
  "note": "False as stated, however vectors of given lengths are read: C88_false, with C88_greedy and C88_offsets for the files. Proved instead: never more than 2^32 - 2 bytes at once, and 48 * 65535 if vectors of given lengths grow as they are read (C88_bounded_partial). What is reserved altogether, and what vectors take when they grow, is bounded by the number of steps of C87 only."
 },
 "C94": {
  "note": "All the string identifiers that character sets, encodings and records have need to lead to a string; sizes are bounded as for C62."
 },
 "C95": {
  "note": "All the string identifiers that character sets, encodings and records have need to lead to a string; sizes are bounded as for C62."
 },
 "C96": {
  "note": "All the string identifiers that character sets, encodings and records have need to lead to a string; sizes are bounded as for C62, and the new code is given, or of a size that is given."
 },
 "C98": {
  "note": "The masks of a program all have the same length, as they do if all stem hints are declared before the first mask."
 },
 "C99": {
  "note": "False as stated: neither the contents of masks nor where the vertical stems are that are declared on the side of a mask is shown (C99_false: two glyphs with the same masks). C99_same_iff proves that nothing else is lost: two glyphs show the same if and only if they differ in these only; so glyphs without masks that show the same are the same (C99_maskless_partial).",
  "status": "partial"
 }
}