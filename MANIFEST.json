{
 "claims": [
  {
   "property": "C01",
   "status": "proved",
   "theorems": [
    "PS.C01_dict_integer_round_trip",
    "PS.C01_dict_integer_encoder"
   ],
   "note": ""
  },
  {
   "property": "C02",
   "status": "proved",
   "theorems": [
    "PS.C02_dict_integer_sound",
    "PS.C02_dict_number_no_panic"
   ],
   "note": ""
  },
  {
   "property": "C03",
   "status": "proved",
   "theorems": [
    "PS.C03_reserved_lead_byte",
    "PS.C03_truncated_integer",
    "PS.C03_truncated_number"
   ],
   "note": ""
  },
  {
   "property": "C04",
   "status": "proved",
   "theorems": [
    "PS.C04_real_correctly_rounded",
    "PS.C04_nearest_unique",
    "PS.C04_every_literal_packs",
    "PS.C04_overflow",
    "PS.C04_underflow",
    "PS.C04_great_exponents"
   ],
   "note": ""
  },
  {
   "property": "C05",
   "status": "proved",
   "theorems": [
    "PS.C05_real_sound",
    "PS.C05_not_a_literal",
    "PS.C05_reserved_nibble",
    "PS.C05_number_total"
   ],
   "note": ""
  },
  {
   "property": "C06",
   "status": "proved",
   "theorems": [
    "PS.C06_offset_big_endian",
    "PS.C06_offset_bad_size",
    "PS.C06_offset_write_back"
   ],
   "note": ""
  },
  {
   "property": "C07",
   "status": "proved",
   "theorems": [
    "PS.C07_index_round_trip"
   ],
   "note": ""
  },
  {
   "property": "C08",
   "status": "proved",
   "theorems": [
    "PS.C08_index_sound",
    "PS.C08_index_slices"
   ],
   "note": ""
  },
  {
   "property": "C09",
   "status": "proved",
   "theorems": [
    "PS.C09_index_total",
    "PS.C09_index_bad_offsets",
    "PS.C09_index_bad_width",
    "PS.C09_index_truncated"
   ],
   "note": ""
  },
  {
   "property": "C10",
   "status": "proved",
   "theorems": [
    "PS.C10_dict_last_write_wins",
    "PS.C10_concatenation"
   ],
   "note": ""
  },
  {
   "property": "C11",
   "status": "proved",
   "theorems": [
    "PS.C11_dict_order_irrelevant"
   ],
   "note": ""
  },
  {
   "property": "C12",
   "status": "proved",
   "theorems": [
    "PS.C12_dict_truncated"
   ],
   "note": ""
  },
  {
   "property": "C13",
   "status": "proved",
   "theorems": [
    "PS.C13_dict_total",
    "PS.C13_dict_accepted_iff",
    "PS.C13_dict_malformed_iff",
    "PS.C13_dict_unknown_iff",
    "PS.C13_operation_progress"
   ],
   "note": ""
  },
  {
   "property": "C14",
   "status": "proved",
   "theorems": [
    "PS.C14_get_stored",
    "PS.C14_get_default",
    "PS.C14_get_single",
    "PS.C14_get_double",
    "PS.C14_get_read"
   ],
   "note": ""
  },
  {
   "property": "C15",
   "status": "proved",
   "theorems": [
    "PS.C15_operator_iff",
    "PS.C15_operator_unknown",
    "PS.C15_operator_injective",
    "PS.C15_operator_surjective"
   ],
   "note": ""
  },
  {
   "property": "C16",
   "status": "proved",
   "theorems": [
    "PS.C16_dictionaries_entrywise",
    "PS.C16_dictionaries_first_error",
    "PS.C16_dictionaries_no_panic"
   ],
   "note": ""
  },
  {
   "property": "C17",
   "status": "proved",
   "theorems": [
    "PS.C17_standard",
    "PS.C17_custom",
    "PS.C17_reachable",
    "PS.C17_only"
   ],
   "note": ""
  },
  {
   "property": "C18",
   "status": "proved",
   "theorems": [
    "PS.C18_standard_strings",
    "PS.C18_standard_complete",
    "PS.C18_standard_unambiguous"
   ],
   "note": ""
  },
  {
   "property": "C19",
   "status": "proved",
   "theorems": [
    "PS.C19_utf8_exact",
    "PS.C19_utf8_strict",
    "PS.C19_utf8_lossy",
    "PS.C19_names"
   ],
   "note": ""
  },
  {
   "property": "C20",
   "status": "partial",
   "theorems": [
    "PS.C20_string_id_lossy",
    "PS.C20_string_id_partial"
   ],
   "note": "The claim is false as stated: integers above 65535 are accepted modulo 65536 (C20_string_id_lossy is a witness). C20_string_id_partial proves the rest."
  },
  {
   "property": "C21",
   "status": "proved",
   "theorems": [
    "PS.C21_cover",
    "PS.C21_overshoot"
   ],
   "note": ""
  },
  {
   "property": "C22",
   "status": "proved",
   "theorems": [
    "PS.C22_character_set_round_trip"
   ],
   "note": ""
  },
  {
   "property": "C23",
   "status": "partial",
   "theorems": [
    "PS.C23_panics_for_no_glyphs",
    "PS.C23_panics_for_no_glyphs_unchecked",
    "PS.C23_no_panic_partial",
    "PS.C23_no_glyphs_partial"
   ],
   "note": "False for a glyph count of zero in format 0 (witnesses C23_panics_for_no_glyphs and C23_panics_for_no_glyphs_unchecked). Proved for all other counts and formats."
  },
  {
   "property": "C24",
   "status": "proved",
   "theorems": [
    "PS.C24_iso_adobe",
    "PS.C24_expert",
    "PS.C24_expert_subset",
    "PS.C24_subset_agrees",
    "PS.C24_custom"
   ],
   "note": ""
  },
  {
   "property": "C25",
   "status": "partial",
   "theorems": [
    "PS.C25_expert_not_indexed",
    "PS.C25_expert_wrong_name",
    "PS.C25_notdef",
    "PS.C25_iso_adobe_partial",
    "PS.C25_expert_partial",
    "PS.C25_expert_subset_partial"
   ],
   "note": "False for Expert and ExpertSubset, keyed by string identifiers, and for .notdef (witnesses). Proved for ISOAdobe; for the other two C25_expert_partial and C25_expert_subset_partial tell exactly for which glyphs it holds: for the space, and where there is no name to be given."
  },
  {
   "property": "C26",
   "status": "proved",
   "theorems": [
    "PS.C26_encodings",
    "PS.C26_total",
    "PS.C26_standard_strings",
    "PS.C26_names",
    "PS.C26_unambiguous",
    "PS.C26_custom"
   ],
   "note": ""
  },
  {
   "property": "C27",
   "status": "proved",
   "theorems": [
    "PS.C27_encoding_round_trip",
    "PS.C27_encoding_exact",
    "PS.C27_encoding_formats",
    "PS.C27_encoding_total"
   ],
   "note": ""
  },
  {
   "property": "C28",
   "status": "partial",
   "theorems": [
    "PS.C28_base_lost",
    "PS.C28_never_base",
    "PS.C28_empty_base_partial"
   ],
   "note": "False: the supplement is read in place of the base encoding (C28_base_lost is a witness, C28_never_base shows that it always happens). Only the empty case holds."
  },
  {
   "property": "C29",
   "status": "partial",
   "theorems": [
    "PS.C29_count_differs",
    "PS.C29_count_partial"
   ],
   "note": "False when the INDEX of names and the INDEX of top dictionaries have different counts (C29_count_differs is a witness). C29_count_partial proves the rest."
  },
  {
   "property": "C30",
   "status": "proved",
   "theorems": [
    "PS.C30_parallel",
    "PS.C30_determined"
   ],
   "note": ""
  },
  {
   "property": "C31",
   "status": "partial",
   "theorems": [
    "PS.C31_embed_unchecked",
    "PS.C31_embed_file",
    "PS.C31_negative_offset",
    "PS.C31_embed_partial"
   ],
   "note": "False only in a build with overflow checks reading from memory, for an empty private dictionary with a negative offset (C31_negative_offset is a witness). Proved in full without overflow checks (C31_embed_unchecked) and over files (C31_embed_file), and otherwise in C31_embed_partial."
  },
  {
   "property": "C32",
   "status": "proved",
   "theorems": [
    "PS.C32_layout",
    "PS.C32_layout_iff",
    "PS.C32_layout_only"
   ],
   "note": ""
  },
  {
   "property": "C33",
   "status": "proved",
   "theorems": [
    "PS.C33_kind",
    "PS.C33_private_required",
    "PS.C33_character_strings_required",
    "PS.C33_ros_malformed",
    "PS.C33_select_required",
    "PS.C33_array_required"
   ],
   "note": ""
  },
  {
   "property": "C34",
   "status": "proved",
   "theorems": [
    "PS.C34_records",
    "PS.C34_iff"
   ],
   "note": ""
  },
  {
   "property": "C35",
   "status": "proved",
   "theorems": [
    "PS.C35_round_trip",
    "PS.C35_exact",
    "PS.C35_unknown_format",
    "PS.C35_total"
   ],
   "note": ""
  },
  {
   "property": "C36",
   "status": "partial",
   "theorems": [
    "PS.C36_panic_iff_partial",
    "PS.C36_panics_for_negative_size",
    "PS.C36_panics_for_no_glyphs",
    "PS.C36_panics_for_negative_offset",
    "PS.C36_panics_partial",
    "PS.C36_unchecked_partial"
   ],
   "note": "False: negative sizes and offsets, and character sets of fonts without glyphs panic (witnesses). C36_panics_partial proves that every panic has one of these causes, and C36_panic_iff_partial gives the exact condition: a panic happens if and only if the first defect of the file is one of them."
  },
  {
   "property": "C37",
   "status": "proved",
   "theorems": [
    "PS.Type2.C37_operand_iff",
    "PS.Type2.C37_integers_round_trip",
    "PS.Type2.C37_fixed_round_trip",
    "PS.Type2.C37_fixed_exact"
   ],
   "note": ""
  },
  {
   "property": "C38",
   "status": "proved",
   "theorems": [
    "PS.Type2.C38_codes",
    "PS.Type2.C38_injective",
    "PS.Type2.C38_disjoint",
    "PS.Type2.C38_reserved_fail",
    "PS.Type2.C38_unsupported_fail"
   ],
   "note": ""
  },
  {
   "property": "C39",
   "status": "proved",
   "theorems": [
    "PS.Type2.C39_longest",
    "PS.Type2.C39_fails_iff"
   ],
   "note": ""
  },
  {
   "property": "C40",
   "status": "proved",
   "theorems": [
    "PS.Type2.C40_width_stays",
    "PS.Type2.C40_width_error",
    "PS.Type2.C40_width_operation",
    "PS.Type2.C40_width_end",
    "PS.Type2.C40_width_new"
   ],
   "note": ""
  },
  {
   "property": "C41",
   "status": "partial",
   "theorems": [
    "PS.Type2.C41_width_false",
    "PS.Type2.C41_width_partial",
    "PS.Type2.C41_endchar_partial",
    "PS.Type2.C41_mask",
    "PS.Type2.C41_endchar"
   ],
   "note": "False: a first hint mask with implicit vertical stems sets the width to the last of their operands (C41_width_false is a witness), and so does endchar with the operands of an accented character. Proved for movetos, stems, masks without implicit stems and endchar with nothing but the width; C41_mask and C41_endchar say exactly what the width is in the other cases: the last operand."
  },
  {
   "property": "C42",
   "status": "proved",
   "theorems": [
    "PS.Type2.C42_mask_skipped",
    "PS.Type2.C42_mask_ignored"
   ],
   "note": ""
  },
  {
   "property": "C43",
   "status": "proved",
   "theorems": [
    "PS.Type2.C43_fewer",
    "PS.Type2.C43_effect",
    "PS.Type2.C43_too_few",
    "PS.Type2.C43_defined",
    "PS.Type2.C43_fails"
   ],
   "note": ""
  },
  {
   "property": "C44",
   "status": "partial",
   "theorems": [
    "PS.Type2.C44_roll_partial",
    "PS.Type2.C44_rolled",
    "PS.Type2.C44_inverse",
    "PS.Type2.C44_errors",
    "PS.Type2.C44_least_ignored",
    "PS.Type2.C44_least_panics",
    "PS.Type2.C44_false"
   ],
   "note": "False at one value: with J = -2^31 the code panics under overflow checks (C44_least_panics) and leaves the stack unchanged without them (C44_least_ignored); C44_false refutes the full statement C44Statement. C44_roll_partial proves every other J."
  },
  {
   "property": "C45",
   "status": "partial",
   "theorems": [
    "PS.Type2.C45_call",
    "PS.Type2.C45_errors_partial",
    "PS.Type2.C45_far_panics"
   ],
   "note": "C45_call proves the call in full. The part about out-of-range indices is false with overflow checks when the index exceeds 2^31 - 1 - bias (C45_far_panics is a witness: a panic instead of an error). C45_errors_partial proves the rest."
  },
  {
   "property": "C46",
   "status": "partial",
   "theorems": [
    "PS.Type2.C46_last",
    "PS.Type2.C46_operations",
    "PS.Type2.C46_inline_partial",
    "PS.Type2.C46_nested",
    "PS.Type2.C46_false"
   ],
   "note": "False in one corner: a body that ends with operands, called at the very end of the code (C46_false refutes the full statement C46Statement: the call ends the program, the operands in its place are an error). C46_inline_partial proves everything else, C46_nested any number of replacements. C46_last and C46_operations include the corner: what is shown is always the same, and the only difference there can be is that the program with the calls ends where the other fails."
  },
  {
   "property": "C47",
   "status": "proved",
   "theorems": [
    "PS.Type2.C47_main",
    "PS.Type2.C47_subroutine"
   ],
   "note": ""
  },
  {
   "property": "C48",
   "status": "partial",
   "theorems": [
    "PS.Type2.C48_false",
    "PS.Type2.C48_stays_partial",
    "PS.Type2.C48_left"
   ],
   "note": "False: code behind an endchar of the main program is executed by the following calls (C48_false). C48_stays_partial proves it whenever no code is left, C48_left that code is left only behind an endchar."
  },
  {
   "property": "C49",
   "status": "partial",
   "theorems": [
    "PS.Type2.C49_diverges_iff",
    "PS.Type2.C49_bytes",
    "PS.Type2.C49_no_subroutines",
    "PS.Type2.C49_operators",
    "PS.Type2.C49_false"
   ],
   "note": "The first sentence is false: a subroutine that calls itself makes next recurse forever (C49_false). C49_diverges_iff shows that unbounded call depth is the only cause; C49_bytes, C49_no_subroutines and C49_operators prove the second sentence."
  },
  {
   "property": "C50",
   "status": "partial",
   "theorems": [
    "PS.Type2.C50_false",
    "PS.Type2.C50_causes_partial",
    "PS.Type2.C50_release_partial"
   ],
   "note": "False with overflow checks (C50_false). C50_causes_partial lists all causes of panics, after any history of calls including failed ones; C50_release_partial: none without overflow checks; C71_panic_iff gives the exact condition."
  },
  {
   "property": "C51",
   "status": "proved",
   "theorems": [
    "PS.Type2.C51_eof_iff",
    "PS.Type2.C51_present"
   ],
   "note": ""
  },
  {
   "property": "C52",
   "status": "proved",
   "theorems": [
    "PS.Type2.C52_compose",
    "PS.Type2.C52_operations",
    "PS.Type2.C52_prefix"
   ],
   "note": ""
  },
  {
   "property": "C53",
   "status": "partial",
   "theorems": [
    "PS.Type2.C53_integer_argument_partial",
    "PS.Type2.C53_rejected_partial",
    "PS.Type2.C53_exact_false"
   ],
   "note": "False at one value: 2^31, as an f32, is accepted and used as 2^31 - 1 (C53_exact_false is a witness). Proved for all other values."
  },
  {
   "property": "C54",
   "status": "proved",
   "theorems": [
    "PS.Type2.C54_new",
    "PS.Type2.C54_operation_iff",
    "PS.Type2.C54_end_iff",
    "PS.Type2.C54_deterministic",
    "PS.Type2.C54_failure_iff"
   ],
   "note": ""
  },
  {
   "property": "C55",
   "status": "proved",
   "theorems": [
    "PS.Type2.C55_glyph",
    "PS.Type2.C55_writable"
   ],
   "note": ""
  },
  {
   "property": "C56",
   "status": "proved",
   "theorems": [
    "PS.C56_programs_sound"
   ],
   "note": ""
  },
  {
   "property": "C57",
   "status": "proved",
   "theorems": [
    "PS.C57_truncation",
    "PS.C57_trailing_bytes",
    "PS.C57_count_truncation"
   ],
   "note": ""
  },
  {
   "property": "C58",
   "status": "proved",
   "theorems": [
    "PS.C58_builds_agree",
    "PS.C58_count_agree",
    "PS.C58_next_agree"
   ],
   "note": ""
  },
  {
   "property": "C59",
   "status": "proved",
   "theorems": [
    "PS.C59_relocation",
    "PS.C59_count_relocation",
    "PS.C59_seek"
   ],
   "note": ""
  },
  {
   "property": "C60",
   "status": "proved",
   "theorems": [
    "PS.C60_round_trip",
    "PS.C60_same",
    "PS.C60_glyphs"
   ],
   "note": ""
  },
  {
   "property": "C61",
   "status": "partial",
   "theorems": [
    "PS.Type2.C61_depth",
    "PS.Type2.C61_depth_partial",
    "PS.Type2.C61_exponential",
    "PS.Type2.C61_false"
   ],
   "note": "False: C61_exponential has, for every n up to 214, a program of 5n + 4 bytes that takes more than 2^n activations and returns (C61_false). C61_depth says exactly how deep the recursion is for every program; C61_depth_partial bounds it by the nesting of subroutines, and C49_bytes by the number of bytes when no subroutine is entered."
  },
  {
   "property": "C62",
   "status": "proved",
   "theorems": [
    "PS.C62_described",
    "PS.C62_rewrite"
   ],
   "note": ""
  },
  {
   "property": "C63",
   "status": "proved",
   "theorems": [
    "PS.C63_pieces",
    "PS.C63_bounded"
   ],
   "note": ""
  },
  {
   "property": "C64",
   "status": "proved",
   "theorems": [
    "PS.Type2.C64_flatten",
    "PS.Type2.C64_only",
    "PS.Type2.C64_iff",
    "PS.Type2.C64_subroutines",
    "PS.Type2.C64_not_always",
    "PS.Type2.C64_writable",
    "PS.Type2.C64_iff_fixed"
   ],
   "note": ""
  },
  {
   "property": "C65",
   "status": "proved",
   "theorems": [
    "PS.Type2.C65_exchange",
    "PS.Type2.C65_operands",
    "PS.Type2.C65_folding",
    "PS.Type2.C65_cancelling"
   ],
   "note": ""
  },
  {
   "property": "C66",
   "status": "proved",
   "theorems": [
    "PS.Type2.C66_spared",
    "PS.Type2.C66_any_body"
   ],
   "note": ""
  },
  {
   "property": "C67",
   "status": "proved",
   "theorems": [
    "PS.Type2.C67_frame",
    "PS.Type2.C67_constant"
   ],
   "note": ""
  },
  {
   "property": "C68",
   "status": "partial",
   "theorems": [
    "PS.Type2.C68_false",
    "PS.Type2.C68_truncated_partial",
    "PS.Type2.C68_reread"
   ],
   "note": "False: the call after an unknown operator goes on behind it (C68_false), and with a cursor that stays in place at a failed read the tail of a cut operand is executed as code (C68_reread). C68_truncated_partial: once a program has run out of bytes, with a cursor left at the end, all later calls return None."
  },
  {
   "property": "C69",
   "status": "proved",
   "theorems": [
    "PS.C69_order",
    "PS.C69_spelling",
    "PS.C69_fixed"
   ],
   "note": ""
  },
  {
   "property": "C70",
   "status": "proved",
   "theorems": [
    "PS.C70_number_iff",
    "PS.C70_operations",
    "PS.C70_dictionary_iff"
   ],
   "note": ""
  },
  {
   "property": "C71",
   "status": "proved",
   "theorems": [
    "PS.Type2.C71_error_iff",
    "PS.Type2.C71_panic_iff",
    "PS.Type2.C71_unique"
   ],
   "note": ""
  },
  {
   "property": "C72",
   "status": "partial",
   "theorems": [
    "PS.C72_unique",
    "PS.C72_covers",
    "PS.C72_select_partial",
    "PS.C72_records",
    "PS.C72_false",
    "PS.C72_false_gap",
    "PS.C72_false_overlap"
   ],
   "note": "False as stated (C72_false, C72_false_gap, C72_false_overlap): numbers and ranges are not checked. Proved for tables that are in order and mention only existing dictionaries; format 0 always has one number per glyph."
  },
  {
   "property": "C73",
   "status": "partial",
   "theorems": [
    "PS.C73_lookup",
    "PS.C73_lookup_some",
    "PS.C73_named_iff",
    "PS.C73_identifiers",
    "PS.C73_names_partial",
    "PS.C73_predefined",
    "PS.C73_false",
    "PS.C73_false_predefined"
   ],
   "note": "False as stated (C73_false, C73_false_predefined): identifiers are not checked. Proved: the exact condition under which a glyph has a name, and that custom character sets have exactly one identifier per glyph."
  },
  {
   "property": "C74",
   "status": "partial",
   "theorems": [
    "PS.Type2.C74_ends_iff",
    "PS.Type2.C74_operations",
    "PS.Type2.C74_glyph_partial",
    "PS.Type2.C74_false"
   ],
   "note": "False as stated (C74_false): the depth of calls is not limited. Proved: a run ends if and only if the depth of calls is bounded, and the number of operations is then at most |code|(L+1)^D; glyphs whose subroutines are in layers end."
  },
  {
   "property": "C75",
   "status": "partial",
   "theorems": [
    "PS.Type2.C75_limits_partial",
    "PS.Type2.C75_output",
    "PS.Type2.C75_glyph",
    "PS.Type2.C75_operands",
    "PS.Type2.C75_stems",
    "PS.Type2.C75_false",
    "PS.Type2.C75_exponential"
   ],
   "note": "False as stated (C75_false, C75_operands, C75_stems, C75_exponential): no limit is enforced. Proved: bounds on the operand stack, the stem hints and the output in terms of the size of the code and the depth of calls."
  },
  {
   "property": "C76",
   "status": "proved",
   "theorems": [
    "PS.C76_failure_iff",
    "PS.C76_one_of",
    "PS.C76_index_iff",
    "PS.C76_encoding_iff",
    "PS.C76_characterSet_iff",
    "PS.C76_dictionary_iff",
    "PS.C76_count_iff",
    "PS.C76_complaints",
    "PS.C76_others"
   ],
   "note": ""
  },
  {
   "property": "C77",
   "status": "partial",
   "theorems": [
    "PS.C77_bounded_partial",
    "PS.C77_amplified",
    "PS.C77_false"
   ],
   "note": "False (C77_false, and C77_amplified for how much): objects may be shared by any number of fonts and font dictionaries, each getting a copy. C77_bounded_partial bounds what is held by |file| (1 + fonts + private dictionaries), with at most 65535 fonts and as many private dictionaries in each."
  },
  {
   "property": "C78",
   "status": "proved",
   "theorems": [
    "PS.C78_elsewhere",
    "PS.C78_truncated",
    "PS.C78_determined"
   ],
   "note": ""
  },
  {
   "property": "C79",
   "status": "proved",
   "theorems": [
    "PS.C79_select",
    "PS.C79_replace",
    "PS.C79_glyph"
   ],
   "note": ""
  },
  {
   "property": "C80",
   "status": "partial",
   "theorems": [
    "PS.C80_predefined",
    "PS.C80_one_partial",
    "PS.C80_covered_partial",
    "PS.C80_names_partial",
    "PS.C80_custom_lost",
    "PS.C80_custom_iff",
    "PS.C80_ambiguous"
   ],
   "note": "False as stated: `get` gives nothing for the codes of a custom encoding (C80_custom_lost), and a font set can be read in which a code leads to two glyphs and others to glyphs that there are not (C80_ambiguous). Proved: the meaning of `get` for predefined encodings with any character set (C80_predefined), that codes and glyphs correspond one to one without repetitions in the character set (C80_one_partial), that Standard and Expert are covered by ISOAdobe and Expert (C80_covered_partial), that the names agree (C80_names_partial), and the exact conditions for custom encodings (C80_custom_iff)."
  },
  {
   "property": "C81",
   "status": "proved",
   "theorems": [
    "PS.C81_same",
    "PS.C81_reads",
    "PS.C81_unreserved",
    "PS.C81_panics",
    "PS.C81_index",
    "PS.C81_large"
   ],
   "note": ""
  },
  {
   "property": "C82",
   "status": "proved",
   "theorems": [
    "PS.Type2.C82_renumbered",
    "PS.Type2.C82_failures",
    "PS.Type2.C82_possible",
    "PS.Type2.C82_subset"
   ],
   "note": ""
  },
  {
   "property": "C83",
   "status": "proved",
   "theorems": [
    "PS.C83_subset",
    "PS.C83_glyphs"
   ],
   "note": ""
  },
  {
   "property": "C84",
   "status": "proved",
   "theorems": [
    "PS.C84_file",
    "PS.C84_glyphs",
    "PS.Type2.C84_program"
   ],
   "note": ""
  },
  {
   "property": "C85",
   "status": "partial",
   "theorems": [
    "PS.Type2.C85_next_partial",
    "PS.Type2.C85_run_partial",
    "PS.Type2.C85_limits_partial",
    "PS.Type2.C85_small_partial",
    "PS.Type2.C85_panic_iff",
    "PS.Type2.C85_fails",
    "PS.Type2.C85_wraps",
    "PS.Type2.C85_mask",
    "PS.Type2.C85_stems",
    "PS.Type2.C85_operands",
    "PS.Type2.C85_false"
   ],
   "note": "False as stated: C85_false, with C85_operands (146 bytes panic in every build with words of 32 bits) and C85_stems (170 bytes panic with overflow checks). Proved instead: a call of next, and a whole run, do the same as long as nothing exceeds the words (C85_next_partial, C85_run_partial), in particular within the limits of the Type 2 specification (C85_limits_partial) and for programs with |code|(L+1)^D at most 2^(bits-4) (C85_small_partial); and with overflow checks next panics exactly if it does anyway or something exceeds the words (C85_panic_iff). Without overflow checks the operations and widths are the same and the numbers of stem hints are modulo 2^bits as long as no mask finds them in excess (C85_wraps), and C85_mask tells how long a mask is when they are."
  },
  {
   "property": "C86",
   "status": "partial",
   "theorems": [
    "PS.Type2.C86_same",
    "PS.Type2.C86_turn",
    "PS.Type2.C86_ends",
    "PS.Type2.C86_roll",
    "PS.Type2.C86_loops",
    "PS.Type2.C86_moves",
    "PS.Type2.C86_plain_partial",
    "PS.Type2.C86_glyph",
    "PS.Type2.C86_rolling",
    "PS.Type2.C86_false"
   ],
   "note": "False as stated: C86_false, as roll iterates as often as the shift says (C86_rolling: 16 bytes and more than two billion operands moved; C86_roll in general). Proved instead: everything but rolls takes at most 7|code|(L+1)^D + D + 7 steps with calls nested D deep and subroutines of L bytes (C86_loops), hence 7(|code|+1) without subroutines and rolls (C86_plain_partial) and cubic work for glyphs of font sets with subroutines in layers (C86_glyph); what rolls can take is bounded as well (C86_moves). C86_turn and C86_ends give the exact count of operators that do not yield an operation and of the end. The count is the one of the model: C86_same shows that counting does not change anything, C86_turn that the count of silent operators is exact, and C86_loops that operations and their operands are counted."
  },
  {
   "property": "C87",
   "status": "partial",
   "theorems": [
    "PS.C87_same",
    "PS.C87_index",
    "PS.C87_read_partial",
    "PS.C87_bounded_partial",
    "PS.C87_amplified",
    "PS.C87_false"
   ],
   "note": "False as stated: C87_false, with C87_amplified for how many steps there may be. Proved instead: at least held and at most 100 (n + 1) (1 + fonts + private dictionaries) steps for files of n bytes that can be read (C87_read_partial), at most 100 (n + 1) (1 + D (1 + D)) with D = min(65535, n) for any file (C87_bounded_partial), and the exact number of steps of an INDEX (C87_index). The count is the one of the model: C87_same shows that counting does not change the result, not that the count is that of a machine."
  },
  {
   "property": "C88",
   "status": "partial",
   "theorems": [
    "PS.C88_bounded_partial",
    "PS.C88_greedy",
    "PS.C88_offsets",
    "PS.C88_false"
   ],
   "note": "False as stated, however vectors of given lengths are read: C88_false, with C88_greedy and C88_offsets for the files. Proved instead: never more than 2^32 - 2 bytes at once, and 48 * 65535 if vectors of given lengths grow as they are read (C88_bounded_partial). What is reserved altogether, and what vectors take when they grow, is bounded by the number of steps of C87 only."
  },
  {
   "property": "C89",
   "status": "proved",
   "theorems": [
    "PS.C89_follows",
    "PS.C89_count",
    "PS.C89_parts",
    "PS.C89_calm",
    "PS.C89_failures"
   ],
   "note": ""
  },
  {
   "property": "C90",
   "status": "proved",
   "theorems": [
    "PS.Ending.C90_end",
    "PS.Ending.C90_not_behind",
    "PS.Ending.C90_written",
    "PS.Ending.C90_sequence"
   ],
   "note": ""
  },
  {
   "property": "C91",
   "status": "proved",
   "theorems": [
    "PS.C91_file",
    "PS.C91_renumbered",
    "PS.C91_flat",
    "PS.C91_flat_only",
    "PS.C91_plain"
   ],
   "note": ""
  },
  {
   "property": "C92",
   "status": "proved",
   "theorems": [
    "PS.C92_number",
    "PS.C92_equivalence",
    "PS.C92_value",
    "PS.C92_integer",
    "PS.C92_dictionary",
    "PS.C92_dictionary_self",
    "PS.C92_offset",
    "PS.Type2.C92_operation",
    "PS.Type2.C92_plain",
    "PS.Type2.C92_not_a_number"
   ],
   "note": ""
  },
  {
   "property": "C93",
   "status": "proved",
   "theorems": [
    "PS.Type2.C93_error_iff",
    "PS.Type2.C93_response_iff",
    "PS.Type2.C93_history_iff",
    "PS.Type2.C93_memoryless"
   ],
   "note": ""
  },
  {
   "property": "C94",
   "status": "proved",
   "theorems": [
    "PS.C94_behind",
    "PS.C94_moved",
    "PS.C94_merged",
    "PS.C94_shows",
    "PS.C94_names",
    "PS.C94_strings",
    "PS.C94_fonts"
   ],
   "note": "All the string identifiers that character sets, encodings and records have need to lead to a string; sizes are bounded as for C62."
  },
  {
   "property": "C95",
   "status": "proved",
   "theorems": [
    "PS.C95_kept",
    "PS.C95_pruned",
    "PS.C95_fonts"
   ],
   "note": "All the string identifiers that character sets, encodings and records have need to lead to a string; sizes are bounded as for C62."
  },
  {
   "property": "C96",
   "status": "proved",
   "theorems": [
    "PS.C96_joined",
    "PS.C96_renumbered",
    "PS.C96_flat"
   ],
   "note": "All the string identifiers that character sets, encodings and records have need to lead to a string; sizes are bounded as for C62, and the new code is given, or of a size that is given."
  },
  {
   "property": "C97",
   "status": "proved",
   "theorems": [
    "PS.Type2.C97_outlined",
    "PS.Type2.C97_extracted",
    "PS.Type2.C97_extracted_global",
    "PS.C97_fonts"
   ],
   "note": ""
  },
  {
   "property": "C98",
   "status": "proved",
   "theorems": [
    "PS.Type2.C98_remasked",
    "PS.Type2.C98_failures",
    "PS.Type2.C98_called",
    "PS.C98_fonts"
   ],
   "note": "The masks of a program all have the same length, as they do if all stem hints are declared before the first mask."
  },
  {
   "property": "C99",
   "status": "partial",
   "theorems": [
    "PS.Type2.C99_same_iff",
    "PS.Type2.C99_maskless_partial",
    "PS.Type2.C99_false"
   ],
   "note": "False as stated: neither the contents of masks nor where the vertical stems are that are declared on the side of a mask is shown (C99_false: two glyphs with the same masks). C99_same_iff proves that nothing else is lost: two glyphs show the same if and only if they differ in these only; so glyphs without masks that show the same are the same (C99_maskless_partial)."
  },
  {
   "property": "C100",
   "status": "proved",
   "theorems": [
    "PS.C100_same_iff"
   ],
   "note": ""
  },
  {
   "property": "C101",
   "status": "proved",
   "theorems": [
    "PS.Type2.C101_only",
    "PS.Type2.C101_can",
    "PS.Type2.C101_iff",
    "PS.Type2.C101_inlined",
    "PS.Type2.C101_number",
    "PS.C101_fonts"
   ],
   "note": ""
  },
  {
   "property": "C102",
   "status": "proved",
   "theorems": [
    "PS.C102_draw",
    "PS.C102_drawn"
   ],
   "note": ""
  },
  {
   "property": "C103",
   "status": "proved",
   "theorems": [
    "PS.C103_make",
    "PS.C103_codes",
    "PS.C103_made"
   ],
   "note": ""
  },
  {
   "property": "C104",
   "status": "proved",
   "theorems": [
    "PS.C104_make",
    "PS.C104_made"
   ],
   "note": ""
  },
  {
   "property": "C105",
   "status": "proved",
   "theorems": [
    "PS.C105_make",
    "PS.C105_made",
    "PS.C105_whole",
    "PS.C105_exact",
    "PS.C105_apart"
   ],
   "note": ""
  },
  {
   "property": "C106",
   "status": "proved",
   "theorems": [
    "PS.C106_contents",
    "PS.C106_rewrite",
    "PS.C106_select",
    "PS.C106_recoded",
    "PS.C106_outlined",
    "PS.C106_remasked"
   ],
   "note": ""
  }
 ]
}