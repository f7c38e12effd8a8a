{
 "claims": [
  {
   "property": "C01",
   "status": "proved",
   "theorems": [
    "Upon.C01_search",
    "Upon.C01_starts_with",
    "Upon.C01_unique"
   ],
   "note": ""
  },
  {
   "property": "C02",
   "status": "proved",
   "theorems": [
    "Upon.C02_total"
   ],
   "note": ""
  },
  {
   "property": "C03",
   "status": "proved",
   "theorems": [
    "Upon.C03_total",
    "Upon.C03_engine",
    "Upon.C03_every_text",
    "Upon.C03_false_white_end"
   ],
   "note": "for all syntaxes and all texts in which no end delimiter ending in whitespace is followed by just whitespace and a trimming tag; the negation is proved for one in which it is"
  },
  {
   "property": "C04",
   "status": "proved",
   "theorems": [
    "Upon.C04_spans",
    "Upon.C04_total",
    "Upon.C04_false_white_end"
   ],
   "note": "for all syntaxes and all texts in which no end delimiter ending in whitespace is followed by just whitespace and a trimming tag; the negation is proved for one in which it is"
  },
  {
   "property": "C05",
   "status": "proved",
   "theorems": [
    "Upon.C05_cover",
    "Upon.C05_lossless",
    "Upon.C05_white",
    "Upon.C05_trim_start",
    "Upon.C05_trim_end"
   ],
   "note": ""
  },
  {
   "property": "C06",
   "status": "proved",
   "theorems": [
    "Upon.C06_layout",
    "Upon.C06_raw",
    "Upon.C06_name_start",
    "Upon.C06_name_char",
    "Upon.C06_digit",
    "Upon.C06_number_char",
    "Upon.C06_keyword",
    "Upon.C06_blank"
   ],
   "note": ""
  },
  {
   "property": "C07",
   "status": "proved",
   "theorems": [
    "Upon.C07_compile",
    "Upon.C07_render",
    "Upon.C07_engine"
   ],
   "note": ""
  },
  {
   "property": "C08",
   "status": "proved",
   "theorems": [
    "Upon.C08_comments"
   ],
   "note": ""
  },
  {
   "property": "C09",
   "status": "proved",
   "theorems": [
    "Upon.C09_grammar",
    "Upon.C09_tokens_unique",
    "Upon.C09_tree_unique"
   ],
   "note": ""
  },
  {
   "property": "C10",
   "status": "proved",
   "theorems": [
    "Upon.C10_number",
    "Upon.C10_exact",
    "Upon.C10_never_other",
    "Upon.C10_overflow",
    "Upon.C10_rendered",
    "Upon.C10_decimal"
   ],
   "note": ""
  },
  {
   "property": "C11",
   "status": "proved",
   "theorems": [
    "Upon.C11_string",
    "Upon.C11_roundtrip",
    "Upon.C11_unknown_escape",
    "Upon.C11_false_backslash",
    "Upon.C11_false_stray",
    "Upon.C11_rendered",
    "Upon.C11_every_text"
   ],
   "note": "as the code does it: texts ending in a backslash cannot be written as literals by escaping them, which is proved for all of them (C11_every_text: with a second closing quote they can); C11_false_stray shows the same lexer defect accepting a malformed literal"
  },
  {
   "property": "C12",
   "status": "proved",
   "theorems": [
    "Upon.C12_index"
   ],
   "note": ""
  },
  {
   "property": "C13",
   "status": "proved",
   "theorems": [
    "Upon.C13_pipeline",
    "Upon.C13_value",
    "Upon.C13_names",
    "Upon.C13_expr",
    "Upon.C13_emit",
    "Upon.C13_emit_formatter",
    "Upon.C13_exists",
    "Upon.C13_calls_only",
    "Upon.C13_calls_only_run"
   ],
   "note": "calls are observed as a trace of the run; arguments are pure look-ups, so their order shows only in which error is reported (C31_bad_arg)"
  },
  {
   "property": "C14",
   "status": "proved",
   "theorems": [
    "Upon.C14_piece",
    "Upon.C14_panics",
    "Upon.C14_tame",
    "Upon.C14_ranges",
    "Upon.C14_false_with_include"
   ],
   "note": "the unrestricted claim is false (C14_false_with_include); C14_panics proves for all templates that this defect is the only cause of panics, C14_tame and C14_ranges give two conditions that exclude it"
  },
  {
   "property": "C15",
   "status": "proved",
   "theorems": [
    "Upon.C15_terminates",
    "Upon.C15_piece"
   ],
   "note": ""
  },
  {
   "property": "C16",
   "status": "proved",
   "theorems": [
    "Upon.C16_documented",
    "Upon.C16_to_string_documented",
    "Upon.C16_render",
    "Upon.C16_to_string",
    "Upon.C16_raw",
    "Upon.C16_to_writer"
   ],
   "note": ""
  },
  {
   "property": "C17",
   "status": "proved",
   "theorems": [
    "Upon.C17_if",
    "Upon.C17_error",
    "Upon.C17_chain"
   ],
   "note": ""
  },
  {
   "property": "C18",
   "status": "proved",
   "theorems": [
    "Upon.C18_item",
    "Upon.C18_loop_list",
    "Upon.C18_loop_map",
    "Upon.C18_key",
    "Upon.C18_value",
    "Upon.C18_list",
    "Upon.C18_map",
    "Upon.C18_error"
   ],
   "note": ""
  },
  {
   "property": "C19",
   "status": "proved",
   "theorems": [
    "Upon.C19_map",
    "Upon.C19_reachable",
    "Upon.C19_value"
   ],
   "note": ""
  },
  {
   "property": "C20",
   "status": "proved",
   "theorems": [
    "Upon.C20_shadow",
    "Upon.C20_through",
    "Upon.C20_loop_through",
    "Upon.C20_map_through",
    "Upon.C20_restored",
    "Upon.C20_nil",
    "Upon.C20_with",
    "Upon.C20_with_error"
   ],
   "note": ""
  },
  {
   "property": "C21",
   "status": "proved",
   "theorems": [
    "Upon.C21_include",
    "Upon.C21_unknown",
    "Upon.C21_false_with"
   ],
   "note": "as the code does it; for variables bound by with the documented claim is false, and its negation is proved"
  },
  {
   "property": "C22",
   "status": "proved",
   "theorems": [
    "Upon.C22_include_with",
    "Upon.C22_error",
    "Upon.C22_isolated"
   ],
   "note": ""
  },
  {
   "property": "C23",
   "status": "proved",
   "theorems": [
    "Upon.C23_bound",
    "Upon.C23_exact",
    "Upon.C23_unaffected",
    "Upon.C23_raise",
    "Upon.C23_to_string",
    "Upon.C23_override",
    "Upon.C23_default",
    "Upon.C23_too_deep",
    "Upon.C23_limits",
    "Upon.C23_limits_ok",
    "Upon.C23_limits_refused",
    "Upon.C23_limits_to_writer",
    "Upon.C23_limits_accepting"
   ],
   "note": "the limit counts active templates, so limit d allows d-1 nested includes; 0 acts as 1"
  },
  {
   "property": "C24",
   "status": "proved",
   "theorems": [
    "Upon.C24_path",
    "Upon.C24_unique",
    "Upon.C24_exclusive",
    "Upon.C24_global",
    "Upon.C24_unknown",
    "Upon.C24_false_loop_optional"
   ],
   "note": "for loop variables optional access falls through to outer scopes (negation of the documented claim proved)"
  },
  {
   "property": "C25",
   "status": "proved",
   "theorems": [
    "Upon.C25_output",
    "Upon.C25_error",
    "Upon.C25_panic",
    "Upon.C25_append"
   ],
   "note": ""
  },
  {
   "property": "C26",
   "status": "proved",
   "theorems": [
    "Upon.C26_recording",
    "Upon.C26_failure",
    "Upon.C26_prefix",
    "Upon.C26_default",
    "Upon.C26_any_formatter",
    "Upon.C26_false_careless"
   ],
   "note": "for formatters that stop at a failed write; for others the negation is proved"
  },
  {
   "property": "C27",
   "status": "proved",
   "theorems": [
    "Upon.C27_path",
    "Upon.C27_value",
    "Upon.C27_unbound",
    "Upon.C27_only",
    "Upon.C27_template_error",
    "Upon.C27_template",
    "Upon.C27_template_with",
    "Upon.C27_registry",
    "Upon.C27_no_registry",
    "Upon.C27_once",
    "Upon.C27_silent",
    "Upon.C27_no_include"
   ],
   "note": ""
  },
  {
   "property": "C28",
   "status": "proved",
   "theorems": [
    "Upon.C28_compile",
    "Upon.C28_registry",
    "Upon.C28_add",
    "Upon.C28_remove",
    "Upon.C28_template"
   ],
   "note": ""
  },
  {
   "property": "C29",
   "status": "proved",
   "theorems": [
    "Upon.C29_functions",
    "Upon.C29_reports",
    "Upon.C29_separate"
   ],
   "note": ""
  },
  {
   "property": "C30",
   "status": "proved",
   "theorems": [
    "Upon.C30_formatter",
    "Upon.C30_filter",
    "Upon.C30_unknown",
    "Upon.C30_default",
    "Upon.C30_not_filter"
   ],
   "note": ""
  },
  {
   "property": "C31",
   "status": "proved",
   "theorems": [
    "Upon.C31_range",
    "Upon.C31_convert",
    "Upon.C31_convert_owned",
    "Upon.C31_call",
    "Upon.C31_not_called",
    "Upon.C31_arity",
    "Upon.C31_bad_value",
    "Upon.C31_bad_arg",
    "Upon.C31_filter_error"
   ],
   "note": "filters of any number of parameters, of the types that implement FilterArg for owned and borrowed values"
  },
  {
   "property": "C32",
   "status": "proved",
   "theorems": [
    "Upon.C32_integer",
    "Upon.C32_integer_inj",
    "Upon.C32_default",
    "Upon.C32_container",
    "Upon.C32_none",
    "Upon.C32_any_output",
    "Upon.C32_one_write",
    "Upon.C32_emit",
    "Upon.C32_emit_container"
   ],
   "note": ""
  },
  {
   "property": "C33",
   "status": "proved",
   "theorems": [
    "Upon.C33_becomes",
    "Upon.C33_no_value",
    "Upon.C33_out_of_range",
    "Upon.C33_value",
    "Upon.C33_stable",
    "Upon.C33_unique"
   ],
   "note": ""
  },
  {
   "property": "C34",
   "status": "proved",
   "theorems": [
    "Upon.C34_key",
    "Upon.C34_not_key",
    "Upon.C34_injective",
    "Upon.C34_entries"
   ],
   "note": ""
  },
  {
   "property": "C35",
   "status": "proved",
   "theorems": [
    "Upon.C35_raised",
    "Upon.C35_render",
    "Upon.C35_no_include",
    "Upon.C35_add"
   ],
   "note": ""
  },
  {
   "property": "C36",
   "status": "proved",
   "theorems": [
    "Upon.C36_render",
    "Upon.C36_location",
    "Upon.C36_lines",
    "Upon.C36_columns",
    "Upon.C36_end",
    "Upon.C36_unique",
    "Upon.C36_compile",
    "Upon.C36_false_unicode"
   ],
   "note": "for printable ASCII; outside it the negation is proved"
  },
  {
   "property": "C37",
   "status": "proved",
   "theorems": [
    "Upon.C37_tags",
    "Upon.C37_unset"
   ],
   "note": ""
  },
  {
   "property": "C38",
   "status": "proved",
   "theorems": [
    "Upon.C38_list",
    "Upon.C38_map",
    "Upon.C38_distinct",
    "Upon.C38_scalar",
    "Upon.C38_serialized",
    "Upon.C38_proper"
   ],
   "note": ""
  },
  {
   "property": "C39",
   "status": "proved",
   "theorems": [
    "Upon.C39_longest",
    "Upon.C39_trim"
   ],
   "note": ""
  },
  {
   "property": "C40",
   "status": "proved",
   "theorems": [
    "Upon.C40_history",
    "Upon.C40_to_string"
   ],
   "note": ""
  },
  {
   "property": "C41",
   "status": "proved",
   "theorems": [
    "Upon.C41_points",
    "Upon.C41_compile",
    "Upon.C41_render",
    "Upon.C41_short",
    "Upon.C41_plain",
    "Upon.C41_kinds",
    "Upon.C41_source",
    "Upon.C41_debug",
    "Upon.C41_formatter"
   ],
   "note": ""
  },
  {
   "property": "C42",
   "status": "proved",
   "theorems": [
    "Upon.C42_accepts",
    "Upon.C42_unambiguous",
    "Upon.C42_value",
    "Upon.C42_panics"
   ],
   "note": ""
  },
  {
   "property": "C43",
   "status": "proved",
   "theorems": [
    "Upon.C43_to_string",
    "Upon.C43_to_writer",
    "Upon.C43_in_text"
   ],
   "note": ""
  },
  {
   "property": "C44",
   "status": "proved",
   "theorems": [
    "Upon.C44_accepts",
    "Upon.C44_to_string",
    "Upon.C44_to_writer"
   ],
   "note": "for templates without a plain include inside a with block, whose behaviour depends on byte offsets (defect 1)"
  },
  {
   "property": "C45",
   "status": "proved",
   "theorems": [
    "Upon.C45_to_string",
    "Upon.C45_accepts"
   ],
   "note": "for templates without a plain include inside a with block (defect 1), and template stores whose answers do not depend on earlier requests"
  },
  {
   "property": "C46",
   "status": "proved",
   "theorems": [
    "Upon.C46_to_string",
    "Upon.C46_same_text",
    "Upon.C46_accepts"
   ],
   "note": "for templates without a plain include inside a with block (defect 1), and template stores whose answers do not depend on earlier requests"
  },
  {
   "property": "C47",
   "status": "proved",
   "theorems": [
    "Upon.C47_to_string",
    "Upon.C47_to_writer"
   ],
   "note": ""
  },
  {
   "property": "C48",
   "status": "proved",
   "theorems": [
    "Upon.C48_false_by_reference",
    "Upon.C48_data",
    "Upon.C48_to_string",
    "Upon.C48_same_text",
    "Upon.C48_same_error",
    "Upon.C48_fails",
    "Upon.C48_data_writer",
    "Upon.C48_to_writer",
    "Upon.C48_exists"
   ],
   "note": "text, failure and panic agree if no filter takes arguments by reference; otherwise one direction holds and the converse is refuted (C48_false_by_reference)"
  },
  {
   "property": "C49",
   "status": "proved",
   "theorems": [
    "Upon.C49_to_string",
    "Upon.C49_to_writer"
   ],
   "note": "for templates without a plain include inside a with block (defect 1)"
  },
  {
   "property": "C50",
   "status": "proved",
   "theorems": [
    "Upon.C50_false_optional",
    "Upon.C50_to_string",
    "Upon.C50_to_writer"
   ],
   "note": "for templates without a plain include inside a with block (defect 1); optional access to loop items is excepted, where the claim is false (C50_false_optional)"
  },
  {
   "property": "C51",
   "status": "proved",
   "theorems": [
    "Upon.C51_false_signed",
    "Upon.C51_diagnosis"
   ],
   "note": "for texts that satisfy the condition of C03; the place of a bad digit after a sign is as the code computes it, and C51_false_signed shows that it is wrong"
  },
  {
   "property": "C52",
   "status": "proved",
   "theorems": [
    "Upon.C52_lexical",
    "Upon.C52_rejected",
    "Upon.C52_reported"
   ],
   "note": "for texts that satisfy the condition of C03"
  },
  {
   "property": "C53",
   "status": "proved",
   "theorems": [
    "Upon.C53_print",
    "Upon.C53_translate",
    "Upon.C53_translate_any",
    "Upon.C53_tree",
    "Upon.C53_tree_any",
    "Upon.C53_floats",
    "Upon.C53_no_accident",
    "Upon.C53_default"
   ],
   "note": ""
  },
  {
   "property": "C54",
   "status": "proved",
   "theorems": [
    "Upon.C54_holds_unique",
    "Upon.C54_given_unique",
    "Upon.C54_returns",
    "Upon.C54_returns_ok",
    "Upon.C54_returns_err",
    "Upon.C54_not_called",
    "Upon.C54_value",
    "Upon.C54_value_err"
   ],
   "note": ""
  },
  {
   "property": "C55",
   "status": "proved",
   "theorems": [
    "Upon.C55_serialized",
    "Upon.C55_render",
    "Upon.C55_render_ref",
    "Upon.C55_serialize_error",
    "Upon.C55_named",
    "Upon.C55_named_writer",
    "Upon.C55_registered",
    "Upon.C55_registered_all",
    "Upon.C55_source",
    "Upon.C55_template_fn",
    "Upon.C55_template_fn_writer",
    "Upon.C55_depth",
    "Upon.C55_depth_writer"
   ],
   "note": ""
  },
  {
   "property": "C56",
   "status": "proved",
   "theorems": [
    "Upon.C56_names_need_unicode",
    "Upon.C56_false_delimiters",
    "Upon.C56_compile",
    "Upon.C56_ascii",
    "Upon.C56_accepts",
    "Upon.C56_upgrade",
    "Upon.C56_render",
    "Upon.C56_writer",
    "Upon.C56_engine",
    "Upon.C56_places",
    "Upon.C56_ascii_places"
   ],
   "note": ""
  },
  {
   "property": "C57",
   "status": "proved",
   "theorems": [
    "Upon.C57_shared_error",
    "Upon.C57_shared_own",
    "Upon.C57_to_string",
    "Upon.C57_progress",
    "Upon.C57_terminates",
    "Upon.C57_to_writer",
    "Upon.C57_progress_writer",
    "Upon.C57_shared",
    "Upon.C57_shared_alone",
    "Upon.C57_progress_shared"
   ],
   "note": ""
  },
  {
   "property": "C58",
   "status": "proved",
   "theorems": [
    "Upon.C58_render",
    "Upon.C58_to_string",
    "Upon.C58_string_meaning",
    "Upon.C58_writer_meaning",
    "Upon.C58_same",
    "Upon.C58_pure",
    "Upon.C58_panics",
    "Upon.C58_tame",
    "Upon.C58_output"
   ],
   "note": ""
  },
  {
   "property": "C59",
   "status": "proved",
   "theorems": [
    "Upon.C59_nesting",
    "Upon.C59_size",
    "Upon.C59_stack",
    "Upon.C59_bound"
   ],
   "note": ""
  },
  {
   "property": "C60",
   "status": "proved",
   "theorems": [
    "Upon.C60_steps",
    "Upon.C60_loops",
    "Upon.C60_data",
    "Upon.C60_output",
    "Upon.C60_written",
    "Upon.C60_output_default"
   ],
   "note": ""
  },
  {
   "property": "C61",
   "status": "proved",
   "theorems": [
    "Upon.C61_to_writer",
    "Upon.C61_recoded",
    "Upon.C61_default",
    "Upon.C61_both"
   ],
   "note": ""
  },
  {
   "property": "C62",
   "status": "proved",
   "theorems": [
    "Upon.C62_to_writer",
    "Upon.C62_extended",
    "Upon.C62_default"
   ],
   "note": ""
  },
  {
   "property": "C63",
   "status": "proved",
   "theorems": [
    "Upon.C63_to_string",
    "Upon.C63_to_writer",
    "Upon.C63_output"
   ],
   "note": ""
  },
  {
   "property": "C64",
   "status": "proved",
   "theorems": [
    "Upon.C64_registrable",
    "Upon.C64_unambiguous",
    "Upon.C64_arguments",
    "Upon.C64_call"
   ],
   "note": ""
  },
  {
   "property": "C65",
   "status": "proved",
   "theorems": [
    "Upon.C65_to_string",
    "Upon.C65_to_writer",
    "Upon.C65_shows"
   ],
   "note": "for templates without a plain include inside a with block (defect 1); the check rejects optional access to loop variables (defect 3)"
  },
  {
   "property": "C66",
   "status": "proved",
   "theorems": [
    "Upon.C66_any_writer",
    "Upon.C66_relaid",
    "Upon.C66_refactored",
    "Upon.C66_renamed",
    "Upon.C66_in_turn",
    "Upon.C66_inlined"
   ],
   "note": "for templates without a plain include inside a with block (defect 1), except that all writers get the same bytes, which holds without restriction"
  },
  {
   "property": "C67",
   "status": "proved",
   "theorems": [
    "Upon.C67_to_string",
    "Upon.C67_same_text",
    "Upon.C67_to_writer",
    "Upon.C67_prefix",
    "Upon.C67_history",
    "Upon.C67_removal"
   ],
   "note": ""
  },
  {
   "property": "C68",
   "status": "proved",
   "theorems": [
    "Upon.C68_false_index",
    "Upon.C68_to_writer",
    "Upon.C68_to_string"
   ],
   "note": "for templates without a plain include inside a with block (defect 1)"
  },
  {
   "property": "C69",
   "status": "proved",
   "theorems": [
    "Upon.C69_false_seam",
    "Upon.C69_says",
    "Upon.C69_compiles",
    "Upon.C69_to_string",
    "Upon.C69_to_writer",
    "Upon.C69_seam_start",
    "Upon.C69_seam_end"
   ],
   "note": "for templates without a plain include inside a with block (defect 1)"
  },
  {
   "property": "C70",
   "status": "proved",
   "theorems": [
    "Upon.C70_false_scope",
    "Upon.C70_to_string",
    "Upon.C70_to_writer"
   ],
   "note": "for templates without a plain include inside a with block (defect 1)"
  },
  {
   "property": "C71",
   "status": "proved",
   "theorems": [
    "Upon.C71_prefix",
    "Upon.C71_text",
    "Upon.C71_attempts",
    "Upon.C71_grows",
    "Upon.C71_shared"
   ],
   "note": ""
  },
  {
   "property": "C72",
   "status": "proved",
   "theorems": [
    "Upon.C72_false_copy",
    "Upon.C72_to_string",
    "Upon.C72_to_writer"
   ],
   "note": "for templates without a plain include inside a with block (defect 1)"
  },
  {
   "property": "C73",
   "status": "proved",
   "theorems": [
    "Upon.C73_chain",
    "Upon.C73_chain_writer",
    "Upon.C73_height",
    "Upon.C73_circle"
   ],
   "note": ""
  },
  {
   "property": "C74",
   "status": "proved",
   "theorems": [
    "Upon.C74_string",
    "Upon.C74_value",
    "Upon.C74_engine",
    "Upon.C74_template",
    "Upon.C74_template_ref",
    "Upon.C74_error"
   ],
   "note": ""
  },
  {
   "property": "C75",
   "status": "proved",
   "theorems": [
    "Upon.C75_false_zero",
    "Upon.C75_reflexive",
    "Upon.C75_symmetric",
    "Upon.C75_transitive",
    "Upon.C75_identical",
    "Upon.C75_truth",
    "Upon.C75_items"
   ],
   "note": ""
  },
  {
   "property": "C76",
   "status": "proved",
   "theorems": [
    "Upon.C76_to_string",
    "Upon.C76_to_writer",
    "Upon.C76_blanks",
    "Upon.C76_whatever",
    "Upon.C76_accepts",
    "Upon.C76_says"
   ],
   "note": "for templates without a plain include inside a with block (defect 1)"
  },
  {
   "property": "C77",
   "status": "proved",
   "theorems": [
    "Upon.C77_to_string",
    "Upon.C77_to_writer"
   ],
   "note": "for templates without a plain include inside a with block (defect 1)"
  },
  {
   "property": "C78",
   "status": "proved",
   "theorems": [
    "Upon.C78_to_string",
    "Upon.C78_to_writer"
   ],
   "note": ""
  },
  {
   "property": "C79",
   "status": "proved",
   "theorems": [
    "Upon.C79_false_with",
    "Upon.C79_to_string",
    "Upon.C79_to_writer",
    "Upon.C79_everywhere",
    "Upon.C79_everywhere_to_writer"
   ],
   "note": "for templates without a plain include inside a with block (defect 1)"
  },
  {
   "property": "C80",
   "status": "proved",
   "theorems": [
    "Upon.C80_last",
    "Upon.C80_order",
    "Upon.C80_swap",
    "Upon.C80_replace",
    "Upon.C80_remove",
    "Upon.C80_syntax",
    "Upon.C80_syntax_panics"
   ],
   "note": ""
  },
  {
   "property": "C81",
   "status": "proved",
   "theorems": [
    "Upon.C81_to_string",
    "Upon.C81_to_writer",
    "Upon.C81_text"
   ],
   "note": "for templates without a plain include inside a with block (defect 1)"
  },
  {
   "property": "C82",
   "status": "proved",
   "theorems": [
    "Upon.C82_to_string",
    "Upon.C82_to_writer",
    "Upon.C82_text",
    "Upon.C82_iff"
   ],
   "note": "for templates without a plain include inside a with block (defect 1); ?. on a variable of a block that disappears must find something (defect 3)"
  },
  {
   "property": "C83",
   "status": "proved",
   "theorems": [
    "Upon.C83_says",
    "Upon.C83_accepts",
    "Upon.C83_to_string",
    "Upon.C83_to_writer"
   ],
   "note": "for templates without a plain include inside a with block (defect 1)"
  },
  {
   "property": "C84",
   "status": "proved",
   "theorems": [
    "Upon.C84_passages",
    "Upon.C84_commented",
    "Upon.C84_literal",
    "Upon.C84_default"
   ],
   "note": ""
  }
 ]
}