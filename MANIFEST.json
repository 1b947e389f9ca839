{
 "claims": [
  {
   "property": "C01",
   "status": "proved",
   "theorems": [
    "Meojson.C01_parse_accepts_json",
    "Meojson.C01_reading_is_unique"
   ],
   "note": ""
  },
  {
   "property": "C02",
   "status": "partial",
   "theorems": [
    "Meojson.C02_builds_partial",
    "Meojson.C02_refuted",
    "Meojson.C02_partial",
    "Meojson.C02_plain_partial",
    "Meojson.C02_all_partial",
    "Meojson.C02_exact_partial"
   ],
   "note": "False as stated: C02_refuted. C02_partial and C02_builds_partial say exactly what each build accepts: a JSON text up to the tail (C03) and surrogate gaps (C04)."
  },
  {
   "property": "C03",
   "status": "partial",
   "theorems": [
    "Meojson.C03_refuted",
    "Meojson.C03_partial"
   ],
   "note": "False as stated: C03_refuted (after the root, NUL or a slash ends the reading whatever follows). C03_partial characterises the tails."
  },
  {
   "property": "C04",
   "status": "partial",
   "theorems": [
    "Meojson.C04_literals_partial",
    "Meojson.C04_refuted",
    "Meojson.C04_refuted_packed",
    "Meojson.C04_partial",
    "Meojson.C04_lone_rejected"
   ],
   "note": "False as stated: C04_refuted, C04_refuted_packed. C04_partial: a half is never accepted alone. C04_literals_partial: exactly the literals each build reads."
  },
  {
   "property": "C05",
   "status": "partial",
   "theorems": [
    "Meojson.C05_same_partial",
    "Meojson.C05_order_partial",
    "Meojson.C05_words_partial",
    "Meojson.C05_differ",
    "Meojson.C05_padded_partial",
    "Meojson.C05_refuted",
    "Meojson.C05_partial",
    "Meojson.C05_value_partial",
    "Meojson.C05_plain_partial",
    "Meojson.C05_json_partial"
   ],
   "note": "False as stated: C05_refuted, C05_differ (surrogate gaps). Proved: scalar acceptance implies acceptance by all builds, same value; two accepting builds agree; which builds read the same texts (SSE2, SSE4.1, NEON; little-endian words of 4 and 8 bytes) and how the others are ordered; full agreement on texts without surrogate escapes and on JSON texts."
  },
  {
   "property": "C06",
   "status": "proved",
   "theorems": [
    "Meojson.C06_no_read_past_end"
   ],
   "note": ""
  },
  {
   "property": "C07",
   "status": "proved",
   "theorems": [
    "Meojson.C07_linear"
   ],
   "note": "Counts calls and loop passes of the parser; the work inside std containers and block operations is not counted."
  },
  {
   "property": "C08",
   "status": "proved",
   "theorems": [
    "Meojson.C08_roundtrip"
   ],
   "note": ""
  },
  {
   "property": "C09",
   "status": "proved",
   "theorems": [
    "Meojson.C09_roundtrip_indented"
   ],
   "note": ""
  },
  {
   "property": "C10",
   "status": "proved",
   "theorems": [
    "Meojson.C10_reparse"
   ],
   "note": ""
  },
  {
   "property": "C11",
   "status": "proved",
   "theorems": [
    "Meojson.C11_one_line"
   ],
   "note": ""
  },
  {
   "property": "C12",
   "status": "proved",
   "theorems": [
    "Meojson.C12_standard"
   ],
   "note": ""
  },
  {
   "property": "C13",
   "status": "proved",
   "theorems": [
    "Meojson.C13_canonical",
    "Meojson.C13_order"
   ],
   "note": ""
  },
  {
   "property": "C14",
   "status": "proved",
   "theorems": [
    "Meojson.C14_repeated_key_rejected",
    "Meojson.C14_repeated_key_rejected_jsonc"
   ],
   "note": ""
  },
  {
   "property": "C15",
   "status": "partial",
   "theorems": [
    "Meojson.C15_builds_partial",
    "Meojson.C15_refuted",
    "Meojson.C15_partial",
    "Meojson.C15_json_partial"
   ],
   "note": "False as stated: C15_refuted (a slash tail that parse ignores but parsec reads as an unfinished comment or trailing text). Proved: parsec returns the same value or fails, the exact condition, and the language of parsec for each build."
  },
  {
   "property": "C16",
   "status": "proved",
   "theorems": [
    "Meojson.C16_jsonc",
    "Meojson.C16_final_line_comment",
    "Meojson.C16_only_jsonc"
   ],
   "note": ""
  },
  {
   "property": "C17",
   "status": "proved",
   "theorems": [
    "Meojson.C17_truncated"
   ],
   "note": ""
  },
  {
   "property": "C18",
   "status": "proved",
   "theorems": [
    "Meojson.C18_unicode",
    "Meojson.C18_pair"
   ],
   "note": ""
  },
  {
   "property": "C19",
   "status": "proved",
   "theorems": [
    "Meojson.C19_number_text",
    "Meojson.C19_number_roundtrip"
   ],
   "note": ""
  },
  {
   "property": "C20",
   "status": "proved",
   "theorems": [
    "Meojson.C20_integer_roundtrip",
    "Meojson.C20_range"
   ],
   "note": ""
  },
  {
   "property": "C21",
   "status": "partial",
   "theorems": [
    "Meojson.C21_refuted",
    "Meojson.C21_partial"
   ],
   "note": "False as stated: C21_refuted (-0 is an integer literal, but unsigned types refuse it). C21_partial covers every other text and type."
  },
  {
   "property": "C22",
   "status": "proved",
   "theorems": [
    "Meojson.C22_object_is_finite_map"
   ],
   "note": "erase by iterator is not modelled for objects."
  },
  {
   "property": "C23",
   "status": "proved",
   "theorems": [
    "Meojson.C23_array_is_sequence",
    "Meojson.C23_sized"
   ],
   "note": ""
  },
  {
   "property": "C24",
   "status": "proved",
   "theorems": [
    "Meojson.C24_union"
   ],
   "note": "Union on the maps; that copies leave the operands alone is part of the ownership model."
  },
  {
   "property": "C25",
   "status": "proved",
   "theorems": [
    "Meojson.C25_lookup_key",
    "Meojson.C25_lookup_pos"
   ],
   "note": ""
  },
  {
   "property": "C26",
   "status": "partial",
   "theorems": [
    "Meojson.C26_get",
    "Meojson.C26_get_typed",
    "Meojson.C26_refuted",
    "Meojson.C26_text",
    "Meojson.C26_text_own",
    "Meojson.C26_refuted_view",
    "Meojson.C26_text_handle",
    "Meojson.C26_refuted_nullptr",
    "Meojson.C26_refuted_null_pointer",
    "Meojson.C26_view_of_value"
   ],
   "note": "C26_get: for every is/as pair that agrees on the element reached; C26_get_typed: every type of default that gets on with the element (Apt); C26_text, C26_text_own: string, literal and pointer defaults. C26_refuted: get(\"k\", std::optional<int>()) throws if the element is null (see C27_refuted_optional). C26_refuted_view: with a std::string_view as default the result on an object is a view of a destroyed temporary. C26_refuted_nullptr, C26_refuted_null_pointer: a null pointer as default is undefined or throws."
  },
  {
   "property": "C27",
   "status": "partial",
   "theorems": [
    "Meojson.C27_is_as_partial",
    "Meojson.C27_regular",
    "Meojson.C27_defined",
    "Meojson.C27_refuted",
    "Meojson.C27_refuted_optional",
    "Meojson.C27_refuted_tuple",
    "Meojson.C27_refuted_user",
    "Meojson.C27_refuted_user_struct"
   ],
   "note": "C27_is_as_partial and C27_regular: for every type and value that get on (Apt), is true and as returns, or is false and as throws. C27_defined: for every type and value, is answers and as returns or throws json::exception. Refuted where they do not get on: C27_refuted (enum with underlying type bool), C27_refuted_optional (null for a std::optional), C27_refuted_tuple (one-element tuple)."
  },
  {
   "property": "C28",
   "status": "partial",
   "theorems": [
    "Meojson.C28_roundtrip_partial",
    "Meojson.C28_optional_lost",
    "Meojson.C28_nested_pointer",
    "Meojson.C28_tuple_lost",
    "Meojson.C28_variant",
    "Meojson.C28_same_key",
    "Meojson.C28_float"
   ],
   "note": "C28_roundtrip_partial: for every type and every value of which nothing is lost (Lossless: exact floating-point text, unambiguous enumerators, no empty std::optional, no null inside a smart pointer, no one-element tuple, no earlier matching alternative, distinct struct keys). C28_optional_lost, C28_nested_pointer, C28_tuple_lost, C28_variant, C28_same_key show that the conditions are needed."
  },
  {
   "property": "C29",
   "status": "partial",
   "theorems": [
    "Meojson.C29_first_partial",
    "Meojson.C29_chosen",
    "Meojson.C29_refuted",
    "Meojson.C29_implicit",
    "Meojson.C29_choice"
   ],
   "note": "C29_first_partial: for alternatives none of which a json::value converts to implicitly. C29_chosen: otherwise the converting constructor of std::variant takes that alternative, whatever the value; C29_choice, C29_implicit say which one. C29_refuted: variant<int, json::value>."
  },
  {
   "property": "C30",
   "status": "partial",
   "theorems": [
    "Meojson.C30_agree_partial",
    "Meojson.C30_defined",
    "Meojson.C30_refuted",
    "Meojson.C30_not_atomic"
   ],
   "note": "C30_agree_partial: where the members get on with what they are read from. C30_defined: in general from_json does what is stated or throws json::exception. C30_refuted: a null under the key of a std::optional member. C30_not_atomic: a failing from_json may have overwritten earlier fields, as the statement allows."
  },
  {
   "property": "C31",
   "status": "proved",
   "theorems": [
    "Meojson.C31_roundtrip",
    "Meojson.C31_optional",
    "Meojson.C31_empty_optional_lost",
    "Meojson.C31_all_optional_accepts_scalars"
   ],
   "note": "C31_empty_optional_lost: a struct with an empty std::optional does not come back (C28). C31_all_optional_accepts_scalars: a struct all of whose members are MEO_OPT accepts every non-object."
  },
  {
   "property": "C32",
   "status": "partial",
   "theorems": [
    "Meojson.C32_roundtrip_partial",
    "Meojson.C32_text",
    "Meojson.C32_outside_partial",
    "Meojson.C32_refuted",
    "Meojson.C32_refuted_wide",
    "Meojson.C32_refuted_overflow",
    "Meojson.C32_bytes_one_way",
    "Meojson.C32_as_number"
   ],
   "note": "Round trip for enums whose names differ in more than case; values outside the range throw if they and their distance from min fit an int. C32_refuted (red/RED), C32_refuted_wide (64-bit value truncated to another name), C32_refuted_overflow (signed overflow)."
  },
  {
   "property": "C33",
   "status": "partial",
   "theorems": [
    "Meojson.C33_refuted",
    "Meojson.C33_partial",
    "Meojson.C33_covered",
    "Meojson.C33_append_self",
    "Meojson.C33_append_empty",
    "Meojson.C33_merge_empty",
    "Meojson.C33_merge_part",
    "Meojson.C33_merge_into_part",
    "Meojson.C33_append_move_self",
    "Meojson.C33_merge_move_self",
    "Meojson.C33_merge_move_part"
   ],
   "note": "False as stated: C33_refuted (a[\"k\"] = a copies a half-written value), C33_append_self, C33_append_empty, C33_merge_empty, C33_merge_part, C33_append_move_self, C33_merge_move_part (+= and |= with overlapping operands are undefined). C33_partial: every history (copying and moving statements) that follows the store specification is run without undefined behaviour and shows the specified values; C33_covered: all statements on values that were not moved from are covered, except twelve kinds of overlap. C33_merge_into_part: o[\"k\"] |= o is defined but does not give the value of the operands before the statement; C33_merge_move_self: o |= std::move(o) may lose the texts of o."
  },
  {
   "property": "C34",
   "status": "proved",
   "theorems": [
    "Meojson.C34_clear",
    "Meojson.C34_assign",
    "Meojson.C34_moved_from_read",
    "Meojson.C34_copy_undefined",
    "Meojson.C34_use_undefined",
    "Meojson.C34_compare",
    "Meojson.C34_as_json"
   ],
   "note": "C34_moved_from_read, C34_copy_undefined and C34_use_undefined record that reading, copying or using what a moved-from value held is undefined."
  },
  {
   "property": "C35",
   "status": "proved",
   "theorems": [
    "Meojson.C35_independent"
   ],
   "note": ""
  },
  {
   "property": "C36",
   "status": "partial",
   "theorems": [
    "Meojson.C36_refuted",
    "Meojson.C36_partial"
   ],
   "note": "False as stated: C36_refuted (v = std::move(v[\"k\"]) with different kinds of payload is a use after free). C36_partial: copy at any depth, move if the kinds agree."
  },
  {
   "property": "C37",
   "status": "partial",
   "theorems": [
    "Meojson.C37_refuted",
    "Meojson.C37_partial"
   ],
   "note": "False as stated: C37_refuted (the tag is written before the copy is made). C37_partial: only the tag of the target can be wrong, nothing leaks."
  },
  {
   "property": "C38",
   "status": "proved",
   "theorems": [
    "Meojson.C38_eq",
    "Meojson.C38_equivalence",
    "Meojson.C38_kinds"
   ],
   "note": ""
  },
  {
   "property": "C39",
   "status": "partial",
   "theorems": [
    "Meojson.C39_refuted",
    "Meojson.C39_partial"
   ],
   "note": "False as stated: C39_refuted (erase on a null value turns it into {} or []). C39_partial: the only such values are null, \"\", [] and {}; every mutator that throws changes nothing."
  },
  {
   "property": "C40",
   "status": "proved",
   "theorems": [
    "Meojson.C40_bom_rejected",
    "Meojson.C40_bom",
    "Meojson.C40_open",
    "Meojson.C40_pipe_throws",
    "Meojson.C40_directory_throws"
   ],
   "note": ""
  },
  {
   "property": "C41",
   "status": "proved",
   "theorems": [
    "Meojson.C41_jvalue",
    "Meojson.C41_jarray",
    "Meojson.C41_jobject"
   ],
   "note": ""
  },
  {
   "property": "C42",
   "status": "partial",
   "theorems": [
    "Meojson.C42_refuted",
    "Meojson.C42_scalar_partial",
    "Meojson.C42_plain_partial",
    "Meojson.C42_value_partial",
    "Meojson.C42_json_partial",
    "Meojson.C42_cstring",
    "Meojson.C42_unterminated",
    "Meojson.C42_short_read",
    "Meojson.C42_grow_partial",
    "Meojson.C42_enough_partial",
    "Meojson.C42_padded_partial"
   ],
   "note": "False as stated for packed builds: C42_refuted. Proved: padding never loses a text or changes its value; padding of a block or more makes no further difference; no difference for the scalar build, for texts without surrogate escapes and for JSON texts; C strings."
  },
  {
   "property": "C43",
   "status": "partial",
   "theorems": [
    "Meojson.C43_read",
    "Meojson.C43_limits",
    "Meojson.C43_denotes",
    "Meojson.C43_integer",
    "Meojson.C43_fixed_partial",
    "Meojson.C43_decimal",
    "Meojson.C43_exact",
    "Meojson.C43_lossy",
    "Meojson.C43_keep",
    "Meojson.C43_keep_refuted",
    "Meojson.C43_refuted",
    "Meojson.C43_refuted_silently",
    "Meojson.C43_refuted_reading",
    "Meojson.C43_not_finite",
    "Meojson.C43_not_finite_back"
   ],
   "note": "Proved for locales with a decimal point: integers, the default build (within half a millionth, always readable, nearest value), reading any JSON number (nearest-even, exact overflow and underflow conditions), and the precision-keeping build (normal values round-trip). Refuted for comma locales and for subnormals in the precision-keeping build."
  },
  {
   "property": "C44",
   "status": "proved",
   "theorems": [
    "Meojson.C44_invalid",
    "Meojson.C44_valid"
   ],
   "note": ""
  },
  {
   "property": "C45",
   "status": "proved",
   "theorems": [
    "Meojson.C45_accessors",
    "Meojson.C45_floats"
   ],
   "note": ""
  },
  {
   "property": "C46",
   "status": "proved",
   "theorems": [
    "Meojson.C46_index_key"
   ],
   "note": ""
  },
  {
   "property": "C47",
   "status": "proved",
   "theorems": [
    "Meojson.C47_concat",
    "Meojson.C47_merge"
   ],
   "note": ""
  },
  {
   "property": "C48",
   "status": "proved",
   "theorems": [
    "Meojson.C48_escape",
    "Meojson.C48_read_back"
   ],
   "note": ""
  },
  {
   "property": "C49",
   "status": "proved",
   "theorems": [
    "Meojson.C49_block_scan",
    "Meojson.C49_index",
    "Meojson.C49_bits"
   ],
   "note": ""
  },
  {
   "property": "C50",
   "status": "proved",
   "theorems": [
    "Meojson.C50_depth_bounded",
    "Meojson.C50_depth_unbounded"
   ],
   "note": "Activations of parse_array and parse_object; stack bytes are not modelled."
  },
  {
   "property": "C51",
   "status": "partial",
   "theorems": [
    "Meojson.C51_const_partial",
    "Meojson.C51_lvalue_partial",
    "Meojson.C51_refuted",
    "Meojson.C51_refuted_twice",
    "Meojson.C51_const_refuted",
    "Meojson.C51_emptied",
    "Meojson.C51_same",
    "Meojson.C51_moved"
   ],
   "note": "C51_const_partial, C51_lvalue_partial: kept unless a nullable wrapper of non-plain content is converted as a non-const lvalue or sits behind a smart pointer. C51_refuted, C51_refuted_twice, C51_const_refuted."
  },
  {
   "property": "C52",
   "status": "partial",
   "theorems": [
    "Meojson.C52_out_of_memory",
    "Meojson.C52_programs",
    "Meojson.C52_unwinding",
    "Meojson.C52_no_leak",
    "Meojson.C52_cycle_leaks",
    "Meojson.C52_move_into_itself_leaks"
   ],
   "note": "False as stated: C52_cycle_leaks (v[\"k\"] = std::move(v)) and C52_move_into_itself_leaks (v.emplace(std::move(v)) and others). C52_no_leak covers every history that follows the specification, for copying and moving statements. C52_programs covers programs with handlers in which any number of allocations fail, C52_unwinding programs without handlers."
  },
  {
   "property": "C53",
   "status": "proved",
   "theorems": [
    "Meojson.C53_array",
    "Meojson.C53_object",
    "Meojson.C53_clear"
   ],
   "note": "emplace, erase, positional access and clear on values"
  },
  {
   "property": "C54",
   "status": "partial",
   "theorems": [
    "Meojson.C54_ok",
    "Meojson.C54_same_partial",
    "Meojson.C54_blank",
    "Meojson.C54_defined",
    "Meojson.C54_variant",
    "Meojson.C54_refuted",
    "Meojson.C54_refuted_optional"
   ],
   "note": "Same result whenever the const conversion succeeds (C54_ok), same outcome on every non-empty value (C54_same_partial), never undefined (C54_defined). Refuted for null, \"\", [], {}: from an rvalue they convert to empty containers (C54_refuted, C54_refuted_optional); C54_blank says exactly what may happen there."
  },
  {
   "property": "C55",
   "status": "partial",
   "theorems": [
    "Meojson.C55_left",
    "Meojson.C55_reads",
    "Meojson.C55_cleared",
    "Meojson.C55_strong_partial",
    "Meojson.C55_refuted",
    "Meojson.C55_refuted_pointer",
    "Meojson.C55_sound",
    "Meojson.C55_object_left"
   ],
   "note": "A throwing conversion leaves the value unchanged unless a tuple with a json::value among several elements is involved or the value is empty (C55_strong_partial); what is left is well-formed for closed types (C55_sound). Refuted for std::tuple<json::value, int> (C55_refuted, C55_refuted_pointer) and for maps to json::value and json::object, whose members stay behind moved from (C55_object_left)."
  },
  {
   "property": "C56",
   "status": "partial",
   "theorems": [
    "Meojson.C56_name",
    "Meojson.C56_written",
    "Meojson.C56_read",
    "Meojson.C56_msvc",
    "Meojson.C56_refuted_msvc",
    "Meojson.C56_refuted_semicolon",
    "Meojson.C56_range_names"
   ],
   "note": "Proved for gcc and clang for every spellable declaration (C56_name, C56_written, C56_read) and for MSVC when the enumerators are spelled with a scope (C56_msvc). Refuted for MSVC and unscoped enums in the global namespace (C56_refuted_msvc) and for gcc with a `;` in a template argument of the scope (C56_refuted_semicolon). The bounds of MEOJSON_ENUM_RANGE are themselves names (C56_range_names). The texts compilers produce are modelled, not proved; clang and MSVC from documentation."
  },
  {
   "property": "C57",
   "status": "partial",
   "theorems": [
    "Meojson.C57_refuted",
    "Meojson.C57_wrong_text",
    "Meojson.C57_rejected",
    "Meojson.C57_partial",
    "Meojson.C57_latin1",
    "Meojson.C57_truncated",
    "Meojson.C57_safe"
   ],
   "note": "False as stated: C57_refuted, C57_wrong_text, C57_rejected (units are cut to their low byte, in strings and in numbers). C57_partial: ASCII texts mean the same in both encodings; C57_latin1: units below 256 are taken for bytes; C57_truncated: larger units in a string stand for their low byte; C57_safe: every sequence of units is parsed without undefined behaviour."
  },
  {
   "property": "C58",
   "status": "proved",
   "theorems": [
    "Meojson.C58_array",
    "Meojson.C58_object",
    "Meojson.C58_all",
    "Meojson.C58_stream"
   ],
   "note": ""
  },
  {
   "property": "C59",
   "status": "partial",
   "theorems": [
    "Meojson.C59_type_name",
    "Meojson.C59_info",
    "Meojson.C59_defined",
    "Meojson.C59_refuted",
    "Meojson.C59_utf8_partial",
    "Meojson.C59_what",
    "Meojson.C59_unknown"
   ],
   "note": "C59_refuted: the cut after 100 bytes can go through a UTF-8 character. C59_type_name, C59_info, C59_defined, C59_what: the rest as stated. C59_utf8_partial: the message is UTF-8 exactly when the cut goes through no character."
  },
  {
   "property": "C60",
   "status": "proved",
   "theorems": [
    "Meojson.C60_parsed",
    "Meojson.C60_text",
    "Meojson.C60_written",
    "Meojson.C60_unchecked"
   ],
   "note": "C60_unchecked: a text that is not UTF-8 is not rejected; its bytes are kept."
  },
  {
   "property": "C61",
   "status": "proved",
   "theorems": [
    "Meojson.C61_calls",
    "Meojson.C61_roundtrip"
   ],
   "note": "The user-written functions are assumed to return or to throw json::exception. C27_refuted_user, C27_refuted_user_struct: nothing makes check_json and from_json agree, and in the library's own example they do not."
  },
  {
   "property": "C62",
   "status": "proved",
   "theorems": [
    "Meojson.C62_as",
    "Meojson.C62_take",
    "Meojson.C62_members",
    "Meojson.C62_float",
    "Meojson.C62_set"
   ],
   "note": "For types put together properly (Proper): sets with a strict order, struct defaults of the right types, user conversions that return values of the user type, a machine that reads floating-point numbers of the format (C62_float: it does)."
  },
  {
   "property": "C63",
   "status": "partial",
   "theorems": [
    "Meojson.C63_variable_partial",
    "Meojson.C63_result_partial",
    "Meojson.C63_owned_partial",
    "Meojson.C63_compiles",
    "Meojson.C63_moved_partial",
    "Meojson.C63_moved_blank",
    "Meojson.C63_refuted",
    "Meojson.C63_refuted_moved",
    "Meojson.C63_texts",
    "Meojson.C63_texts_moved"
   ],
   "note": "Refuted by f().as<std::string_view>() and by static_cast<std::vector<std::string_view>>(std::move(v)). Proved: from a variable, for maps, and for types without std::string_view it holds; otherwise exactly the texts that are std::string can be read."
  },
  {
   "property": "C64",
   "status": "proved",
   "theorems": [
    "Meojson.C64_private",
    "Meojson.C64_no_race",
    "Meojson.C64_schedule",
    "Meojson.C64_as_array_writes",
    "Meojson.C64_conflict_shows"
   ],
   "note": "C64_private holds for every statement and every memory; schedules take a statement as one step, allocation is atomic."
  },
  {
   "property": "C65",
   "status": "partial",
   "theorems": [
    "Meojson.C65_refuted",
    "Meojson.C65_terminates",
    "Meojson.C65_dumps_partial",
    "Meojson.C65_as_partial",
    "Meojson.C65_find_partial",
    "Meojson.C65_change_partial",
    "Meojson.C65_compare_partial",
    "Meojson.C65_info_partial",
    "Meojson.C65_containers",
    "Meojson.C65_typed_partial"
   ],
   "note": "C65_refuted: empty(), is<integer>() and the non-const as_array(), as_object() terminate. The partial theorems give every other reader exactly."
  },
  {
   "property": "C66",
   "status": "partial",
   "theorems": [
    "Meojson.C66_members",
    "Meojson.C66_functions_partial",
    "Meojson.C66_unlisted",
    "Meojson.C66_key",
    "Meojson.C66_refuted",
    "Meojson.C66_hidden",
    "Meojson.C66_lost"
   ],
   "note": "Refuted as stated: a member called `result` is hidden by a local variable of the generated `to_json` (C66_refuted, C66_hidden, C66_lost). Which lists compile and what is visited is exact (C66_members), and without that name the functions are the ones of the struct type (C66_functions_partial)."
  },
  {
   "property": "C67",
   "status": "partial",
   "theorems": [
    "Meojson.C67_unambiguous",
    "Meojson.C67_choice",
    "Meojson.C67_limits",
    "Meojson.C67_arithmetic",
    "Meojson.C67_formats",
    "Meojson.C67_characters",
    "Meojson.C67_char8",
    "Meojson.C67_text",
    "Meojson.C67_refuted",
    "Meojson.C67_pointer_partial",
    "Meojson.C67_size",
    "Meojson.C67_max_size",
    "Meojson.C67_no_list",
    "Meojson.C67_of_value",
    "Meojson.C67_append",
    "Meojson.C67_braces",
    "Meojson.C67_pair",
    "Meojson.C67_emplace_pair"
   ],
   "note": "Refuted as stated (C67_refuted): pointers become booleans, exactly as C67_pointer_partial says, and char8_t becomes a number (C67_char8; the other character types do not compile, C67_characters); numbers become sizes of arrays (C67_size, C67_append); braces differ from parentheses (C67_braces, C67_pair, C67_emplace_pair). Other arithmetic types and texts are right on every platform (C67_arithmetic, C67_text, C67_choice)."
  },
  {
   "property": "C68",
   "status": "proved",
   "theorems": [
    "Meojson.C68_text",
    "Meojson.C68_no_less",
    "Meojson.C68_value",
    "Meojson.C68_compare"
   ],
   "note": "Work is counted in calls, loop passes and bytes; growing a std::string is not counted. The constants are in the theorems."
  },
  {
   "property": "C69",
   "status": "partial",
   "theorems": [
    "Meojson.C69_refuted",
    "Meojson.C69_partial",
    "Meojson.C69_erase"
   ],
   "note": "Refuted as stated: erase on a null or empty value allocates, and if that fails the value is left with a wrong tag. True of moves and the end of a lifetime always, and of erase on everything else."
  },
  {
   "property": "C70",
   "status": "partial",
   "theorems": [
    "Meojson.C70_statement",
    "Meojson.C70_history",
    "Meojson.C70_distinct",
    "Meojson.C70_container_partial",
    "Meojson.C70_as_array_dangles",
    "Meojson.C70_as_object_dangles",
    "Meojson.C70_refuted",
    "Meojson.C70_others_dangle",
    "Meojson.C70_gone"
   ],
   "note": "proved for references to values, for every statement of the heap model; refuted for references to arrays and objects, because as_array() and as_object() replace empty ones"
  },
  {
   "property": "C71",
   "status": "proved",
   "theorems": [
    "Meojson.C71_layout",
    "Meojson.C71_squeeze"
   ],
   "note": "for indentation that fits 64 bits, as the code computes it; C97_layout shows that beyond that no text comes out"
  },
  {
   "property": "C72",
   "status": "partial",
   "theorems": [
    "Meojson.C72_same_or_undefined_partial",
    "Meojson.C72_one_piece_partial",
    "Meojson.C72_no_blocks_partial",
    "Meojson.C72_undefined",
    "Meojson.C72_refuted"
   ],
   "note": "refuted for containers in several pieces, such as std::deque<char>; proved: the result is that for a string or undefined, and the former for contents in one piece"
  },
  {
   "property": "C73",
   "status": "partial",
   "theorems": [
    "Meojson.C73_calls_partial",
    "Meojson.C73_refuted",
    "Meojson.C73_with_flags",
    "Meojson.C73_arity",
    "Meojson.C73_parsec"
   ],
   "note": "refuted for char*, char[N] and classes derived from std::istream, and parsec takes no stream at all; the others and calls with flags proved"
  },
  {
   "property": "C74",
   "status": "partial",
   "theorems": [
    "Meojson.C74_is",
    "Meojson.C74_as",
    "Meojson.C74_write_partial",
    "Meojson.C74_write_fails",
    "Meojson.C74_asymmetric",
    "Meojson.C74_refuted",
    "Meojson.C74_both",
    "Meojson.C74_move_only",
    "Meojson.C74_as_rvalue_partial",
    "Meojson.C74_cast_partial",
    "Meojson.C74_cast_move",
    "Meojson.C74_cast_plain",
    "Meojson.C74_without"
   ],
   "note": "refuted as stated: an enum with its own to_json cannot be written, and for types with a constructor of their own to_json is ignored; exact choices for every kind of type, every set of functions and every value category"
  },
  {
   "property": "C75",
   "status": "proved",
   "theorems": [
    "Meojson.C75_destroy",
    "Meojson.C75_copy",
    "Meojson.C75_bounded",
    "Meojson.C75_unbounded"
   ],
   "note": "One block stands for an array or object together with the storage of its elements (`std::vector`, `std::map`); one allocation is counted for each text, although short ones need none. Without allocation failures; for those see C37. C75_copy excludes values containing null pointers (moved-from), which cannot be copied at all (C34)."
  },
  {
   "property": "C76",
   "status": "partial",
   "theorems": [
    "Meojson.C76_others_partial",
    "Meojson.C76_refuted",
    "Meojson.C76_compact",
    "Meojson.C76_name",
    "Meojson.C76_never",
    "Meojson.C76_conversions"
   ],
   "note": "refuted: `std::cout << j` writes several lines where the README gives one (twice), the quotes around \"MistEO\" are missing in the README, and value[\"name\"][0] throws; the other seven outputs and all conversions are right"
  },
  {
   "property": "C77",
   "status": "partial",
   "theorems": [
    "Meojson.C77_refuted",
    "Meojson.C77_standard_partial",
    "Meojson.C77_neither",
    "Meojson.C77_collection",
    "Meojson.C77_map",
    "Meojson.C77_fixed",
    "Meojson.C77_nullable",
    "Meojson.C77_tuple",
    "Meojson.C77_formed",
    "Meojson.C77_both",
    "Meojson.C77_multimap",
    "Meojson.C77_multimap_loses"
   ],
   "note": "refuted as stated (forward_list, vector<bool>, multimap); exact conditions are proved for collections, maps, fixed arrays, nullable classes and for classes of two kinds; the standard classes are listed"
  },
  {
   "property": "C78",
   "status": "partial",
   "theorems": [
    "Meojson.C78_info",
    "Meojson.C78_info_sharp",
    "Meojson.C78_is_partial",
    "Meojson.C78_same",
    "Meojson.C78_user",
    "Meojson.C78_struct",
    "Meojson.C78_refuted",
    "Meojson.C78_refuted_struct"
   ],
   "note": "refuted as stated: a check_json that throws ends the program, and so does a long key of a struct without memory; type_name and value_info always answer (C78_info); is<T>() answers for every other type (C78_is_partial), and never wrongly (C78_same)"
  },
  {
   "property": "C79",
   "status": "partial",
   "theorems": [
    "Meojson.C79_refuted",
    "Meojson.C79_refuted_float",
    "Meojson.C79_refuted_small",
    "Meojson.C79_refuted_enum",
    "Meojson.C79_refuted_optional",
    "Meojson.C79_refuted_changed",
    "Meojson.C79_equal_partial",
    "Meojson.C79_exact_partial",
    "Meojson.C79_keeps_partial",
    "Meojson.C79_differs"
   ],
   "note": "refuted as stated (C79_refuted, _float, _small, _enum, _optional, _changed); where nothing is lost in writing x, true means what is claimed (C79_equal_partial); exact for types that are written in one way only, without -0 (C79_exact_partial); when x is left alone (C79_keeps_partial); != is the opposite without exception (C79_differs)"
  },
  {
   "property": "C80",
   "status": "partial",
   "theorems": [
    "Meojson.C80_written",
    "Meojson.C80_untouched",
    "Meojson.C80_once",
    "Meojson.C80_same",
    "Meojson.C80_exact_partial",
    "Meojson.C80_default_partial",
    "Meojson.C80_refuted"
   ],
   "note": "refuted as stated (C80_refuted); exactly when the text is read back, by both kinds of parser, and that it is never read as something else (C80_exact_partial); true without a width or with the fill character streams start with (C80_default_partial); what is written, for every value (C80_written, C80_untouched, C80_once, C80_same)"
  },
  {
   "property": "C81",
   "status": "partial",
   "theorems": [
    "Meojson.C81_erase_array",
    "Meojson.C81_array_partial",
    "Meojson.C81_refuted",
    "Meojson.C81_position",
    "Meojson.C81_walk_array",
    "Meojson.C81_push",
    "Meojson.C81_object_partial",
    "Meojson.C81_object_naive",
    "Meojson.C81_erase_object",
    "Meojson.C81_walk_object",
    "Meojson.C81_assign",
    "Meojson.C81_use_array",
    "Meojson.C81_room",
    "Meojson.C81_use_object"
   ],
   "note": "refuted as stated for arrays (C81_refuted, C81_array_partial is exact); proved for objects with erase(it++), other iterators included (C81_object_partial), and for arrays by position (C81_position); erase, walking and assigning (C81_erase_array, C81_erase_object, C81_walk_array, C81_walk_object, C81_assign); every use of an iterator and when it is undefined (C81_use_array, C81_use_object, C81_room); what is undefined (C81_object_naive, C81_push)"
  },
  {
   "property": "C82",
   "status": "partial",
   "theorems": [
    "Meojson.C82_refuted",
    "Meojson.C82_surprises",
    "Meojson.C82_string",
    "Meojson.C82_text",
    "Meojson.C82_integer",
    "Meojson.C82_negative",
    "Meojson.C82_never",
    "Meojson.C82_undefined",
    "Meojson.C82_fraction",
    "Meojson.C82_infinite",
    "Meojson.C82_enumeration",
    "Meojson.C82_nullptr",
    "Meojson.C82_zero",
    "Meojson.C82_partial"
   ],
   "note": "refuted as stated (C82_refuted, C82_surprises); C82_partial gives the arguments for which it holds; the meaning of every kind of argument everywhere (C82_string, C82_text, C82_integer, C82_negative, C82_enumeration, C82_fraction, C82_infinite, C82_nullptr, C82_zero); what never compiles (C82_never) and the only undefined calls (C82_undefined)"
  },
  {
   "property": "C83",
   "status": "proved",
   "theorems": [
    "Meojson.C83_count",
    "Meojson.C83_same",
    "Meojson.C83_packed",
    "Meojson.C83_endian",
    "Meojson.C83_third"
   ],
   "note": "C83_count; any two builds agree (C83_same), also with the counts in the model of the vector code (C83_packed); byte order (C83_endian); the branch for platforms with neither int nor long of 32 bits is wrong but does not compile there (C83_third)"
  },
  {
   "property": "C84",
   "status": "partial",
   "theorems": [
    "Meojson.C84_refuted",
    "Meojson.C84_never_plain",
    "Meojson.C84_chosen",
    "Meojson.C84_neon",
    "Meojson.C84_compiles",
    "Meojson.C84_same_partial",
    "Meojson.C84_plain_partial"
   ],
   "note": "refuted as stated (C84_refuted, C84_never_plain). C84_chosen is the exact choice for all macros; C84_same_partial, C84_plain_partial: which targets agree and about which texts; C84_neon; C84_compiles: exactly the builds that do not compile"
  },
  {
   "property": "C85",
   "status": "partial",
   "theorems": [
    "Meojson.C85_exact_partial",
    "Meojson.C85_refuted",
    "Meojson.C85_within",
    "Meojson.C85_const",
    "Meojson.C85_declared",
    "Meojson.C85_place",
    "Meojson.C85_effect"
   ],
   "note": "refuted as stated (C85_refuted). C85_exact_partial: exactly which expressions leave something usable; C85_within: during the statement everything is; C85_const: what at() hands out is const"
  },
  {
   "property": "C86",
   "status": "proved",
   "theorems": [
    "Meojson.C86_parse",
    "Meojson.C86_ample",
    "Meojson.C86_same_or_exception"
   ],
   "note": "Text buffers and map nodes are not cells of the heap; one number stands for all allocations of one text."
  },
  {
   "property": "C87",
   "status": "partial",
   "theorems": [
    "Meojson.C87_plain",
    "Meojson.C87_innermost_partial",
    "Meojson.C87_named",
    "Meojson.C87_length_partial",
    "Meojson.C87_refuted",
    "Meojson.C87_refuted_member",
    "Meojson.C87_misfit"
   ],
   "note": "refuted as stated: numbers are quoted in full (C87_refuted) and a struct does not say which member (C87_refuted_member). C87_innermost_partial: the text is one of a list, about the innermost part that does not fit (a struct with a missing or wrong member counts as a whole). C87_length_partial: at most 200 bytes otherwise."
  },
  {
   "property": "C88",
   "status": "proved",
   "theorems": [
    "Meojson.C88_private",
    "Meojson.C88_no_race",
    "Meojson.C88_unseen",
    "Meojson.C88_schedule",
    "Meojson.C88_variables",
    "Meojson.C88_adding_clashes",
    "Meojson.C88_erasing_shows"
   ],
   "note": "C88_private holds for every statement and every memory in which its places exist; schedules take a statement as one step, allocation is atomic; operator[] with an existing key is taken to read only."
  },
  {
   "property": "C89",
   "status": "proved",
   "theorems": [
    "Meojson.C89_no_longer",
    "Meojson.C89_shortest",
    "Meojson.C89_grammar",
    "Meojson.C89_indented",
    "Meojson.C89_no_larger"
   ],
   "note": "Length in bytes of the text; the size of a parsed value is counted in values and bytes, not in allocated memory."
  },
  {
   "property": "C90",
   "status": "partial",
   "theorems": [
    "Meojson.C90_swap_partial",
    "Meojson.C90_self",
    "Meojson.C90_history_partial",
    "Meojson.C90_refuted",
    "Meojson.C90_reverse"
   ],
   "note": "False for a value and a part of it (C90_refuted: the rest of the whole is lost and leaks). Proved for all places that are apart and for a value with itself."
  },
  {
   "property": "C91",
   "status": "partial",
   "theorems": [
    "Meojson.C91_moved_array",
    "Meojson.C91_moved_object",
    "Meojson.C91_array_partial",
    "Meojson.C91_object_partial",
    "Meojson.C91_throws",
    "Meojson.C91_value",
    "Meojson.C91_moved_value",
    "Meojson.C91_from_array_partial",
    "Meojson.C91_from_object",
    "Meojson.C91_single",
    "Meojson.C91_roundtrip_array",
    "Meojson.C91_roundtrip_object",
    "Meojson.C91_refuted"
   ],
   "note": "False as stated: json::array(u) for a class whose to_json gives null, \"\" or {} is an empty array where the value throws (C91_refuted, exact in C91_moved_array and C91_array_partial); tuples of one element differ (C91_single). Everything else is proved as stated."
  },
  {
   "property": "C92",
   "status": "proved",
   "theorems": [
    "Meojson.C92_edit",
    "Meojson.C92_blocked",
    "Meojson.C92_beyond",
    "Meojson.C92_moved",
    "Meojson.C92_cases",
    "Meojson.C92_json",
    "Meojson.C92_elsewhere",
    "Meojson.C92_saved",
    "Meojson.C92_heap"
   ],
   "note": "Proved as stated (C92_edit, C92_blocked, C92_beyond, C92_cases, C92_saved); C92_heap relates assignment to the heap model with references."
  },
  {
   "property": "C93",
   "status": "proved",
   "theorems": [
    "Meojson.C93_effort",
    "Meojson.C93_document",
    "Meojson.C93_growth_needed"
   ],
   "note": "C93_effort: at most (4 log2(n+1) + 90) n + 10 of calls, passes, copied bytes, moved values and compared key bytes; memory at most (18 values + a map node + a container + 30 bytes) for each byte. C93_document: the counts are no less than what the document is made of and occupies. Examples: libstdc++, libc++ and Microsoft meet the assumptions. C93_growth_needed: with vectors that grow by one it is false."
  },
  {
   "property": "C94",
   "status": "partial",
   "theorems": [
    "Meojson.C94_plain",
    "Meojson.C94_same_partial",
    "Meojson.C94_blank",
    "Meojson.C94_as",
    "Meojson.C94_innermost",
    "Meojson.C94_refuted",
    "Meojson.C94_mover_partial",
    "Meojson.C94_mover_undefined",
    "Meojson.C94_refuted_mover",
    "Meojson.C94_refuted_array"
   ],
   "note": "False as stated. C94_same_partial: outcome and text are the same for every value but null, \"\", [] and {}; C94_blank: for these the text is that of the const value or that of [] or {}; C94_as: std::move(v).as<T>() always says the same. C94_mover_partial and C94_mover_undefined: what happens after move_from_json, for every such function. C94_refuted, C94_refuted_mover, C94_refuted_array."
  },
  {
   "property": "C95",
   "status": "partial",
   "theorems": [
    "Meojson.C95_same",
    "Meojson.C95_linear_partial",
    "Meojson.C95_modest_partial",
    "Meojson.C95_counts",
    "Meojson.C95_counts_failing",
    "Meojson.C95_chain",
    "Meojson.C95_refuted_quadratic",
    "Meojson.C95_tree",
    "Meojson.C95_refuted"
   ],
   "note": "False as stated. C95_linear_partial: for each type that does not contain itself, is takes at most the size of the type times the values and bytes of the document, as at most that times the height of the type. C95_modest_partial: without std::variant, a factor that depends on the single classes only and not on how they are nested, times the levels of the document for as. C95_refuted_quadratic and C95_refuted: for two classes that contain themselves no factor does; the exact counts are in C95_chain and C95_tree, doubling with every level in the second. C95_counts: counts to the unit for values of all kinds."
  },
  {
   "property": "C96",
   "status": "partial",
   "theorems": [
    "Meojson.C96_float",
    "Meojson.C96_float_keep",
    "Meojson.C96_saved_partial",
    "Meojson.C96_again_partial",
    "Meojson.C96_file_partial",
    "Meojson.C96_tidy",
    "Meojson.C96_tidy_float",
    "Meojson.C96_lossless",
    "Meojson.C96_loaded",
    "Meojson.C96_refuted_set",
    "Meojson.C96_refuted_variant",
    "Meojson.C96_refuted_optional",
    "Meojson.C96_refuted_tuple",
    "Meojson.C96_refuted"
   ],
   "note": "False as stated: C96_refuted, and for four kinds of types C96_refuted_set, _variant, _optional, _tuple. C96_saved_partial, C96_again_partial, C96_file_partial: holds for every value under the conditions of `Steady`; C96_float: every floating-point number meets them, in both builds; C96_tidy: every value of a type without the four kinds does."
  },
  {
   "property": "C97",
   "status": "proved",
   "theorems": [
    "Meojson.C97_text",
    "Meojson.C97_outcome",
    "Meojson.C97_cost",
    "Meojson.C97_work",
    "Meojson.C97_behind",
    "Meojson.C97_indent",
    "Meojson.C97_layout",
    "Meojson.C97_escape",
    "Meojson.C97_escape_plain",
    "Meojson.C97_counts",
    "Meojson.C97_growth_needed"
   ],
   "note": ""
  },
  {
   "property": "C98",
   "status": "proved",
   "theorems": [
    "Meojson.C98_array",
    "Meojson.C98_object",
    "Meojson.C98_empty",
    "Meojson.C98_written",
    "Meojson.C98_copies",
    "Meojson.C98_at_most",
    "Meojson.C98_twice",
    "Meojson.C98_arrays",
    "Meojson.C98_objects",
    "Meojson.C98_quadratic"
   ],
   "note": "the value, the exact number of copies, both bounds and the growth"
  },
  {
   "property": "C99",
   "status": "proved",
   "theorems": [
    "Meojson.C99_same",
    "Meojson.C99_linear",
    "Meojson.C99_recursive",
    "Meojson.C99_moved",
    "Meojson.C99_not_moved",
    "Meojson.C99_same_key",
    "Meojson.C99_counts",
    "Meojson.C99_flat"
   ],
   "note": "for classes with different keys, as stated; C99_same_key shows that the condition is needed"
  },
  {
   "property": "C100",
   "status": "partial",
   "theorems": [
    "Meojson.C100_at_most",
    "Meojson.C100_moved_partial",
    "Meojson.C100_copied",
    "Meojson.C100_refuted",
    "Meojson.C100_counts"
   ],
   "note": "false as stated (C100_refuted): only json::value is moved, one level deep. Proved: the exact work where it is moved (C100_moved_partial); for all types without json::value at those places the work equals that from a const lvalue on every document (C100_copied); never more than that (C100_at_most)"
  },
  {
   "property": "C101",
   "status": "partial",
   "theorems": [
    "Meojson.C101_enough",
    "Meojson.C101_outcome",
    "Meojson.C101_left",
    "Meojson.C101_strong_partial",
    "Meojson.C101_refuted",
    "Meojson.C101_refuted_object",
    "Meojson.C101_refuted_pointer",
    "Meojson.C101_refuted_blank",
    "Meojson.C101_counts",
    "Meojson.C101_moved_from",
    "Meojson.C101_tag",
    "Meojson.C101_counts_uneven"
   ],
   "note": "false as stated (C101_refuted and three more): lists, sets, json::array, objects and smart pointers lose what was moved. Proved: the outcome in every case (C101_outcome, C101_enough), what may be left in every case (C101_left), and that the source stays as it was for the types that move nothing before the last request (C101_strong_partial)"
  },
  {
   "property": "C102",
   "status": "partial",
   "theorems": [
    "Meojson.C102_enough",
    "Meojson.C102_outcome",
    "Meojson.C102_left",
    "Meojson.C102_inert",
    "Meojson.C102_partial",
    "Meojson.C102_refuted",
    "Meojson.C102_refuted_lvalue",
    "Meojson.C102_refuted_memory",
    "Meojson.C102_counts",
    "Meojson.C102_counts_more",
    "Meojson.C102_counts_members",
    "Meojson.C102_counts_classes",
    "Meojson.C102_counts_unsized"
   ],
   "note": "false as stated (C102_refuted, C102_refuted_lvalue, C102_refuted_memory): tuples, nested lists, maps and collections without size() lose what was moved before the failure. Proved: the outcome in every case (C102_outcome, C102_enough), what may be left in every case (C102_left, C102_inert), and that the source stays as it was for the types in which nothing can fail after the first move (C102_partial)"
  },
  {
   "property": "C103",
   "status": "proved",
   "theorems": [
    "Meojson.C103_outcome",
    "Meojson.C103_enough",
    "Meojson.C103_members",
    "Meojson.C103_fair",
    "Meojson.C103_rvalue",
    "Meojson.C103_counts"
   ],
   "note": "C103_outcome, C103_enough, C103_members; C103_fair and C103_rvalue give C101 for the whole library"
  },
  {
   "property": "C104",
   "status": "partial",
   "theorems": [
    "Meojson.C104_refuted",
    "Meojson.C104_refuted_blank",
    "Meojson.C104_blank",
    "Meojson.C104_refuted_part",
    "Meojson.C104_refuted_move",
    "Meojson.C104_partial",
    "Meojson.C104_nothing",
    "Meojson.C104_nothing_cases"
   ],
   "note": "false as stated (C104_refuted, C104_refuted_blank, C104_refuted_part, C104_refuted_move): a null or empty value that was to become a container (C104_blank: whatever the history, the second attempt ends the program), a whole that was to be assigned its own part of another type, and merging with a move. Proved for all other statements, any number of attempts and any failing allocations (C104_partial), and that most statements leave everything as it was when they throw (C104_nothing)"
  },
  {
   "property": "C105",
   "status": "partial",
   "theorems": [
    "Meojson.C105_refuted",
    "Meojson.C105_refuted_right",
    "Meojson.C105_refuted_tag",
    "Meojson.C105_refuted_part",
    "Meojson.C105_partial",
    "Meojson.C105_plus",
    "Meojson.C105_or",
    "Meojson.C105_enough",
    "Meojson.C105_forms",
    "Meojson.C105_agrees",
    "Meojson.C105_requests",
    "Meojson.C105_requests_or",
    "Meojson.C105_moved_from"
   ],
   "note": "false as stated (C105_refuted, C105_refuted_right, C105_refuted_tag, C105_refuted_part): rvalue operands may be lost or left half merged. Proved: lvalue operands are never changed (C105_partial), all forms give the same result (C105_forms, C105_enough; the one of C47: C105_agrees), exactly what may be left of rvalue operands (C105_plus, C105_or), and how many requests each form makes (C105_requests, C105_requests_or)"
  },
  {
   "property": "C106",
   "status": "proved",
   "theorems": [
    "Meojson.C106_same",
    "Meojson.C106_comments",
    "Meojson.C106_equivalence",
    "Meojson.C106_permuted"
   ],
   "note": "C106_same and C106_comments for all pairs of texts, both directions; C106_permuted on the texts themselves"
  },
  {
   "property": "C107",
   "status": "partial",
   "theorems": [
    "Meojson.C107_refuted",
    "Meojson.C107_refuted_nul",
    "Meojson.C107_partial",
    "Meojson.C107_plain",
    "Meojson.C107_dumps",
    "Meojson.C107_members",
    "Meojson.C107_concat",
    "Meojson.C107_union"
   ],
   "note": "false as stated (C107_refuted, C107_refuted_nul): a text that is accepted in spite of what follows its value. Proved for JSON texts (C107_partial), for accepted texts without NUL, slash and surrogate escapes (C107_plain), for what the library writes (C107_dumps), for members (C107_members), and as agreement of the comma with + and | (C107_concat, C107_union)"
  },
  {
   "property": "C108",
   "status": "proved",
   "theorems": [
    "Meojson.C108_replace",
    "Meojson.C108_jsonc",
    "Meojson.C108_dumps",
    "Meojson.C108_needs_value",
    "Meojson.C108_erase",
    "Meojson.C108_add",
    "Meojson.C108_add_jsonc"
   ],
   "note": "C108_replace for parse and JSON texts, C108_jsonc for parsec and texts with comments and trailing commas, C108_dumps for values written by the library, C108_erase and C108_add, C108_add_jsonc for taking out and adding; C108_needs_value: text that is not one value can change more."
  },
  {
   "property": "C109",
   "status": "proved",
   "theorems": [
    "Meojson.C109_read",
    "Meojson.C109_joined",
    "Meojson.C109_torn",
    "Meojson.C109_resumed",
    "Meojson.C109_needs_newline"
   ],
   "note": "C109_read, C109_joined, C109_torn, C109_resumed. C109_needs_newline: that the second writer begins with a line feed is necessary; otherwise a document can be read that was never written."
  },
  {
   "property": "C110",
   "status": "partial",
   "theorems": [
    "Meojson.C110_refuted",
    "Meojson.C110_followed",
    "Meojson.C110_partial",
    "Meojson.C110_emptied",
    "Meojson.C110_extended",
    "Meojson.C110_array_grows",
    "Meojson.C110_object_grows"
   ],
   "note": "false as stated (C110_refuted): before the new document is complete, a mixture can be read. Proved: when it is complete, the new document or an error, whatever is behind it (C110_partial), and exactly when it is accepted (C110_followed); the new document or an error at every moment if the file is emptied first (C110_emptied); the claim as stated when elements are added at the end of an array or members after the last key of an object (C110_extended, C110_array_grows, C110_object_grows)"
  },
  {
   "property": "C111",
   "status": "proved",
   "theorems": [
    "Meojson.C111_early",
    "Meojson.C111_arrive",
    "Meojson.C111_brackets",
    "Meojson.C111_written",
    "Meojson.C111_unique",
    "Meojson.C111_tries",
    "Meojson.C111_work",
    "Meojson.C111_stray"
   ],
   "note": "C111_early, C111_arrive, C111_written, C111_unique. C111_brackets: it is enough to try after a closing bracket. C111_tries, C111_work: one parse for each byte, of no more than the longest document. C111_stray: one byte that cannot begin a document, such as a comma, stops such a reader for good."
  },
  {
   "property": "C112",
   "status": "proved",
   "theorems": [
    "Meojson.C112_opened",
    "Meojson.C112_anywhere",
    "Meojson.C112_size",
    "Meojson.C112_growth"
   ],
   "note": "C112_opened, C112_anywhere (any indents, any place), C112_size (exact), C112_growth"
  }
 ]
}