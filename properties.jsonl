{"id": "C01", "title": "parse accepts every JSON text with an array or object root", "statement": "For every byte string that is a JSON text by the RFC 8259 grammar (surrounding whitespace allowed), whose root is an array or an object and whose objects have no repeated key, json::parse returns a value, and it is exactly the value the text denotes: same nesting, same element order, decoded strings, numbers kept as their source text. The answer is the same for every build of the parser (scalar, 32/64-bit packed, SSE, AVX2, NEON).", "quantifier": "every byte string in the grammar, of any length and nesting depth, and every acceleration trait", "why_tests_cant": "The set of texts is infinite and nests without bound; tests sample a few dozen.", "anchors": ["include/parser/parser_impl.hpp:parser::parse", "include/parser/parser_impl.hpp:parse_value", "include/parser/parser_impl.hpp:parse_array", "include/parser/parser_impl.hpp:parse_object", "include/parser/parser_impl.hpp:parse_stdstring", "include/parser/parser_impl.hpp:parse_number"]}
{"id": "C02", "title": "parse accepts nothing that is not JSON", "statement": "Whenever json::parse returns a value, the input is a JSON text by the RFC 8259 grammar with array or object root and distinct keys, and the value is what that text denotes.", "quantifier": "every byte string, every acceleration trait", "why_tests_cant": "A negative claim over all byte strings: no finite set of rejected samples settles it.", "anchors": ["include/parser/parser_impl.hpp:parser::parse", "include/parser/parser_impl.hpp:skip_whitespace", "include/parser/parser_impl.hpp:skip_unicode_escape"]}
{"id": "C03", "title": "nothing but whitespace may follow the root", "statement": "If json::parse or json::parsec accepts a text, everything after the closing bracket of the root is insignificant (whitespace; for parsec also comments).", "quantifier": "every byte string and every possible tail", "why_tests_cant": "Tails are arbitrary byte strings; tests try a handful.", "anchors": ["include/parser/parser_impl.hpp:parser::parse", "include/parser/parser_impl.hpp:skip_whitespace", "include/parser/parser_impl.hpp:skip_comment"]}
{"id": "C04", "title": "surrogate escapes are accepted only as adjacent pairs", "statement": "A \\uD800-\\uDBFF escape is accepted only when the next thing in the string is a \\uDC00-\\uDFFF escape, and a \\uDC00-\\uDFFF escape only directly after a \\uD800-\\uDBFF one; the two decode to the one code point they encode.", "quantifier": "every string literal and every position in it", "why_tests_cant": "Depends on arbitrary text between two escapes.", "anchors": ["include/parser/parser_impl.hpp:skip_unicode_escape", "include/parser/parser_impl.hpp:parse_stdstring"]}
{"id": "C05", "title": "the result does not depend on the vector instruction set", "statement": "json::parse and json::parsec return the same result for the same input whichever packed-bytes trait the build selects (none, 4, 8, 16 or 32 bytes at a time; little or big endian).", "quantifier": "every byte string and every pair of acceleration traits", "why_tests_cant": "A build contains one trait; equality must hold for every input and every alignment of the input relative to the block size.", "anchors": ["include/parser/packed_bytes.hpp:packed_bytes_trait_max", "include/parser/parser_impl.hpp:skip_string_literal_with_accel", "include/parser/parser_impl.hpp:parse_stdstring"]}
{"id": "C06", "title": "the parser never reads outside its input", "statement": "During json::parse and json::parsec no byte at or after the end of the input is read, block loads included, for any input, well formed or not.", "quantifier": "every byte string, both modes, every acceleration trait", "why_tests_cant": "A read past the end is silent on most inputs; sanitizers only see the inputs tried.", "anchors": ["include/parser/parser_impl.hpp:parser", "include/parser/parser_impl.hpp:skip_string_literal_with_accel", "include/parser/parser_impl.hpp:parse_number"]}
{"id": "C07", "title": "parsing terminates in linear work", "statement": "json::parse and json::parsec terminate on every input, and the number of loop iterations and calls is at most a constant times the input length.", "quantifier": "every byte string, both modes, every acceleration trait", "why_tests_cant": "Non-termination and super-linear work show on inputs nobody thought of.", "anchors": ["include/parser/parser_impl.hpp:parser", "include/parser/parser_impl.hpp:skip_comment", "include/parser/parser_impl.hpp:skip_whitespace"]}
{"id": "C08", "title": "compact serialisation round-trips", "statement": "For every array or object value v that holds no invalid value and whose numbers have JSON number texts, json::parse(v.dumps()) yields a value equal to v (same structure, same bytes in every string and key, same number text). Strings may hold any bytes, NUL and invalid UTF-8 included.", "quantifier": "every such value, of any size and depth, and every acceleration trait", "why_tests_cant": "Values are unbounded trees over arbitrary byte strings.", "anchors": ["include/common/value_impl.hpp:value::dump_to", "include/common/array_impl.hpp:array::dump_to", "include/common/object_impl.hpp:object::dump_to", "include/common/utils.hpp:append_escaped_string", "include/parser/parser_impl.hpp:parser::parse"]}
{"id": "C09", "title": "indented serialisation round-trips for every indent width", "statement": "For every such v and every indent width n, json::parse(v.dumps(n)) yields a value equal to v; in particular dumps(n) and dumps() describe the same value.", "quantifier": "every value and every indent width", "why_tests_cant": "Unbounded trees and an unbounded parameter.", "anchors": ["include/common/value_impl.hpp:value::format_to", "include/common/array_impl.hpp:array::format_to", "include/common/object_impl.hpp:object::format_to"]}
{"id": "C10", "title": "what was parsed can be serialised and parsed again", "statement": "If parse or parsec returns v for any input whatsoever, v.dumps() and v.dumps(n) do not throw and json::parse of either returns a value equal to v.", "quantifier": "every byte string, both modes, every indent width", "why_tests_cant": "Quantifies over everything the parser can ever produce.", "anchors": ["include/parser/parser_impl.hpp:parser::parse", "include/common/value_impl.hpp:value::to_string", "include/common/value_impl.hpp:value::format"]}
{"id": "C11", "title": "compact output is one printable line", "statement": "v.dumps() contains no byte below 0x20, and every byte 0x80-0xFF in it comes from a string or key of v.", "quantifier": "every well-formed value", "why_tests_cant": "Arbitrary byte strings in arbitrary positions.", "anchors": ["include/common/utils.hpp:append_escaped_string", "include/common/utils.hpp:hex_digit", "include/common/value_impl.hpp:value::dump_to"]}
{"id": "C12", "title": "output is standard JSON", "statement": "v.dumps() and v.dumps(n) are JSON texts by the RFC 8259 grammar and denote v, so any conforming parser reads back the same value.", "quantifier": "every well-formed value, every indent width", "why_tests_cant": "Not settled by parsing with the library's own parser, and ranges over all trees.", "anchors": ["include/common/value_impl.hpp:value::dump_to", "include/common/value_impl.hpp:value::format_to"]}
{"id": "C13", "title": "serialisation is canonical", "statement": "Two well-formed values compare equal with == exactly when their dumps() are the same bytes; an object's text does not depend on the order in which its keys were inserted.", "quantifier": "every pair of values, every insertion order", "why_tests_cant": "Injectivity over all trees; all permutations of insertions.", "anchors": ["include/common/value_impl.hpp:value::operator==", "include/common/object_impl.hpp:object::dump_to", "include/common/object_impl.hpp:object::emplace"]}
{"id": "C14", "title": "a repeated key is rejected at any depth", "statement": "A text in which some object, however deeply nested, spells the same key twice (directly or by different escapes) is never accepted as that object; accepted objects have exactly the keys of their text.", "quantifier": "every text and every nesting position", "why_tests_cant": "Depends on decoded keys, which have unboundedly many spellings.", "anchors": ["include/parser/parser_impl.hpp:parse_object"]}
{"id": "C15", "title": "parsec accepts everything parse accepts", "statement": "If json::parse(s) returns v then json::parsec(s) returns the same v.", "quantifier": "every byte string", "why_tests_cant": "Relates two parsers on all inputs.", "anchors": ["include/parser/parser_impl.hpp:parser::parse", "include/parser/parser_impl.hpp:skip_whitespace", "include/parser/parser_impl.hpp:skip_comment"]}
{"id": "C16", "title": "comments and trailing commas do not change the value", "statement": "json::parsec accepts every text of the JSONC grammar (JSON with // and /* */ comments wherever whitespace may stand and one optional trailing comma before ] or }) and returns the value denoted by the text without them; conversely what parsec accepts is such a text, up to what follows the root (C03) and surrogate escapes that are not adjacent (C04).", "quantifier": "every JSONC text", "why_tests_cant": "Comment contents and places are arbitrary.", "anchors": ["include/parser/parser_impl.hpp:skip_comment", "include/parser/parser_impl.hpp:skip_whitespace", "include/parser/parser_impl.hpp:parse_array", "include/parser/parser_impl.hpp:parse_object"]}
{"id": "C17", "title": "a truncated document is rejected", "statement": "If a document written by dumps() or dumps(n) is cut at any byte before its end (a crash while writing), json::parse of what remains fails; it never returns a different value.", "quantifier": "every value, every crash point", "why_tests_cant": "Every cut point of every document.", "anchors": ["include/parser/parser_impl.hpp:parser::parse", "include/common/value_impl.hpp:value::dump_to", "include/common/value_impl.hpp:value::format_to"]}
{"id": "C18", "title": "unicode escapes decode to UTF-8", "statement": "A \\uXXXX escape of a non-surrogate code unit, in upper or lower case, and a surrogate pair decode to the standard UTF-8 encoding of the code point.", "quantifier": "all 65536 code units, all 1048576 pairs, all spellings", "why_tests_cant": "Finite but large; tests check two code points. The claim must hold wherever the escape stands in the string.", "anchors": ["include/parser/parser_impl.hpp:skip_unicode_escape"]}
{"id": "C19", "title": "number texts are preserved", "statement": "The number token accepted inside a document is exactly the RFC 8259 number grammar (no leading zeros, no bare dot or exponent, no plus sign), and parsing then dumping reproduces its text byte for byte: no precision is lost, whatever its length.", "quantifier": "every number text", "why_tests_cant": "Infinite language; arbitrary digits.", "anchors": ["include/parser/parser_impl.hpp:parse_number", "include/parser/parser_impl.hpp:skip_digit", "include/common/value_impl.hpp:value::dump_to"]}
{"id": "C20", "title": "integers survive construction and extraction", "statement": "For each of int, unsigned, long, unsigned long, long long, unsigned long long and every n of it: json::value(n) holds a JSON number text, as<same type>() returns n, and as<other integer type>() returns n if it fits and throws otherwise.", "quantifier": "every integer of every type, every pair of types", "why_tests_cant": "2^64 inputs per type and 36 pairs of types.", "anchors": ["include/common/value_impl.hpp:try_parse_integer", "include/common/value_impl.hpp:parse_integer", "include/common/utils.hpp:to_basic_string"]}
{"id": "C21", "title": "integer extraction never wraps", "statement": "as_integer() and its siblings on a parsed number return n exactly when the text is an integer literal denoting n and n is in range; on any other text (fraction, exponent, out of range) they throw and is<T>() is false.", "quantifier": "every number text, every integer type", "why_tests_cant": "All texts of any length.", "anchors": ["include/common/value_impl.hpp:parse_integer", "include/common/value_impl.hpp:value::is"]}
{"id": "C22", "title": "an object behaves as a finite map", "statement": "For every sequence of emplace/insert, operator[], erase and clear on a json::object, contains/find/at/size/iteration answer as a finite map from byte strings to values would; iteration is in strictly ascending byte order and every key occurs once.", "quantifier": "every operation history, every key", "why_tests_cant": "Unbounded histories.", "anchors": ["include/common/object_impl.hpp:object::emplace", "include/common/object_impl.hpp:object::operator[]", "include/common/object_impl.hpp:object::erase", "include/common/object_impl.hpp:object::contains", "include/common/object_impl.hpp:object::at"]}
{"id": "C23", "title": "an array behaves as a sequence", "statement": "For every sequence of push_back/emplace_back, erase(pos), clear, += on a json::array, size/contains/find/at answer as a list would; erase(pos) removes exactly the element at pos and returns whether it existed.", "quantifier": "every operation history, every index", "why_tests_cant": "Unbounded histories.", "anchors": ["include/common/array_impl.hpp:array::emplace_back", "include/common/array_impl.hpp:array::erase", "include/common/array_impl.hpp:array::at", "include/common/array_impl.hpp:append_array"]}
{"id": "C24", "title": "object union is right-biased", "statement": "a | b has exactly the keys of a and b, with b's value where both have the key; a |= b stores the same; the operation is associative and idempotent, has the empty object as unit, and copies leave both operands unchanged.", "quantifier": "every pair and triple of objects", "why_tests_cant": "Algebraic laws over all objects.", "anchors": ["include/common/object_impl.hpp:merge_object", "include/common/object_impl.hpp:object::operator|", "include/common/object_impl.hpp:object::operator|="]}
{"id": "C25", "title": "const lookups agree with each other and change nothing", "statement": "contains(k), exists(k), find_value(k), find(k) and at(k) agree on presence: at(k) throws exactly when contains(k) is false (or the value is no container of that kind), and otherwise returns the element find_value points to.", "quantifier": "every value, every key and index", "why_tests_cant": "All values and keys.", "anchors": ["include/common/value_impl.hpp:value::contains", "include/common/value_impl.hpp:value::find_value", "include/common/value_impl.hpp:value::at", "include/common/array_impl.hpp:array::find_value", "include/common/object_impl.hpp:object::find_value"]}
{"id": "C26", "title": "get with a key path never throws", "statement": "v.get(k1, ..., kn, dflt) returns the element reached by the path converted to the type of dflt when the path exists and the element has that type, and dflt otherwise; it never throws and never reads out of range, whatever the value and path (negative and huge indices included).", "quantifier": "every value, every path of any length, every default of a supported type", "why_tests_cant": "Arbitrary trees and paths.", "anchors": ["include/common/value_impl.hpp:value::get_helper", "include/common/array_impl.hpp:array::get_helper", "include/common/object_impl.hpp:object::get_helper", "include/common/utils.hpp:json_value_or_default"]}
{"id": "C27", "title": "is<T>() guarantees as<T>()", "statement": "For every supported C++ type T, nested to any depth, v.is<T>() implies v.as<T>() does not throw.", "quantifier": "every value and every type built from bool, integers, floating point, string, nullable, enum, collection, std::array, tuple, variant, string map, json types and MEO_JSONIZATION structs", "why_tests_cant": "Infinitely many types times infinitely many values.", "anchors": ["include/common/value_impl.hpp:value::is", "include/common/value_impl.hpp:value::as", "include/common/array_impl.hpp:array::as", "include/common/object_impl.hpp:object::as"]}
{"id": "C28", "title": "C++ values survive conversion to json and back", "statement": "For every supported T (no variant with overlapping alternatives, no nullable of a type that can itself serialise to null) and every x of T: json::value(x).is<T>() holds and json::value(x).as<T>() == x, also after dumping and parsing inside a container.", "quantifier": "every type and every x", "why_tests_cant": "Infinitely many types and values.", "anchors": ["include/common/value_impl.hpp:value::value", "include/common/array_impl.hpp:array::array", "include/common/object_impl.hpp:object::object", "include/common/value_impl.hpp:value::as"]}
{"id": "C29", "title": "a variant takes the first alternative that matches", "statement": "v.as<std::variant<Ts...>>() holds the first Ti with v.is<Ti>(), converted by as<Ti>(); it throws exactly when no alternative matches, i.e. when is<variant> is false.", "quantifier": "every value and list of alternatives without enums of underlying type bool (for those see C27)", "why_tests_cant": "All lists of alternatives.", "anchors": ["include/common/value_impl.hpp:to_variant_helper", "include/common/value_impl.hpp:is_variant_helper"]}
{"id": "C30", "title": "check_json and from_json agree", "statement": "For a struct with MEO_JSONIZATION, check_json(j) is true exactly when from_json(j) succeeds; when it fails, error_key is the key of the first field that is missing (and not MEO_OPT) or has the wrong type, and no later field was assigned.", "quantifier": "every struct description (fields, MEO_OPT, MEO_KEY; no enums of underlying type bool, see C27), every value j, every previous content of the struct", "why_tests_cant": "All structs and all inputs.", "anchors": ["include/reflection/jsonization.hpp:checker::_check_json", "include/reflection/jsonization.hpp:loader::_from_json"]}
{"id": "C31", "title": "structs survive to_json and from_json", "statement": "If a struct's effective keys are distinct and the value of each field survives conversion by itself (C28), from_json(to_json(x)) succeeds and restores every field; keys that are absent and marked MEO_OPT leave the field as it was; extra keys are ignored.", "quantifier": "every struct description, every x, every set of extra keys", "why_tests_cant": "All structs and inputs.", "anchors": ["include/reflection/jsonization.hpp:dumper::_to_json", "include/reflection/jsonization.hpp:loader::_from_json"]}
{"id": "C32", "title": "enums survive conversion to their name and back", "statement": "For every enum and enumerator e inside the reflected range, string_to_enum(enum_to_string(e)) returns e; names match without regard to ASCII case; a string that is no enumerator's name is rejected; values outside the range throw rather than give a wrong name.", "quantifier": "every enum table, every enumerator, every string and case variant", "why_tests_cant": "All enums and strings.", "anchors": ["include/common/enum_reflection.hpp:enum_to_string", "include/common/enum_reflection.hpp:string_to_enum", "include/common/enum_reflection.hpp:iequals"]}
{"id": "C33", "title": "the type tag always matches the payload", "statement": "After any sequence of public operations on values (constructors other than the raw one, copy, move, assignment, operator[], emplace, erase, clear, +=, |=), where no step reads a moved-from value and no allocation fails, every live value is well formed: its tag agrees with its payload at every depth, object keys are strictly ordered, and no operation has undefined behaviour except out-of-range operator[](size_t).", "quantifier": "every operation history", "why_tests_cant": "Unbounded histories over aliased variables.", "anchors": ["include/common/value_impl.hpp:value", "include/common/value.hpp:value::_type", "include/common/value.hpp:value::_raw_data"]}
{"id": "C34", "title": "a moved-from value can be assigned to or cleared", "statement": "After moving from a value, assigning to it or calling clear() makes it fully usable again; the destination holds what the source held.", "quantifier": "every value and any subsequent history", "why_tests_cant": "Histories.", "anchors": ["include/common/value_impl.hpp:value::value(value&&)", "include/common/value_impl.hpp:value::operator=", "include/common/value_impl.hpp:value::clear"]}
{"id": "C35", "title": "a copy is independent of its original", "statement": "After copying a value, no mutation through the copy, at any depth, is visible through the original, and vice versa; the copy equals the original.", "quantifier": "every value, every sequence of mutations at any path", "why_tests_cant": "All paths and mutation sequences; needs a heap.", "anchors": ["include/common/value_impl.hpp:value::deep_copy", "include/common/value_impl.hpp:value::value(const value&)"]}
{"id": "C36", "title": "assigning a part of a value to the value itself works", "statement": "v = v[k] (copy or move, at any depth) leaves v equal to the part that was named.", "quantifier": "every value and every path to a part", "why_tests_cant": "Aliasing depends on the shapes of both sides.", "anchors": ["include/common/value_impl.hpp:value::operator=(const value&)", "include/common/value_impl.hpp:value::operator=(value&&)"]}
{"id": "C37", "title": "a failed copy assignment leaves a usable value", "statement": "If copying runs out of memory during a = b, a is still well formed (old or new value).", "quantifier": "every pair of values and every allocation failure point", "why_tests_cant": "Crash points inside a copy.", "anchors": ["include/common/value_impl.hpp:value::operator=(const value&)", "include/common/value_impl.hpp:value::deep_copy"]}
{"id": "C38", "title": "== is an equivalence and deep", "statement": "== on well-formed values is reflexive, symmetric and transitive, never throws, != is its negation, and holds exactly when both have the same type, the same text for scalars, equal elements in order and equal members.", "quantifier": "every pair and triple of values", "why_tests_cant": "All trees.", "anchors": ["include/common/value_impl.hpp:value::operator==", "include/common/array_impl.hpp:array::operator==", "include/common/object_impl.hpp:object::operator=="]}
{"id": "C39", "title": "a failing mutator changes nothing", "statement": "erase(key) or erase(pos) that returns false leaves the value as it was, and a mutator that throws a type error leaves the value as it was.", "quantifier": "every value, key and index", "why_tests_cant": "All values.", "anchors": ["include/common/value_impl.hpp:value::erase", "include/common/value_impl.hpp:value::as_array", "include/common/value_impl.hpp:value::as_object"]}
{"id": "C40", "title": "a byte order mark is skipped only when asked", "statement": "parse(stream, check_bom=true) returns the same as without the three BOM bytes; with check_bom=false a text with a BOM is rejected; a text without BOM is parsed the same either way; with_comments selects parsec.", "quantifier": "every stream content", "why_tests_cant": "All contents.", "anchors": ["include/parser/parser_impl.hpp:parse(std::istream&)", "include/parser/parser_impl.hpp:open"]}
{"id": "C41", "title": "the JSON literals fall back to empty", "statement": "_json/_jvalue yield the parsed value or null, _jarray the parsed array or an empty array, _jobject the parsed object or an empty object; they never throw.", "quantifier": "every literal text", "why_tests_cant": "All texts.", "anchors": ["include/parser/parser_impl.hpp:operator\"\"_json", "include/parser/parser_impl.hpp:operator\"\"_jarray", "include/parser/parser_impl.hpp:operator\"\"_jobject"]}
{"id": "C42", "title": "trailing NUL padding is harmless", "statement": "Appending any number of NUL bytes to a text (a text-mode stream read shorter than the file size leaves them) does not change the result of parse or parsec, and parse(const char*) equals parse of the bytes before the first NUL.", "quantifier": "every text and every padding length", "why_tests_cant": "All texts and lengths.", "anchors": ["include/parser/parser_impl.hpp:skip_whitespace", "include/parser/parser_impl.hpp:parse(std::istream&)", "include/parser/parser_impl.hpp:parse(const char*)"]}
{"id": "C43", "title": "every number constructor yields a JSON number", "statement": "json::value(x) for any integer or finite floating-point x dumps as a JSON number text; for an integer the text denotes x, for a floating-point x it denotes a number at most half of 10^-6 away from x (default build), and as<double>() gives the double nearest to that number.", "quantifier": "every finite x, every C locale", "why_tests_cant": "All doubles and locales.", "anchors": ["include/common/utils.hpp:to_basic_string", "include/common/value_impl.hpp:value::value(double)"]}
{"id": "C44", "title": "invalid values cannot be serialised silently", "statement": "dumps()/format() throw json::exception exactly when an invalid value occurs somewhere in the value; otherwise they return a text.", "quantifier": "every value", "why_tests_cant": "All trees.", "anchors": ["include/common/value_impl.hpp:value::dump_to", "include/common/value_impl.hpp:value::format_to"]}
{"id": "C45", "title": "wrong-type access throws json::exception", "statement": "Each as_X() const on a well-formed value of another type throws json::exception, never anything else, and never has undefined behaviour; on the right type it returns the payload.", "quantifier": "every value and accessor", "why_tests_cant": "All values.", "anchors": ["include/common/value_impl.hpp:value::as_boolean", "include/common/value_impl.hpp:value::as_string", "include/common/value_impl.hpp:value::as_array", "include/common/value_impl.hpp:value::as_object"]}
{"id": "C46", "title": "operator[] creates what is missing and nothing else", "statement": "v[key] on a null or empty value turns it into an object holding key:null; on an object it returns the member, inserting null if absent, and leaves the other members alone; on any other value it throws and leaves the value as it was.", "quantifier": "every value and key", "why_tests_cant": "All values and keys.", "anchors": ["include/common/value_impl.hpp:value::operator[](const std::string&)", "include/common/object_impl.hpp:object::operator[]"]}
{"id": "C47", "title": "merging and concatenating values", "statement": "value + array and value += array append the elements in order; value | object and value |= object merge; the const forms leave the operands unchanged; the operand kinds that throw are exactly the non-arrays (non-objects), except that the mutating and rvalue forms first turn an empty value into an empty array (object).", "quantifier": "every value and operand", "why_tests_cant": "All values.", "anchors": ["include/common/value_impl.hpp:value::operator|", "include/common/value_impl.hpp:value::operator+", "include/common/value_impl.hpp:value::operator+=", "include/common/value_impl.hpp:value::operator|="]}
{"id": "C48", "title": "escaping is inverse to unescaping", "statement": "For every byte string s, the escaped form of s between quotes is accepted as a string literal wherever a string may stand and decodes to s.", "quantifier": "every byte string, every acceleration trait", "why_tests_cant": "All byte strings.", "anchors": ["include/common/utils.hpp:escape_string", "include/common/utils.hpp:append_escaped_string", "include/parser/parser_impl.hpp:parse_stdstring"]}
{"id": "C49", "title": "block scanning finds the first special byte", "statement": "Scanning a block with the 32-bit, 64-bit (little and big endian), SSE, AVX2 or NEON trait never steps over a byte that is a control character, a quote or a backslash, and reports a block clean exactly when it holds none of them.", "quantifier": "every block content, every trait", "why_tests_cant": "2^32 to 2^256 block contents.", "anchors": ["include/parser/packed_bytes.hpp:packed_bytes_trait_uint64", "include/parser/packed_bytes.hpp:packed_bytes_trait_uint32", "include/parser/packed_bytes_x86.hpp:packed_bytes_trait_sse", "include/parser/packed_bytes_x86.hpp:packed_bytes_trait_avx2", "include/parser/packed_bytes_arm.hpp:packed_bytes_trait_neon", "include/parser/bitops.hpp"]}
{"id": "C50", "title": "nesting is bounded only by the input", "statement": "The recursion depth of parse never exceeds the number of open brackets in the input plus a constant, and for every depth d there is a text of length 2d on which parse recurses d deep: there is no depth limit.", "quantifier": "every input, every depth", "why_tests_cant": "All inputs; stack exhaustion itself is a runtime matter.", "anchors": ["include/parser/parser_impl.hpp:parse_value", "include/parser/parser_impl.hpp:parse_array", "include/parser/parser_impl.hpp:parse_object"]}
{"id": "C51", "title": "converting a variable to json does not change it", "statement": "json::value(x) for an lvalue x of any supported type leaves x as it was.", "quantifier": "every type and every x", "why_tests_cant": "Which constructor is chosen depends on the value category, at every depth of the type.", "anchors": ["include/common/value.hpp:value::value(nullable_t&&)", "include/common/value.hpp:value::value(collection_t&&)", "include/common/utils.hpp:is_nullable"]}
{"id": "C52", "title": "no leak, no double free", "statement": "After any sequence of public operations on values, including ones that run out of memory, ending the lifetime of all variables frees every array and object exactly once.", "quantifier": "every operation history, every allocation failure point", "why_tests_cant": "Unbounded histories; a leak or double free depends on which parts of which trees were moved where.", "anchors": ["include/common/value_impl.hpp:value::operator=(const value&)", "include/common/value_impl.hpp:value::operator=(value&&)", "include/common/value_impl.hpp:value::deep_copy", "include/common/value.hpp:value::_raw_data"]}
{"id": "C53", "title": "emplace, erase, positional access and clear change exactly what they name", "statement": "On an array value emplace appends one element, erase(i) removes the i-th and operator[](i) names the i-th; on an object value emplace(key, x) makes x the value of the key, whether or not it had one, and erase(key) removes exactly that member; clear makes any value null. Nothing else in the value changes. On a value of another type that is not empty they throw and change nothing.", "quantifier": "every value, key and position", "why_tests_cant": "All values, keys and positions.", "anchors": ["include/common/value_impl.hpp:value::emplace", "include/common/value_impl.hpp:value::erase", "include/common/value_impl.hpp:value::operator[]", "include/common/value_impl.hpp:value::clear"]}
{"id": "C54", "title": "converting from an rvalue gives what converting from a const value gives", "statement": "static_cast<T>(std::move(v)) returns the same result as static_cast<T>(v), and throws if and only if that throws; it is never undefined.", "quantifier": "every type T and every well-formed v", "why_tests_cant": "Ranges over all types built from the wrappers, containers, tuples and variants, and all values.", "anchors": ["include/common/value.hpp:value::operator T() &&", "include/common/value_impl.hpp:value::as() &&", "include/common/array_impl.hpp:array::as() &&", "include/common/object_impl.hpp:object::as() &&"]}
{"id": "C55", "title": "a conversion that throws leaves its source alone", "statement": "If static_cast<T>(std::move(v)) throws, v is unchanged; if it returns, what is left of v is a well-formed value.", "quantifier": "every type T and every well-formed v", "why_tests_cant": "Which parts are moved before a later element fails depends on the type and the value.", "anchors": ["include/common/array_impl.hpp:array::as() &&", "include/common/array_impl.hpp:array::move_as_tuple_helper", "include/common/object_impl.hpp:object::as() &&", "include/common/value_impl.hpp:value::value(value&&)"]}
{"id": "C56", "title": "enumerators are known by the names they are declared with", "statement": "The name that name<E, V>() cuts out of the compiler's text for the function is the name of the first enumerator declared with the value V; for a value that no enumerator has, the text it cuts out is not an identifier and is not taken for a name. So an enum value is written as its declared name and read back from it.", "quantifier": "every enum declaration whose type and scope are spelled without `;` and `=`, every value, the spellings of gcc, clang and MSVC", "why_tests_cant": "All declarations: the spelling of the type, the scope and the enumerators are arbitrary texts that the search for separators must not be confused by.", "anchors": ["include/common/enum_reflection.hpp:name", "include/common/enum_reflection.hpp:is_valid", "include/common/enum_reflection.hpp:enum_name_storage"]}
{"id": "C57", "title": "a wide text means what its UTF-8 encoding means", "statement": "json::parse and json::parsec of a std::u32string (or std::u16string or std::wstring) give the same result as on the std::string with the same text in UTF-8. On every sequence of code units they return without undefined behaviour.", "quantifier": "every text; every sequence of code units", "why_tests_cant": "All texts; units of 16 or 32 bits.", "anchors": ["include/parser/parser_impl.hpp:parser::parse", "include/parser/parser_impl.hpp:parse_stdstring", "include/parser/parser_impl.hpp:skip_digit", "include/parser/parser_impl.hpp:skip_unicode_escape"]}
{"id": "C58", "title": "an array or object answers like the value that holds it", "statement": "contains, at, operator[], find, get, all, ==, !=, dumps, format and << on a json::array or json::object give what the same call on a json::value holding it gives. all<T>() is true exactly for an array or object whose elements all are T. What << writes to a stream, parse(stream) reads back as the same value.", "quantifier": "every array, object, position, key, path and type T; every serialisable array or object value", "why_tests_cant": "All containers; the stream has width 0 and delivers every byte.", "anchors": ["include/common/array_impl.hpp:array::get_helper", "include/common/array_impl.hpp:array::find_value", "include/common/array_impl.hpp:array::all", "include/common/object_impl.hpp:object::get_helper", "include/common/object_impl.hpp:object::all", "include/common/value_impl.hpp:value::all", "include/common/value_impl.hpp:operator<<"]}
{"id": "C59", "title": "exception texts describe the value", "statement": "type_name() is the name of the type; value_info() names the type and the text of a scalar (shortened after 100 bytes) or the number of elements of a container, never throws, and is UTF-8 if the value's strings are; what() shows all of it.", "quantifier": "every value; every compiler branch of the enum reflection", "why_tests_cant": "Well-formed values for the text, all values for what is undefined.", "anchors": ["include/common/value_impl.hpp:type_name", "include/common/value_impl.hpp:value_info", "include/common/value.hpp:value_type", "include/common/exception.hpp:what"]}
{"id": "C60", "title": "UTF-8 in, UTF-8 out", "statement": "From a UTF-8 text parse and parsec read values all of whose strings and keys are UTF-8, whatever escapes it contains; dumps() and dumps(n) of a value are UTF-8 exactly when its strings and keys are.", "quantifier": "every UTF-8 text accepted; every serialisable value", "why_tests_cant": "All builds, both modes, every indent.", "anchors": ["include/parser/parser_impl.hpp:parse_stdstring", "include/parser/parser_impl.hpp:skip_unicode_escape", "include/common/utils.hpp:append_escaped_string", "include/common/value_impl.hpp:dump_to"]}
{"id": "C61", "title": "conversions written by the user take part like the built-in ones", "statement": "For a type with to_json, check_json and from_json, as members or in ext::jsonization: is<T>() is what check_json answers, as<T>() is the object from_json filled and throws json::exception if it fails, json::value(x) is what to_json returns and leaves x alone. If these return what was put in, so do the conversions of containers and structs of T.", "quantifier": "every user type, every value, every container type around it", "why_tests_cant": "All user types whose functions return or throw json::exception.", "anchors": ["include/common/value.hpp:value::value(const jsonization_t&)", "include/common/value.hpp:value::operator jsonization_t", "include/common/value_impl.hpp:value::is", "include/common/value_impl.hpp:value::as", "include/common/utils.hpp:has_to_json_in_member"]}
{"id": "C62", "title": "a conversion returns a value of the type it names", "statement": "What as<T>() or static_cast<T>(v) returns, from a const value or an rvalue, is a value of T: integers in range, enumerations in their underlying type, arrays of their length, sets sorted and without duplicates and with one for each element of the array, maps with ascending keys, and so on inside. The members of a struct hold such values after from_json even if it fails.", "quantifier": "every type T, every well-formed value", "why_tests_cant": "All types built from the supported ones.", "anchors": ["include/common/value_impl.hpp:value::as", "include/common/value.hpp:value::operator T", "include/common/array_impl.hpp:array::as_collection", "include/common/object_impl.hpp:object::as_map", "include/reflection/jsonization.hpp:loader::_from_json"]}
{"id": "C63", "title": "a view of text does not outlive the text", "statement": "Every text in what as<T>() or static_cast<T>(v) returns, be it a std::string or a std::string_view, can be read after the full expression and is the text that the value held.", "quantifier": "every value; every T made of std::string and std::string_view by collections, arrays, pairs, maps and nullable wrappers; v a variable, std::move of one, or the result of a function", "why_tests_cant": "std::string_view is a supported conversion target, and the library deletes its conversion from an rvalue to rule out dangling views.", "anchors": ["include/common/value.hpp:value::operator std::string_view", "include/common/value_impl.hpp:value::as", "include/common/array_impl.hpp:array::as", "include/common/object_impl.hpp:object::as"]}
{"id": "C64", "title": "threads that share values only for reading do not interfere", "statement": "A statement on json values reads only memory that belongs to the variables it uses and changes only memory that belongs to the variables it writes. So if no thread writes a variable that another thread uses, there is no data race, and under every schedule each thread gets what it gets alone.", "quantifier": "every history before, every number of threads, every schedule, every allocation failure", "why_tests_cant": "All interleavings; the library has no locks and no shared state, so the property rests on ownership.", "anchors": ["include/common/value_impl.hpp:value::operator=(const value&)", "include/common/value_impl.hpp:value::deep_copy", "include/common/value_impl.hpp:value::as_array()", "include/common/array_impl.hpp:array::emplace_back", "include/common/object_impl.hpp:object::emplace"]}
{"id": "C65", "title": "a value whose tag does not fit its payload is refused", "statement": "value(value_type, args...) takes any tag with any payload, and failed or overlapping assignments leave such values behind. Every const function answers them by an exception or by what the tag alone says, and the functions that are noexcept do not terminate the program.", "quantifier": "every tag and every payload of another kind", "why_tests_cant": "All combinations of tag and payload, at any place where a value may be read.", "anchors": ["include/common/value_impl.hpp:value::value(value_type, args_t&&...)", "include/common/value_impl.hpp:value::empty", "include/common/value_impl.hpp:value::as_basic_type_str", "include/common/value_impl.hpp:value::dump_to", "include/common/value_impl.hpp:value::operator=="]}
{"id": "C66", "title": "MEO_JSONIZATION converts exactly the listed members", "statement": "A class with MEO_JSONIZATION over any list of members, each after any MEO_OPT and MEO_KEY tags, compiles as long as members and tags are at most 64 together; the generated functions visit exactly the listed members in order, each optional if tagged so and under its last MEO_KEY or its own name, and to_json stores under the key of every member what that member converts to.", "quantifier": "every list of members and tags, every name, every class", "why_tests_cant": "The preprocessor program and the overload recursion have one case per length; the repository's tests use a handful of short lists, and none has a member called like a local variable of the generated function.", "anchors": ["include/reflection/jsonization.hpp:MEO_TOJSON", "include/reflection/jsonization.hpp:MEO_CHECKJSON", "include/reflection/jsonization.hpp:MEO_FROMJSON", "include/reflection/jsonization.hpp:_MEOJSON_FOR_EACH", "include/reflection/jsonization.hpp:_MEOJSON_ARG_COUNT", "include/reflection/jsonization.hpp:dumper::_to_json"]}
{"id": "C67", "title": "a constructor takes an argument for what it is", "statement": "json::value(x) makes a number of every integer and floating-point number with exactly its value, a boolean of bool, a string of every text; characters, and pointers that are no text, are not accepted. json::array and json::value give the same for braces and parentheses, and adding a number to an array adds that number.", "quantifier": "every arithmetic type on every platform, every value of it, every pointer, every text, every collection", "why_tests_cant": "Overload resolution picks among some thirty constructors and is decided at compile time, type by type; tests construct from int, double, const char* and a few containers.", "anchors": ["include/common/value.hpp:value::value", "include/common/value_impl.hpp:value::value(bool)", "include/common/value_impl.hpp:value::value(const char*)", "include/common/array_impl.hpp:array::array(size_type)", "include/common/array_impl.hpp:array::array(std::initializer_list)", "include/common/value_impl.hpp:value::emplace"]}
{"id": "C68", "title": "serialising and comparing take linear work", "statement": "Serialising a value, compact or indented, takes work proportional to the text that comes out, and at most proportional to the value when it throws; comparing two values takes work proportional to the smaller of them. The recursion is as deep as arrays and objects are nested, no deeper.", "quantifier": "every value of any size and nesting, both forms, every indent, every pair of values", "why_tests_cant": "A quadratic append or a recursion per element shows only on sizes tests do not use; the texts in the test-suite are some hundred bytes.", "anchors": ["include/common/value_impl.hpp:value::dump_to", "include/common/value_impl.hpp:value::format_to", "include/common/value_impl.hpp:value::operator==", "include/common/array_impl.hpp:array::format_to", "include/common/object_impl.hpp:object::format_to", "include/common/utils.hpp:append_escaped_string"]}
{"id": "C69", "title": "moving, erasing and ending a lifetime need no memory", "statement": "Move construction, move assignment, erase() and the end of a lifetime ask for no memory, so they do what they should however little is left.", "quantifier": "every operation history, every place, every allocation failure", "why_tests_cant": "Tests do not run out of memory, and whether an allocation happens depends on what the value holds at that moment.", "anchors": ["include/common/value_impl.hpp:value::value(value&&)", "include/common/value_impl.hpp:value::operator=(value&&)", "include/common/value_impl.hpp:value::erase", "include/common/value_impl.hpp:value::as_array", "include/common/value_impl.hpp:value::as_object"]}
{"id": "C70", "title": "references stay valid", "statement": "A reference to a value that at() or operator[] returned designates the same value for as long as that value is there: nothing that happens elsewhere disturbs it, what lies below a value that is moved goes with it, and members of an object stay where they are. The same holds for the references to arrays and objects that as_array() and as_object() return.", "quantifier": "every operation history, every statement, every place, with and without failing allocations", "why_tests_cant": "Whether a reference survives depends on where the storage of every container lies, which values do not show; a test that holds references across a few statements covers a few of them.", "anchors": ["include/common/value_impl.hpp:value::at", "include/common/value_impl.hpp:value::operator[]", "include/common/value_impl.hpp:value::as_array", "include/common/value_impl.hpp:value::as_object", "include/common/array_impl.hpp:array::operator[]", "include/common/object_impl.hpp:object::operator[]"]}
{"id": "C71", "title": "indented output is the compact output laid out", "statement": "dumps(n) is the text of dumps() with a line break after each opening bracket and comma and before each closing bracket, a space after each colon, and each line indented by n spaces for each open bracket; strings are untouched. Without the white space outside strings it is dumps() again.", "quantifier": "every value that stands for a JSON document, every indent width", "why_tests_cant": "Depends on the nesting and on what strings contain; samples show a few shapes.", "anchors": ["include/common/value_impl.hpp:value::format_to", "include/common/array_impl.hpp:array::format_to", "include/common/object_impl.hpp:object::format_to"]}
{"id": "C72", "title": "which container holds the text does not matter", "statement": "parse and parsec are templates over the container. On a container of one-byte characters with random access they give what they give on a string with the same characters.", "quantifier": "every text, every division of the container's memory into pieces, every acceleration trait", "why_tests_cant": "Whether a block of characters lies across two pieces of memory depends on lengths and offsets; the reads do no visible harm most of the time.", "anchors": ["include/parser/parser_impl.hpp:parser::skip_string_literal_with_accel", "include/parser/parser_impl.hpp:parse"]}
{"id": "C73", "title": "parse can be called with texts, C strings and streams", "statement": "parse(x) compiles for a text container, a string literal, a char array, a pointer to char and a stream, and means the overload for that kind of argument.", "quantifier": "every kind of argument, with and without flags", "why_tests_cant": "Tests call it with the kinds their authors thought of.", "anchors": ["include/parser/parser_impl.hpp:parse(std::istream&)", "include/parser/parser_impl.hpp:parse(const char*)"]}
{"id": "C74", "title": "a conversion that the user writes is the one that is used", "statement": "If the user has written to_json for a type, in the class or in ext::jsonization, then json::value(x) uses it; likewise is<T>() uses check_json, and as<T>() uses from_json, for lvalues and rvalues.", "quantifier": "every kind of type, every set of functions the user has written for it, every value category", "why_tests_cant": "Which function is used is decided at compile time by some thirty constrained templates, type by type; the tests have user conversions for one plain struct.", "anchors": ["include/common/value.hpp:value::value(const jsonization_t&)", "include/common/value.hpp:value::operator jsonization_t", "include/common/value_impl.hpp:value::is", "include/common/value_impl.hpp:value::as", "include/common/utils.hpp:has_to_json_in_templ_spec"]}
{"id": "C75", "title": "copying and destroying cost what the value is worth", "statement": "Copying a value makes one allocation for each value in it and keeps one block for each array and object; destroying a value frees exactly the blocks of its arrays and objects, which were all live. Both need exactly as many calls inside each other as values are inside each other, for which there is no limit.", "quantifier": "every history of statements, every variable or part of one; depth: every number", "why_tests_cant": "Both are recursive without a limit: whoever can send deeply nested text decides how much stack the destructor needs.", "anchors": ["include/common/value_impl.hpp:value::deep_copy", "include/common/value.hpp:value::~value", "include/common/array_impl.hpp:array::array(const array&)", "include/common/object_impl.hpp:object::object(const object&)"]}
{"id": "C76", "title": "the README is right", "statement": "Every output that the README gives for its example code is what the code prints or stores.", "quantifier": "all eleven texts given in README_en.md, a build without MEOJSON_KEEP_FLOATING_PRECISION", "why_tests_cant": "The README is the only documentation of the library, and nothing checks it.", "anchors": ["README_en.md:46", "README_en.md:128", "README_en.md:363", "README_en.md:365", "include/common/value_impl.hpp:operator<<(std::ostream&, const value&)", "include/common/value_impl.hpp:value::operator[](size_t)"]}
{"id": "C77", "title": "a class whose objects can be written can be read back", "statement": "If json::value(x) compiles for a const x of a class, it compiles for x of every category, static_cast to the class compiles, and gives back all that was written.", "quantifier": "every class, described by the members the library looks at; the containers of the standard library; every map", "why_tests_cant": "The library supports all containers by looking at their members; the tests use about ten of the classes.", "anchors": ["include/common/utils.hpp:is_container", "include/common/utils.hpp:is_map", "include/common/utils.hpp:is_fixed_array", "include/common/utils.hpp:is_nullable", "include/common/utils.hpp:is_tuple_like", "include/common/value.hpp:value::value(collection_t&&)", "include/common/array_impl.hpp:array::array(collection_t&&)", "include/common/array_impl.hpp:array::as", "include/common/object_impl.hpp:object::object(const map_t&)"]}
{"id": "C78", "title": "asking a value what it is does not end the program", "statement": "is<T>(), type_name() and value_info() are noexcept: they answer for every value and every type, whatever the functions they call do, also when there is no memory left.", "quantifier": "every type T, every well-formed value, every moment at which memory may be short, every check_json of the user", "why_tests_cant": "An exception inside a noexcept function is std::terminate; where texts get longer than a std::string holds without memory depends on keys and values.", "anchors": ["include/common/value_impl.hpp:value::is", "include/common/value_impl.hpp:value::type_name", "include/common/value_impl.hpp:value::value_info", "include/reflection/jsonization.hpp:checker::_check_json"]}
{"id": "C79", "title": "v == x says whether v holds x", "statement": "For a value v and a C++ value x of a type T that converts to json::value, v == x is true exactly if v.is<T>() and v.as<T>() equals x; v != x is the opposite; json::value(x) == x; and comparing does not change x.", "quantifier": "every supported type, every value of it, every JSON value, every value category of x", "why_tests_cant": "It looks like a comparison of x; it converts x to json first, and then compares texts.", "anchors": ["include/common/value.hpp:value::operator==", "include/common/value_impl.hpp:value::operator==", "include/common/value.hpp:value::value"]}
{"id": "C80", "title": "what is printed to a stream can be parsed", "statement": "For every value whose root is an array or an object, what out << v appends to a stream that is good is read back by json::parse as v, whatever the format state of the stream (width, fill, adjustment); the format state is left as a string insertion leaves it.", "quantifier": "every JSON value with a container as root, every state of the stream", "why_tests_cant": "Manipulators left over from earlier output are part of the state of a stream; tests print to fresh ones.", "anchors": ["include/common/value_impl.hpp:operator<<", "include/common/array_impl.hpp:operator<<", "include/common/object_impl.hpp:operator<<"]}
{"id": "C81", "title": "elements can be erased while walking", "statement": "Walking an array or an object visits every element once and in order; erase(iterator) removes exactly the element it refers to and does nothing at end(); and a loop that steps an iterator and erases the elements that fulfil a condition ends with exactly the others, for arrays and for objects.", "quantifier": "every array and object, every condition, every other iterator the program holds", "why_tests_cant": "Iterators that have become invalid often still work in the runs a test sees.", "anchors": ["include/common/array_impl.hpp:array::erase", "include/common/object_impl.hpp:object::erase", "include/common/array_impl.hpp:array::begin", "include/common/object_impl.hpp:object::begin", "include/common/array_impl.hpp:array::rbegin", "include/common/array_impl.hpp:array::emplace_back"]}
{"id": "C82", "title": "an argument in the place of a key means what it says", "statement": "For every function that takes a key or a position, every kind of argument either does not compile or means what it says: a non-negative number the element at that position, a text the member with that key, an iterator the element it refers to. Booleans, characters, fractions, negative numbers, null pointers do not silently become positions or keys.", "quantifier": "every function of value, array and object that selects one element, every kind of argument, language versions before and since C++23, both sizes of size_t", "why_tests_cant": "Overloads for size_t and std::string with implicit conversions take arguments the caller did not mean.", "anchors": ["include/common/value.hpp:value::operator[]", "include/common/value_impl.hpp:value::get_helper", "include/common/value_impl.hpp:value::find_value", "include/common/array_impl.hpp:array::get_helper", "include/common/object_impl.hpp:object::get_helper", "include/common/array_impl.hpp:array::erase", "include/common/object_impl.hpp:object::erase"]}
{"id": "C83", "title": "bit counting gives the same in every build", "statement": "countl_zero, countr_zero, countl_one and countr_one count the consecutive zero or one bits from the high or low end, for every word of 32 and 64 bits, 0 and all ones included, whichever of the four implementations is compiled (C++20 library, GCC/clang builtins, MSVC with and without AVX2); is_little_endian is true exactly on little-endian machines.", "quantifier": "every build that compiles, both widths, every word", "why_tests_cant": "The builtins are undefined for 0 and the position of an escape in a string is computed from these counts.", "anchors": ["include/parser/bitops.hpp:json::_bitops::countl_zero", "include/parser/bitops.hpp:json::_bitops::countr_zero", "include/parser/bitops.hpp:json::_bitops::countr_one", "include/parser/bitops.hpp:json::_bitops::is_little_endian"]}
{"id": "C84", "title": "the build options decide how strings are scanned and nothing else", "statement": "MEOJSON_DISABLE_PACKED_BYTES makes the parser read strings byte by byte; and whichever macros the compiler and the user define, builds of the same program for different targets read the same texts with the same result.", "quantifier": "every combination of macros, pointer size and byte order; every text", "why_tests_cant": "A test runs on one target.", "anchors": ["include/parser/packed_bytes.hpp:json::_packed_bytes::packed_bytes_trait_max", "include/parser/packed_bytes_x86.hpp:json::_packed_bytes::packed_bytes", "include/parser/packed_bytes_arm.hpp:json::_packed_bytes::packed_bytes", "include/parser/parser.hpp:json::parser"]}
{"id": "C85", "title": "what an expression hands out can be used in the next statement", "statement": "After `auto&& r = e;`, and in the body of `for (auto&& x : e)`, where e is made of a name or a call such as json::parse(s) and accessors (at, [], find, find_value, as_array, as_object, *), what r denotes is still there and is what e denoted.", "quantifier": "every operation history, every start, every chain of accessors that compiles and finds what it looks for", "why_tests_cant": "Use after the end of a lifetime often goes unnoticed; every combination of accessors.", "anchors": ["include/common/value_impl.hpp:value::at", "include/common/value_impl.hpp:value::find", "include/common/value_impl.hpp:value::as_array", "include/common/value_impl.hpp:value::as_object", "include/common/array_impl.hpp:array::at", "include/common/object_impl.hpp:object::at", "include/parser/parser_impl.hpp:parser::parse"]}
{"id": "C86", "title": "a parse leaves nothing behind but its result", "statement": "Whatever the text and whichever allocations fail, parsing frees everything it has allocated except what the value it returns owns, frees nothing twice and nothing else, and touches no value that was there before. Memory only decides whether std::bad_alloc leaves the parser; when it does not, the result is the value of the text, or nullopt.", "quantifier": "every text, every heap, every set of failing allocations, both modes, every build", "why_tests_cant": "A leak or a double free on the error paths of a parser is not seen by tests of its results.", "anchors": ["include/parser/parser_impl.hpp:parser::parse", "include/parser/parser_impl.hpp:parser::parse_value", "include/parser/parser_impl.hpp:parser::parse_array", "include/parser/parser_impl.hpp:parser::parse_object"]}
{"id": "C87", "title": "the exception of a failed conversion says what was wrong", "statement": "When as<T>() throws, the text of the exception names the type that was wanted and describes the value that was there instead, for the innermost part that does not fit; for a struct it tells which member; and it is of bounded length whatever the document.", "quantifier": "every type T, every well-formed value", "why_tests_cant": "Texts of exceptions are read when something has gone wrong with input nobody tried.", "anchors": ["include/common/value_impl.hpp:value::as", "include/common/value_impl.hpp:value::as_integer", "include/common/value_impl.hpp:_value_impl_detail::parse_integer", "include/common/value_impl.hpp:_value_impl_detail::parse_floating", "include/common/array_impl.hpp:array::as", "include/common/value_impl.hpp:value::to_variant_helper"]}
{"id": "C88", "title": "threads that work on different parts of one document do not interfere", "statement": "A statement on json values reads only the slots its expressions denote, what is below them and the way to them, and changes only the slots it writes and what is below these; no other element of a container on the way changes, nor its size or keys. So threads whose statements change only places apart from all places of the others may work on members and elements of one document without locks, and under every schedule each gets what it gets alone. Adding or erasing a member counts as a change of the container.", "quantifier": "every history before, every number of threads, every schedule, every allocation failure; for parts that exist", "why_tests_cant": "The usual way to process one document in parallel; C64 allows it only for different variables.", "anchors": ["include/common/value_impl.hpp:value::operator[]", "include/common/value_impl.hpp:value::operator=(const value&)", "include/common/value_impl.hpp:value::as_object()", "include/common/array_impl.hpp:array::operator[]", "include/common/object_impl.hpp:object::operator[]"]}
{"id": "C89", "title": "compact output is the shortest text of a value", "statement": "v.dumps() is never longer than a text that was parsed to v: every text that parse or parsec reads as v, in whatever layout, with whatever escapes, comments, member order or trailing content, has at least as many bytes as v.dumps(), which itself is read as v. The same holds against every spelling of v in the grammar of RFC 8259 and for the indented form. The parsed value is never larger than its text, counted as one per value plus the bytes of texts and keys.", "quantifier": "every build, both dialects, every text", "why_tests_cant": "Rewriting a document with dumps() cannot make it grow, so buffers sized by the input suffice; a small text cannot expand to a large document.", "anchors": ["include/common/utils.hpp:append_escaped_string", "include/common/value_impl.hpp:value::dump_to", "include/common/array_impl.hpp:array::dump_to", "include/common/object_impl.hpp:object::dump_to", "include/parser/parser_impl.hpp:parse_value"]}
{"id": "C90", "title": "std::swap exchanges two values", "statement": "std::swap(a, b) of two values that programs can name exchanges them: each place then holds what the other held, nothing else changes, nothing leaks and no memory is asked for. References to a and b still designate these places, references to their parts have gone along with the values. std::swap(a, a) changes nothing, and std::reverse on the iterators of an array reverses it.", "quantifier": "every history before, every two places, every content of moved-from strings", "why_tests_cant": "std::swap, std::reverse and the sorting algorithms work on json values only through the defaulted move operations; whether these suffice is not obvious for values in one document.", "anchors": ["include/common/value_impl.hpp:value::value(value&&)", "include/common/value_impl.hpp:value::operator=(value&&)", "include/common/array_impl.hpp:array::begin", "include/common/array_impl.hpp:array::end"]}
{"id": "C91", "title": "arrays and objects convert like the values that hold them", "statement": "json::array(x) is json::value(x).as_array() and json::object(x) is json::value(x).as_object(), with the same exceptions: for containers, tuples, maps, values and classes with to_json or MEO_JSONIZATION. arr.as<T>() and obj.as<T>(), and static_cast<T> for classes, give what as<T>() of a value that holds arr or obj gives. Hence an object that survives the way into a value and back survives the way into an array or object and back.", "quantifier": "every type, every object of it, every array and object, every category of the argument", "why_tests_cant": "Arrays and objects repeat the constructors and conversions of values in code of their own, and they are used implicitly where v += x and v |= x expect an array or an object.", "anchors": ["include/common/array_impl.hpp:array::array(const collection_t&)", "include/common/array_impl.hpp:array::array(tuple_t<args_t...>)", "include/common/array_impl.hpp:array::as", "include/common/object_impl.hpp:object::object(const map_t&)", "include/common/object_impl.hpp:object::as", "include/common/value.hpp:value::operator array", "include/common/value.hpp:value::operator T"]}
{"id": "C92", "title": "editing a document changes what it names and nothing else", "statement": "A statement doc[s1][s2]... = x (or .emplace, .erase, .clear) on a document changes the part that the subscripts name, making members on the way that are missing: afterwards the part is what the statement makes of it, and every part that neither contains it nor lies in it is as before. If a subscript meets a value of another type that is not empty, json::exception is thrown and the whole document is as it was; a position beyond the end of an array is undefined. Whoever reads the text that is written after any number of such statements on a document that was read, in any layout and build, gets the edited document.", "quantifier": "every document and every accepted text, every path, every statement, every sequence of statements, every indent and build", "why_tests_cant": "The typical use of the library: open a configuration file, change settings, save it.", "anchors": ["include/common/value_impl.hpp:value::operator[]", "include/common/value_impl.hpp:value::emplace", "include/common/value_impl.hpp:value::erase", "include/common/value_impl.hpp:value::dumps", "include/parser/parser_impl.hpp:parse"]}
{"id": "C93", "title": "no text makes the parser slow or greedy", "statement": "Counting besides calls and loop passes the bytes that strings copy, the values that growing vectors move and the bytes of keys that maps compare, parsing a text of n bytes takes at most a constant times n log n, whether it is accepted or not. The memory asked for in the course of it, given back or not, is at most a constant times n.", "quantifier": "every byte string, both modes, every build; the containers of every standard library whose buffers grow by half at least and to thrice the need at most and whose maps are balanced", "why_tests_cant": "C07 counts the parser's own steps; a service that reads texts of strangers also pays for what std::string, std::vector and std::map do underneath, and quadratic copying or a memory blow-up would be an attack.", "anchors": ["include/parser/parser_impl.hpp:parse_stdstring", "include/parser/parser_impl.hpp:parse_array", "include/parser/parser_impl.hpp:parse_object", "include/parser/parser_impl.hpp:parse_number"]}
{"id": "C94", "title": "a conversion that moves says the same as one that does not", "statement": "When static_cast<T>(std::move(v)) or std::move(v).as<T>() throws, the text of the exception is the one that the conversion of the const value throws. When move_from_json of the user returns false, the exception describes the value that was given.", "quantifier": "every type T, every well-formed value, every move_from_json, for values, arrays and objects", "why_tests_cant": "The overloads with && are separate functions with texts of their own; the value that they describe may have been taken apart before they describe it.", "anchors": ["include/common/value.hpp:value::operator jsonization_t", "include/common/value_impl.hpp:value::as", "include/common/value_impl.hpp:value::as_array", "include/common/value_impl.hpp:value::move_to_variant_helper", "include/common/array_impl.hpp:array::move_as_tuple_helper", "include/common/array.hpp:array::operator jsonization_t", "include/common/object.hpp:object::operator jsonization_t"]}
{"id": "C95", "title": "converting a document takes work in proportion to the document", "statement": "For every type T there is a factor such that v.is<T>() and v.as<T>() take at most this factor times the length of the text of v, counting calls, passes through loops and bytes read or copied.", "quantifier": "every type T that the conversions accept, classes that contain themselves included, and every document", "why_tests_cant": "A class is often filled from a document that somebody else has written; if a short document can keep the conversion busy for hours, the program can be stopped from outside.", "anchors": ["include/reflection/jsonization.hpp:loader::_from_json", "include/reflection/jsonization.hpp:checker::_check_json", "include/common/value_impl.hpp:value::is", "include/common/value_impl.hpp:value::as", "include/common/value_impl.hpp:value::is_variant_helper", "include/common/value_impl.hpp:value::to_variant_helper"]}
{"id": "C96", "title": "what was saved is loaded and saved alike", "statement": "For every type T and every x of the type: if json::value(x) is v, v.as<T>() is y, and json::value(y) is w, then w == v, so that a file which the program writes, reads and writes again keeps its bytes. This is asked also where y is not x, as with floating-point numbers of which six decimals are kept.", "quantifier": "every type T that the conversions accept, every value of it, both settings of MEOJSON_KEEP_FLOATING_PRECISION, in a locale with a decimal point", "why_tests_cant": "Programs load their settings and save them again. If that alone changes the file, it drifts from run to run, and version control and caches see changes that nobody made.", "anchors": ["include/common/value_impl.hpp:value::value", "include/common/value_impl.hpp:value::as", "include/common/utils.hpp:to_basic_string", "include/reflection/jsonization.hpp:loader::_from_json", "include/reflection/jsonization.hpp:dumper::_to_json"]}
{"id": "C97", "title": "writing a text takes memory and copying in proportion to it", "statement": "Serialising a value into a std::string that grows as it is appended to ends with the text if a string can hold it and memory is not refused, with std::length_error if no string can hold it, and with std::bad_alloc only if memory is refused. For n bytes written, the bytes carried from one buffer to the next, the memory asked for, and the memory held at any moment are at most a constant times n, and the number of buffers asked for is logarithmic in n. escape_string copies nothing twice if there is nothing to escape.", "quantifier": "every value, compact or with any indent; strings of every standard library whose buffers grow by half at least and to thrice the need at most; any refusal of memory", "why_tests_cant": "A text that is put together from copies of its parts, or a buffer that grows by what is needed and no more, gives the same text and passes every test; on a large document it takes quadratic time, or several times the memory. What happens at the limits of std::string cannot be tested at all.", "anchors": ["include/common/value_impl.hpp:value::dump_to", "include/common/value_impl.hpp:value::format_to", "include/common/value_impl.hpp:value::to_string", "include/common/array_impl.hpp:array::dump_to", "include/common/array_impl.hpp:array::format_to", "include/common/object_impl.hpp:object::dump_to", "include/common/object_impl.hpp:object::format_to", "include/common/utils.hpp:append_escaped_string", "include/common/utils.hpp:escape_string"]}
{"id": "C98", "title": "nested braces make the value written, and copy each part as often as there are braces around it", "statement": "A value written as nested braces (json::array{...}, json::object{...}, json::value{...} or bare {...}) is the value written: elements in order, the first of the members with one key, members in the order of their keys; {} is null. Every value can be written so. The elements of an initializer list cannot be moved from, so each value is copied once for each pair of braces around it, and once more for bare braces that are the value of a member: exactly so if no key is written twice, never more than twice the depth times the size, and not bounded by any multiple of the size.", "quantifier": "all literals, nested to any depth, with and without class names; standard libraries whose pair takes braces by copy or by move, and whose map copies a member with a known key or not", "why_tests_cant": "The move iterators in the constructor of json::object look as if nothing were copied. A large literal that is nested deeply is made in quadratic time, and a constructor that kept the last of two members or dropped an element would still compile.", "anchors": ["include/common/array_impl.hpp:29-32", "include/common/object_impl.hpp:31-34", "include/common/value_impl.hpp:200-204", "include/common/value.hpp:76", "include/common/array.hpp:35", "include/common/object.hpp:34"]}
{"id": "C99", "title": "converting to JSON takes work in proportion to the document made", "statement": "json::value(x) takes work at most proportional to the values and bytes of the value it makes, however types are inside each other: the factor is given by the nullable wrappers and variants that are directly inside each other, and classes that contain themselves have the same factor at any depth. From an rvalue, texts and JSON values inside sequences, arrays, tuples, variants and nullable wrappers are moved, so that the work does not depend on their length. (For classes whose members have different keys.)", "quantifier": "every supported type, every value of it, every value category of the argument", "why_tests_cant": "A constructor that copies what it was given at each level gives the same document and takes quadratic work; the conversion in the other direction does so (C95).", "anchors": ["include/common/value.hpp:48-320", "include/common/array_impl.hpp:39-134", "include/common/object_impl.hpp:36-62", "include/common/array_impl.hpp:523-535", "include/reflection/jsonization.hpp:47-82"]}
{"id": "C100", "title": "converting from an rvalue moves what is inside", "statement": "static_cast<T>(std::move(v)) and std::move(v).as<T>() move the texts and values inside v into the result, so that their work grows with the number of elements and members that are converted and not with the length of the texts and the size of the values in them", "quantifier": "every supported type, every document", "why_tests_cant": "The library has a whole second set of conversion operators and of array::as and object::as for rvalues, and callers use std::move to avoid copies of large documents.", "anchors": ["include/common/value_impl.hpp:705-729", "include/common/value_impl.hpp:1161-1182", "include/common/value.hpp:546-648", "include/common/array_impl.hpp:475-521", "include/common/array_impl.hpp:544-549", "include/common/object_impl.hpp:355-368"]}
{"id": "C101", "title": "a conversion from an rvalue that runs out of memory leaves its source alone", "statement": "When memory is refused during static_cast<T>(std::move(v)), the conversion throws std::bad_alloc and v is what it was before, so that the caller still has the document. If memory is refused elsewhere or not at all, the conversion ends as if there were enough.", "quantifier": "every supported type, every well-formed value, every pattern of granted and refused requests, containers that reserve and containers that do not", "why_tests_cant": "The caller gives the document away in the expectation of a result. If neither the result nor the document is there afterwards, nothing can be tried again, and what is left may not even be safe to copy or print.", "anchors": ["include/common/value_impl.hpp:640-666", "include/common/value_impl.hpp:705-729", "include/common/value.hpp:570", "include/common/value.hpp:588", "include/common/array_impl.hpp:475-521", "include/common/object_impl.hpp:355-368"]}
{"id": "C102", "title": "a conversion to JSON that fails leaves its source alone", "statement": "If json::value(x) or json::value(std::move(x)) throws, because memory is refused or because a part of x cannot be converted, then x is what it was before, so that the caller still has it.", "quantifier": "every supported type, const and non-const lvalues and rvalues, every pattern of granted and refused requests, collections with and without size()", "why_tests_cant": "The caller hands over what may be the only copy of the data. A constructor that throws has produced nothing, so data that was moved into it is lost. An lvalue was not even given away.", "anchors": ["include/common/value.hpp:48-320", "include/common/value_impl.hpp:176-198", "include/common/value_impl.hpp:1128-1149", "include/common/array_impl.hpp:39-134", "include/common/array_impl.hpp:523-535", "include/common/object_impl.hpp:36-62", "include/reflection/jsonization.hpp:47-82"]}
{"id": "C103", "title": "a conversion from a const value that runs out of memory says so and loads each member whole or not at all", "statement": "With little memory static_cast<T>(v), v.as<T>() and from_json end as with enough memory, or throw std::bad_alloc: never another exception, a partial result or undefined behaviour. When from_json of a class with MEO_JSONIZATION is interrupted in this way, the first members have the values they have with enough memory, and the others are untouched.", "quantifier": "every supported type, every well-formed value, every class, every earlier content of its members, every pattern of granted and refused requests", "why_tests_cant": "Each conversion makes many requests, and a test would have to let each of them fail for each type. Conversions from rvalues are made of these, so what C101 says rests on it.", "anchors": ["include/common/value_impl.hpp:681-703", "include/common/value_impl.hpp:1151-1159", "include/common/value.hpp:536-655", "include/common/array_impl.hpp:430-473", "include/common/array_impl.hpp:537-542", "include/common/object_impl.hpp:340-353", "include/reflection/jsonization.hpp:140-196"]}
{"id": "C104", "title": "a statement that has run out of memory can be executed again", "statement": "When an assignment, operator[], emplace, erase, +=, |=, as_array or as_object throws std::bad_alloc and the caller executes the same statement again once there is memory, the variables end with the values that the statement should have given them at once.", "quantifier": "every history of statements on variables and their parts, every statement, any number of failed attempts, every failing allocation in each of them", "why_tests_cant": "Freeing some memory and trying again is what a handler of std::bad_alloc is for. Which allocation fails, and how often, cannot be chosen in a test, and a value with a wrong tag looks like any other until it is used.", "anchors": ["include/common/value_impl.hpp:417-425", "include/common/value_impl.hpp:640-666", "include/common/value_impl.hpp:741-755", "include/common/value_impl.hpp:846-852", "include/common/value_impl.hpp:980-1005", "include/common/value_impl.hpp:1039-1093", "include/common/object_impl.hpp:9-21", "include/common/array_impl.hpp:9-19"]}
{"id": "C105", "title": "adding and merging leave the operands alone when they fail", "statement": "v + xs and v | ns give the same result whichever operands are lvalues or rvalues; lvalue operands are never changed; and when the operation throws, both operands are what they were before.", "quantifier": "every sound value, every array or object on the right, all four overloads of each operator, every pattern of refused requests for memory", "why_tests_cant": "std::move(v) + xs is written so that nothing is copied, and the caller may still hold v in a handler. Which of up to dozens of allocations fails cannot be chosen in a test, and a member with a wrong tag is only noticed when it is read.", "anchors": ["include/common/value_impl.hpp:1007-1037", "include/common/value_impl.hpp:1051-1081", "include/common/array_impl.hpp:9-19", "include/common/array_impl.hpp:376-400", "include/common/object_impl.hpp:9-21", "include/common/object_impl.hpp:286-310"]}
{"id": "C106", "title": "what does not matter in a text, and what does", "statement": "Two JSON texts are parsed to equal values exactly if they spell the same document up to white space, the order of members at any depth, and the spelling of characters in strings; the order of elements and the spelling of numbers matter. Equal values are == and are printed alike. The members of an object may be cut out at the commas and put in any order.", "quantifier": "all pairs of JSON texts (and of JSONC texts for parsec), all builds, all permutations of members", "why_tests_cant": "Programs write members in whatever order their maps have, and expect a reader not to care; a cache or a test that compares documents relies on both directions. Tests try a few orders of a few members.", "anchors": ["include/parser/parser_impl.hpp:231-301", "include/common/value_impl.hpp:856-880", "include/common/object.hpp:23", "include/common/object_impl.hpp:324-332"]}
{"id": "C107", "title": "texts can be put together", "statement": "If each of some texts is accepted by parse, then the texts with commas between them and brackets around them are accepted, and give the array of the values; the same for members of an object made of escaped keys and the texts of values, and for what dumps and format write.", "quantifier": "all lists of texts and of values, all builds, each part with an indent of its own", "why_tests_cant": "Records are kept one per line, or come from a cache, and are joined to one document without parsing them again. Whether every text that passes alone passes inside is not a question of a few examples.", "anchors": ["include/parser/parser_impl.hpp:9-60", "include/parser/parser_impl.hpp:174-301", "include/common/value_impl.hpp:762-830", "include/common/utils.hpp:394-453"]}
{"id": "C108", "title": "a document can be edited in its text", "statement": "For every subscript path that leads somewhere in a parsed document, the part it names stands in the text as one stretch; if that stretch is replaced by the text of another value, parse gives the document that assigning the value through the same subscripts gives, and nothing else differs. Likewise an element or member can be cut out, as erase does, and one can be added at the end, as emplace does. With parsec, comments and trailing commas stay.", "quantifier": "all JSON texts, all paths in their documents, all replacing texts and written values, all builds", "why_tests_cant": "Tools that change one setting in a file written by hand keep its layout and comments by editing the text. That the change cannot reach anything else has to hold for every text and every place in it.", "anchors": ["include/parser/parser_impl.hpp:9-301", "include/common/value_impl.hpp:973-1004", "include/common/value_impl.hpp:846-854"]}
{"id": "C109", "title": "a file with one document on each line survives a crash", "statement": "Documents written with dumps(), a line feed after each, are read back line by line. If the writer is stopped at any byte, the reader gets the first documents, at least all whose line is complete, and then at most one line, which parse rejects. A writer that starts again with a line feed loses nothing more.", "quantifier": "all lists of documents, every crash point, all documents written after it, both parsers, all builds", "why_tests_cant": "A log has to be readable after a crash at any byte of any document, with any documents before and after.", "anchors": ["include/common/value_impl.hpp:value::dump_to", "include/common/utils.hpp:append_escaped_string", "include/parser/parser_impl.hpp:parser::parse"]}
{"id": "C110", "title": "a document can be written over an older one", "statement": "While a document is written over an older one in the same file, a reader gets the old document, the new one, or an error, at every moment; when the new one is complete, the new one or an error, whatever is left behind it.", "quantifier": "all pairs of documents, every byte at which the writer stops, both parsers, all builds, all texts behind the document", "why_tests_cant": "Files are rewritten in place, and what is left of a longer old text stays behind the new one. No test tries every pair of documents and every moment.", "anchors": ["include/common/value_impl.hpp:value::dump_to", "include/parser/parser_impl.hpp:parser::parse", "include/parser/parser_impl.hpp:parser::skip_whitespace"]}
{"id": "C111", "title": "documents can be sent one after another", "statement": "A reader that tries parse after every byte that comes in, and starts anew when it succeeds, has at every moment got exactly the documents whose last byte has come in, in their order. The documents need nothing between them; there may be white space, for parsec also comments. Two sequences of written documents with the same bytes are the same sequence.", "quantifier": "all sequences of JSON texts and of written documents with any indents, every moment, both parsers, all builds", "why_tests_cant": "parse has no way to say where a document ends, so a reader of a pipe has to try. No test tries all texts and all moments; one beginning of one document that is accepted too early would shift all that follow.", "anchors": ["include/parser/parser_impl.hpp:parser::parse", "include/parser/parser_impl.hpp:parser::skip_whitespace", "include/common/value_impl.hpp:value::dump_to"]}
{"id": "C112", "title": "a document can travel as a string in another", "statement": "The text of a document, put as a string into another document and that as a string into a third, any number of times, comes out as it went in when each is parsed in turn. An envelope adds a backslash for each quotation mark and backslash in the text and four bytes, no more, so its length is at most doubled; the length after n envelopes is known exactly.", "quantifier": "all documents, any number of envelopes, all builds", "why_tests_cant": "Message queues and logs carry JSON inside JSON. Backslashes multiply with each layer, and tests rarely go deeper than one; whether nothing is lost and how large the text becomes has to hold for every document.", "anchors": ["include/common/utils.hpp:append_escaped_string", "include/parser/parser_impl.hpp:parser::parse_stdstring", "include/common/value_impl.hpp:value::dump_to"]}
