# meojson: formal model and proofs

The subject is the header-only C++ library in `/repo/include` (MistEO/meojson). The
code is read as text; it is not built or run here. Every Lean definition cites the
file and lines it models. The theorems are about the model. What ties the model
to the code is that reading, and nothing else.

## Layout

| Directory | Content |
|---|---|
| `properties.jsonl` | the properties in English |
| `lean/Verif/Model/` | the code, function by function, as total computable Lean functions |
| `lean/Verif/Spec/` | specifications that do not use the model's functions: JSON grammar, UTF-8, decimal numbers, finite maps, a store of values, ... |
| `lean/Verif/Proofs/` | helper lemmas |
| `lean/Verif/Tests/` | the library's own tests, restated about the model; choices of overload resolution as g++ makes them |
| `lean/Verif/Props/` | the property theorems `Cnn_*`, each with a concrete case that meets its hypotheses |
| `MANIFEST.json` | which theorems belong to which property |
| `seeded/LOG.jsonl` | wrong programs tried against the theorems |

A theorem `Cnn_..._partial` proves part of the property; its comment says what is missing. A theorem
`Cnn_refuted...` proves that the code does not have the property as stated, with a witness.

## Model, file by file

| Lean | Code | What it is |
|---|---|---|
| `Basic` | - | outcomes, byte literals |
| `Value` | `value.hpp`, `value_impl.hpp`, `array`, `object` | a value is a type tag and a payload that may disagree with it; `std::map` as a sorted list |
| `Parser` | `parser_impl.hpp` | the parser, with the dialect and the block trait as parameters |
| `PackedBytes` | `packed_bytes*.hpp`, `bitops.hpp` | the 32-bit, 64-bit, SSE, AVX2 and NEON traits |
| `Entry` | `parser_impl.hpp` | `parse`, `parsec`, streams, BOM, `open`, literals |
| `Wide` | `parser_impl.hpp` | the parser on units of 16 or 32 bits |
| `Cost` | `parser_impl.hpp` | the parser again, counting calls, loop passes and nesting; proved equal to `Parser` |
| `Effort` | `parser_impl.hpp` | the parser once more, counting what `std::string`, `std::vector` and `std::map` copy, move and compare, and the memory asked for; capacities, with the growth of the library as a parameter |
| `Serialize` | `dump_to`, `format_to`, `append_escaped_string` | texts of values |
| `Compare` | `operator==` | |
| `Integer` | `std::to_string`, `std::from_chars` as used by the code | |
| `Float`, `FloatText` | `to_basic_string`, `parse_floating` | binary formats, `printf("%f")`, stream output and `strtof/strtod/strtold`, with the C locale's decimal point as a parameter |
| `Access`, `Containers`, `Mutate` | accessors, `get`, `find`, `array` and `object` operations, mutators | on one value at a time |
| `Heap` | `value_impl.hpp` copy, move, assignment, destruction, `+=`, `\|=`, ... | variables, pointers and cells; undefined behaviour, aliasing, allocation failure |
| `Convert` | `is<T>`, `as<T>`, constructors, `jsonization.hpp`, `enum_reflection.hpp` | a universe of C++ types, with the user's own `to_json`, `check_json` and `from_json` as parameters |
| `Macro` | `jsonization.hpp` `MEO_JSONIZATION` | the preprocessor program and the overloads that take its call apart |
| `Work` | `value_impl.hpp`, `array_impl.hpp`, `object_impl.hpp`: `dump_to`, `format_to`, `operator==`; `append_escaped_string` | serialisation and comparison again, counting calls, loop passes, bytes and nesting; proved equal to `Serialize` and `Compare` |
| `Construct` | constructors of `value` and `array`, `value::emplace` | which constructor an argument gets: overload resolution for arithmetic types, pointers and texts; braces |
| `Take` | `as() &&`, conversion operators with `&&` | conversions that move from their source |
| `TakeText` | the same | the same with the text of the exception; conversions by a `move_from_json` of the user’s, from values, arrays and objects |
| `Pour` | value_impl.hpp:762-830; array_impl.hpp:195-240; object_impl.hpp:121-176; utils.hpp:394-453 | serialisation into one `std::string` that grows: capacity, buffers, bytes carried over, `length_error` and `bad_alloc`; no temporary strings, as the source makes none |
| `Literal` | array_impl.hpp:29-32; object_impl.hpp:31-34; value_impl.hpp:200-204; value.hpp:76 | values written as nested braces: what they make, and what is copied for it |
| `StoreWork` | value.hpp:48-320; array_impl.hpp:39-134, 523-535; object_impl.hpp:36-62; jsonization.hpp:47-82 | conversions to JSON once more, with a count of calls, passes and bytes copied |
| `TakeWork` | value_impl.hpp:705-729, 1161-1182; array_impl.hpp:475-521, 544-549; object_impl.hpp:355-368 | the work of conversions from an rvalue, counted as in `ConvertWork` |
| `TakeMemory` | value_impl.hpp:640-666, 705-729; value.hpp:570, 588; array_impl.hpp:475-521; object_impl.hpp:355-368 | conversions from an rvalue with requests for memory that may be refused; conversions with `const&` inside are a parameter |
| `AsMemory` | value_impl.hpp:681-703, 1151-1159; value.hpp:536-655; array_impl.hpp:430-473, 537-542; object_impl.hpp:340-353; jsonization.hpp:140-196 | conversions from a const value, and loading of classes, with requests for memory that may be refused |
| `Join` | value_impl.hpp:1007-1037, 1051-1081; array_impl.hpp:9-19, 376-400; object_impl.hpp:9-21, 286-310 | the four overloads each of `+` and `\|`, with requests for memory that may be refused, and what is left of both operands |
| `StoreMemory` | value.hpp:48-320; value_impl.hpp:176-198, 1128-1149; array_impl.hpp:39-134, 523-535; object_impl.hpp:36-62; jsonization.hpp:47-82 | conversions to JSON with requests for memory that may be refused, and what is left of the source when the constructor throws |
| `ConvertWork` | as `Convert` | `is` and `as` once more, counting calls, loop passes, members of classes, and bytes read or copied; not the search in a map, comparisons in a set, names of enumerations, or functions of the user’s |
| `EnumName` | `enum_reflection.hpp` `name<E, V>()` | cutting a name out of the compiler's text |
| `Handle` | `array_impl.hpp`, `object_impl.hpp`, `value::all`, `operator<<` | arrays and objects that are not inside a value |
| `GetText` | `get` with a string, literal, pointer, view or `nullptr` as default | which text comes back, and whether a view still has something to refer to |
| `View` | conversions to types with `std::string_view` in them | the texts of the result, and where each lives: in the result, at a path of the source, or nowhere any more |
| `Reference` | `value::at`, `operator[]`, `as_array`, `as_object` | references to values and containers, and what they designate after a statement of `Heap` |
| `Storage` | `skip_string_literal_with_accel` | the parser on containers that keep their characters in several pieces |
| `Select` | overloads of `parse` and `parsec` | which of them a call means |
| `Dispatch` | constructors and conversion functions of `value` | which of them a type gets when the user has written conversions for it |
| `Classify` | the traits of utils.hpp:38-109, the constructors and conversion functions for classes | what a class is taken for, and whether it can be written and read; `Spec/Classify` lists the standard classes |
| `Noexcept` | `is`, `type_name`, `value_info`, `_check_json` | the same as in `Convert` and `Report`, with allocations and functions of the user's that throw |
| `Equal` | `operator==`, with a constructor for the right side | `v == x` for an `x` that is no value, and what it does to `x` |
| `Ostream` | the three `operator<<` | what a stream has got, with width, fill and adjustment |
| `Iterate` | `erase(iterator)`, `begin`, `end`, `rbegin`, ... | iterators, which of them are valid, and loops that erase |
| `Swap` | `value(value&&)`, `operator=(value&&)`, `begin`, `end` | `std::swap` and `std::reverse` through references and iterators |
| `Direct` | constructors of `array`, `object` from other types; `array::as`, `object::as`, their `operator T` | conversions without a `value` around |
| `Edit` | `operator[]` in a row, then `=`, `emplace`, `erase`, `clear` | statements on a part of a document |
| `Keys` | the overloads for `size_t pos` and `const std::string& key`, `get_helper` | which overload an argument gets and with which value |
| `Bits` | `bitops.hpp` | the implementations of bit counting other than the one in `PackedBytes` |
| `Target` | `packed_bytes.hpp:20-39, 129-152`, macros | which block traits a build chooses |
| `Temporary` | declarations of the accessors in `value.hpp`, `array.hpp`, `object.hpp` | which objects an expression creates and when they end |
| `ParseHeap` | `parser_impl.hpp` | the parser with the memory it allocates and frees |
| `Report` | `type_name`, `value_info`, `exception::what` | what an exception says about a value |
| `Message` | `as`, `as_integer`, ..., conversion operators, `array::as` | `as<T>()` with the text of the exception it throws |

## Modelling decisions

* Bytes are `UInt8`; texts are `List UInt8`. The C++ `char` may be signed; every comparison in the code is
  an equality or goes through `unsigned char`.
* A parser position is the list of bytes that remain. Dereferencing the empty remainder is the outcome `ub` (undefined
  behaviour). It is a constructor of the result type, so memory safety is a theorem (C06) and not an assumption.
* A reference to an element is the array and an index; one to a member is the object and a key. The reallocation of a buffer
  is not recorded, so C70 promises nothing about the elements themselves of an array that grows; it does about what lies below them,
  whose storage moves along. Map nodes never move.
* The parser's recursion takes fuel. Running out is an outcome as well. C07 proves that it does not occur with fuel linear in the
  input, and that more fuel changes nothing.
* The block traits are a parameter of the parser: a structure with the members of the C++ trait. The concrete traits are
  separate definitions, proved to meet what the parser needs (C49).
* A `json::value` is a type tag and a payload: a text, an array pointer or an object pointer, and a pointer may be null. So moved-from and
  half-assigned values can be expressed. That the library keeps tag and payload in step is a theorem where it is true (C33).
* The outcome of an API call is `ok`, `throw` (with the exception class) or `ub`. Exception texts are left out, but in `Report` (the part that describes the value), `Message` and `TakeText`. A `noexcept` function that
  throws is `ub` in the model (in the program, `std::terminate`).
* `std::map<std::string, value>` is a list of pairs with insert, find and erase on the sorted order; `std::vector` is a list.
* The heap model (`Heap`) has variables and cells. A cell holds a vector or a map. A statement names places: a variable and a path of keys and
  positions. Copying allocates, moving leaves a null pointer (or, of a text, any text), destruction frees. There are copying and moving forms of the statements. Any function from addresses to booleans says which allocations
  fail. The specification (`Spec/Heap`) is a store of plain trees in which statements act on values, without pointers. Threads (`Spec/Race`) interleave
  whole statements; which memory a statement reads and writes is a theorem (`C64_private`; for parts of values `C88_private`), not an assumption.
  For parts it is assumed that `std::map::operator[]` with a key that is there and `vector::operator[]` only read the container; with `at` or with references taken before
  the threads start nothing has to be assumed.
* Destroying a variant's old alternative before moving from a source inside it is modelled as the standard orders it (use after free: C36).
* C++ types of the conversion templates are codes of an inductive type (`Ty`). Overload resolution and SFINAE are read by hand, and the branch they
  choose is modelled. This includes that `static_cast<std::optional<T>>(v)`, `static_cast<std::tuple<T>>(v)` and
  `static_cast<std::variant<...>>(v)` may choose a converting constructor of the standard type instead of the library's
  operator. These rules were checked with g++ 13 on small programs of our own that mimic the signatures (not on the library).
* `Apt t v` (Spec/Convert) says that type `t` gets on with value `v`: none of the combinations occurs for which `is` and `as` disagree.
  `Regular t` says so for every value.
* Rvalue conversions (`Take`) return what is left of the source along with the result, also when they throw.
* Enum names (`EnumName`): the text of `__PRETTY_FUNCTION__` is produced by a function of the declaration; gcc's spelling was observed with g++ 13 on a
  function of our own, clang's and MSVC's are from documentation. `Convert` works with any table of texts.
* Floating point: a format is (precision, exponent range); values are sign, integer significand and exponent. Printing rounds the exact decimal
  expansion half to even, reading rounds the exact rational half to even; overflow and underflow raise `std::out_of_range` as glibc's `strtod` with `errno` makes
  `std::stod` do.

## Not modelled

Formatting flags of iostreams when numbers are converted (for `operator<<` they are: C80); whether a program compiles, other than in `Dispatch`, `Select`, `Classify`, `Construct` and `Macro`; stack exhaustion (the depth of recursion is: C50, C68, C75);
running out of memory outside the heap model, the parser, serialisation (`Pour`), conversions (`AsMemory`, `TakeMemory`, `StoreMemory`), `Join` and `Noexcept`; threads that write what others use (that they conflict is stated, not what then happens); exception texts other than those of conversions (C87, C94); what `move_to_json` of the user does (when it is called is: C74);
`std::filesystem::path` (with POSIX, a string by another name); iterators across moves and swaps of whole containers; hash order of `std::unordered_map` sources (an arbitrary order of the pairs is allowed for).

## Trusted base

Lean 4.33.0's kernel; the axioms `propext`, `Quot.sound`, `Classical.choice` and no others (the gate audits
each theorem); the reading of the C++ code and of the C++ standard library described above; the files under `Verif/Spec`. Mathlib
is used for lemmas and tactics (`List.Forall₂`, ordered fields, `linarith`), which the kernel checks like the rest.

## Checks of the model

Besides the theorems, the model itself was compared with other readings of the code. None of this runs the library.

* The parser was transcribed a second time, independently, from `parser_impl.hpp` to Python. On 66 000 random texts, in both dialects and with every trait
  and without one, the two transcriptions give the same result.
* Printing and reading of floating-point numbers was compared with glibc and libstdc++ (calls of `snprintf`, `std::stof`, `std::stod` and `std::stold` in programs of our own): 18 306 cases for
  the three formats, including overflow and underflow, without a difference.
* Rules of the language and of the standard library that the model relies on (overload resolution, order of destruction, moved-from states) were checked with g++ 13 on small programs
  of our own.
* The assertions of the library's own tests (`test/*.cpp`) and the outputs given in the comments of `sample/sample.cpp` were restated about the model and are checked by the kernel:
  `lean/Verif/Tests/`. The assertions hold; of the outputs in the sample two are on one line in the comments and on several in fact (C76). The statements of `serializing_test.cpp` and `sample.cpp` run in the memory model. Two large inputs are smaller there (an array of 100 instead of 1000
  elements, an object of 30 instead of 100 members).
* Wrong programs: `seeded/LOG.jsonl`. An edit is made in a copy; examples and the tests in `Tests/` do not count, only theorems that fail. Attempts named `auto.*` are made by a script; for them the
  build is stopped at the first theorem that fails, and the edits after which the model itself does not type-check (over 700) are not in the log. `survived` is what happened when the edit was first tried. `tightened` then names what was added in answer, and `note` says why nothing was needed.

## Per property

### C01 parse accepts every JSON text with an array or object root: proved

Grammar relation `Spec/Grammar`; completeness by induction on derivations.

### C02 parse accepts nothing that is not JSON: partial

Soundness by induction on fuel, against a relation for what is accepted (`Spec/Lenient`). For each build exactly: a grammar in which a literal knows what follows it (`Spec/Located`). False as stated: C02_refuted. C02_partial and C02_builds_partial say exactly what each build accepts: a JSON text up to the tail (C03) and surrogate gaps (C04).

### C03 nothing but whitespace may follow the root: partial

As C02, for the tail after the root. False as stated: C03_refuted (after the root, NUL or a slash ends the reading whatever follows). C03_partial characterises the tails.

### C04 surrogate escapes are accepted only as adjacent pairs: partial

As C02, for string literals. False as stated: C04_refuted, C04_refuted_packed. C04_partial: a half is never accepted alone. C04_literals_partial: exactly the literals each build reads.

### C05 the result does not depend on the vector instruction set: partial

The languages of the builds (C02) are compared; traits by C49. False as stated: C05_refuted, C05_differ (surrogate gaps). Proved: scalar acceptance implies acceptance by all builds, same value; two accepting builds agree; which builds read the same texts (SSE2, SSE4.1, NEON; little-endian words of 4 and 8 bytes) and how the others are ordered; full agreement on texts without surrogate escapes and on JSON texts.

### C06 the parser never reads outside its input: proved

`ub` is shown unreachable for every input, dialect and trait, by induction on fuel.

### C07 parsing terminates in linear work: proved

Instrumented copy `Model/Cost`, proved equal to the parser; linear bound by induction. Counts calls and loop passes of the parser; the work inside std containers and block operations is not counted.

### C08 compact serialisation round-trips: proved

Dumped text is in the grammar with the value as its reading; then C01.

### C09 indented serialisation round-trips for every indent width: proved

As C08 for `format`, any indentation.

### C10 what was parsed can be serialised and parsed again: proved

Values that parse returns are well formed; then C08.

### C11 compact output is one printable line: proved

Structural induction on values.

### C12 output is standard JSON: proved

Structural induction on values.

### C13 serialisation is canonical: proved

Through the reading relation of C08.

### C14 a repeated key is rejected at any depth: proved

Keys of the members of a derivation.

### C15 parsec accepts everything parse accepts: partial

Both dialects through the relations of C02. False as stated: C15_refuted (a slash tail that parse ignores but parsec reads as an unfinished comment or trailing text). Proved: parsec returns the same value or fails, the exact condition, and the language of parsec for each build.

### C16 comments and trailing commas do not change the value: proved

Grammar with comments; erasing them.

### C17 a truncated document is rejected: proved

Truncations of texts, against the grammar.

### C18 unicode escapes decode to UTF-8: proved

Arithmetic on code points against Lean core's UTF-8 encoder.

### C19 number texts are preserved: proved

Number grammar; the stored text is the literal.

### C20 integers survive construction and extraction: proved

Digits of integers; `to_string` then `from_chars`.

### C21 integer extraction never wraps: partial

`from_chars` against the denotation of decimal texts. False as stated: C21_refuted (-0 is an integer literal, but unsigned types refuse it). C21_partial covers every other text and type.

### C22 an object behaves as a finite map: proved

Refinement of `object` to a finite map, over every history of operations. erase by iterator is not modelled for objects.

### C23 an array behaves as a sequence: proved

Refinement of `array` to a list, over every history.

### C24 object union is right-biased: proved

Union of finite maps. Union on the maps; that copies leave the operands alone is part of the ownership model.

### C25 const lookups agree with each other and change nothing: proved

Paths of keys and positions in a tree.

### C26 get with a key path never throws: partial

`get` against the path specification and the conversions of C27; text-like defaults, which the code treats separately, in GetText. C26_get: for every is/as pair that agrees on the element reached; C26_get_typed: every type of default that gets on with the element (Apt); C26_text, C26_text_own: string, literal and pointer defaults. C26_refuted: get("k", std::optional<int>()) throws if the element is null (see C27_refuted_optional). C26_refuted_view: with a std::string_view as default the result on an object is a view of a destroyed temporary. C26_refuted_nullptr, C26_refuted_null_pointer: a null pointer as default is undefined or throws.

### C27 is<T>() guarantees as<T>(): partial

Universe of types `Ty`; mutual structural induction. C27_is_as_partial and C27_regular: for every type and value that get on (Apt), is true and as returns, or is false and as throws. C27_defined: for every type and value, is answers and as returns or throws json::exception. Refuted where they do not get on: C27_refuted (enum with underlying type bool), C27_refuted_optional (null for a std::optional), C27_refuted_tuple (one-element tuple).

### C28 C++ values survive conversion to json and back: partial

Mutual structural induction on types and values. C28_roundtrip_partial: for every type and every value of which nothing is lost (Lossless: exact floating-point text, unambiguous enumerators, no empty std::optional, no null inside a smart pointer, no one-element tuple, no earlier matching alternative, distinct struct keys). C28_optional_lost, C28_nested_pointer, C28_tuple_lost, C28_variant, C28_same_key show that the conditions are needed.

### C29 a variant takes the first alternative that matches: partial

Cases of the alternatives. C29_first_partial: for alternatives none of which a json::value converts to implicitly. C29_chosen: otherwise the converting constructor of std::variant takes that alternative, whatever the value; C29_choice, C29_implicit say which one. C29_refuted: variant<int, json::value>.

### C30 check_json and from_json agree: partial

Struct descriptions as lists of members with their tags. C30_agree_partial: where the members get on with what they are read from. C30_defined: in general from_json does what is stated or throws json::exception. C30_refuted: a null under the key of a std::optional member. C30_not_atomic: a failing from_json may have overwritten earlier fields, as the statement allows.

### C31 structs survive to_json and from_json: proved

As C30, with C28 for the members. C31_empty_optional_lost: a struct with an empty std::optional does not come back (C28). C31_all_optional_accepts_scalars: a struct all of whose members are MEO_OPT accepts every non-object.

### C32 enums survive conversion to their name and back: partial

Tables of names. Round trip for enums whose names differ in more than case; values outside the range throw if they and their distance from min fit an int. C32_refuted (red/RED), C32_refuted_wide (64-bit value truncated to another name), C32_refuted_overflow (signed overflow).

### C33 the type tag always matches the payload: partial

Heap model refined to a store of trees; representation relation with separation; every history. False as stated: C33_refuted (a["k"] = a copies a half-written value), C33_append_self, C33_append_empty, C33_merge_empty, C33_merge_part, C33_append_move_self, C33_merge_move_part (+= and |= with overlapping operands are undefined). C33_partial: every history (copying and moving statements) that follows the store specification is run without undefined behaviour and shows the specified values; C33_covered: all statements on values that were not moved from are covered, except twelve kinds of overlap. C33_merge_into_part: o["k"] |= o is defined but does not give the value of the operands before the statement; C33_merge_move_self: o |= std::move(o) may lose the texts of o.

### C34 a moved-from value can be assigned to or cleared: proved

Heap model. C34_moved_from_read, C34_copy_undefined and C34_use_undefined record that reading, copying or using what a moved-from value held is undefined.

### C35 a copy is independent of its original: proved

Heap model: separation of the copies' cells.

### C36 assigning a part of a value to the value itself works: partial

Heap model, places inside the assigned value. False as stated: C36_refuted (v = std::move(v["k"]) with different kinds of payload is a use after free). C36_partial: copy at any depth, move if the kinds agree.

### C37 a failed copy assignment leaves a usable value: partial

Heap model with failing allocations. False as stated: C37_refuted (the tag is written before the copy is made). C37_partial: only the tag of the target can be wrong, nothing leaks.

### C38 == is an equivalence and deep: proved

Structural induction on pairs of values.

### C39 a failing mutator changes nothing: partial

Cases of the mutators. False as stated: C39_refuted (erase on a null value turns it into {} or []). C39_partial: the only such values are null, "", [] and {}; every mutator that throws changes nothing.

### C40 a byte order mark is skipped only when asked: proved

Streams as byte lists with a length.

### C41 the JSON literals fall back to empty: proved

Cases.

### C42 trailing NUL padding is harmless: partial

Through the relations of C02. False as stated for packed builds: C42_refuted. Proved: padding never loses a text or changes its value; padding of a block or more makes no further difference; no difference for the scalar build, for texts without surrogate escapes and for JSON texts; C strings.

### C43 every number constructor yields a JSON number: partial

Exact rational arithmetic for printing and reading. Proved for locales with a decimal point: integers, the default build (within half a millionth, always readable, nearest value), reading any JSON number (nearest-even, exact overflow and underflow conditions), and the precision-keeping build (normal values round-trip). Refuted for comma locales and for subnormals in the precision-keeping build.

### C44 invalid values cannot be serialised silently: proved

Structural induction on values.

### C45 wrong-type access throws json::exception: proved

Cases of the accessors; `C45_floats` for the floating-point ones.

### C46 operator[] creates what is missing and nothing else: proved

Map specification.

### C47 merging and concatenating values: proved

List and map specification.

### C48 escaping is inverse to unescaping: proved

Induction on the text, with C18 for the escapes.

### C49 block scanning finds the first special byte: proved

Borrow arithmetic on words for 32 and 64 bits; lane-wise for SIMD. The index of the first flag is given exactly for both byte orders.

### C50 nesting is bounded only by the input: proved

Depth counter in `Model/Cost`. Activations of parse_array and parse_object; stack bytes are not modelled.

### C51 converting a variable to json does not change it: partial

Value categories of constructor arguments (`Cat`); induction on types. C51_const_partial, C51_lvalue_partial: kept unless a nullable wrapper of non-plain content is converted as a non-const lvalue or sits behind a smart pointer. C51_refuted, C51_refuted_twice, C51_const_refuted.

### C52 no leak, no double free: partial

Heap model: the cells reachable from the variables are all the cells. Programs are trees: each statement has a successor and a handler, and any set of allocations may fail. False as stated: C52_cycle_leaks (v["k"] = std::move(v)) and C52_move_into_itself_leaks (v.emplace(std::move(v)) and others). C52_no_leak covers every history that follows the specification, for copying and moving statements. C52_programs covers programs with handlers in which any number of allocations fail, C52_unwinding programs without handlers.

### C53 emplace, erase, positional access and clear change exactly what they name: proved

List and map specification. emplace, erase, positional access and clear on values

### C54 converting from an rvalue gives what converting from a const value gives: partial

`Model/Take` against `Model/Convert`; mutual induction on types. Same result whenever the const conversion succeeds (C54_ok), same outcome on every non-empty value (C54_same_partial), never undefined (C54_defined). Refuted for null, "", [], {}: from an rvalue they convert to empty containers (C54_refuted, C54_refuted_optional); C54_blank says exactly what may happen there.

### C55 a conversion that throws leaves its source alone: partial

`Model/Take`; well-formedness of what is left. A throwing conversion leaves the value unchanged unless a tuple with a json::value among several elements is involved or the value is empty (C55_strong_partial); what is left is well-formed for closed types (C55_sound). Refuted for std::tuple<json::value, int> (C55_refuted, C55_refuted_pointer) and for maps to json::value and json::object, whose members stay behind moved from (C55_object_left).

### C56 enumerators are known by the names they are declared with: partial

`Model/EnumName`; searching the compiler's text. Proved for gcc and clang for every spellable declaration (C56_name, C56_written, C56_read) and for MSVC when the enumerators are spelled with a scope (C56_msvc). Refuted for MSVC and unscoped enums in the global namespace (C56_refuted_msvc) and for gcc with a `;` in a template argument of the scope (C56_refuted_semicolon). The bounds of MEOJSON_ENUM_RANGE are themselves names (C56_range_names). The texts compilers produce are modelled, not proved; clang and MSVC from documentation.

### C57 a wide text means what its UTF-8 encoding means: partial

A second model of the parser, on 32-bit units (`Model/Wide`); simulation by the first for units below 256; a length argument for safety. False as stated: C57_refuted, C57_wrong_text, C57_rejected (units are cut to their low byte, in strings and in numbers). C57_partial: ASCII texts mean the same in both encodings; C57_latin1: units below 256 are taken for bytes; C57_truncated: larger units in a string stand for their low byte; C57_safe: every sequence of units is parsed without undefined behaviour.

### C58 an array or object answers like the value that holds it: proved

Member functions of arrays and objects modelled by themselves (`Model/Handle`) and compared with those of values; the stream by C09 and C40.

### C59 exception texts describe the value: partial

The text of `value_info` (`Model/Report`) on top of the model of enum names (C56); the names of the seven types by evaluation for the three compilers. C59_refuted: the cut after 100 bytes can go through a UTF-8 character. C59_type_name, C59_info, C59_defined, C59_what: the rest as stated. C59_utf8_partial: the message is UTF-8 exactly when the cut goes through no character.

### C60 UTF-8 in, UTF-8 out: proved

UTF-8 as a concatenation of encodings by Lean's own encoder; such a text can be cut in front of every byte that is no continuation byte; induction on the grammar of C02. C60_unchecked: a text that is not UTF-8 is not rejected; its bytes are kept.

### C61 conversions written by the user take part like the built-in ones: proved

The user's functions as parameters of a type (`Ty.user`); the round trip, for every type made of user types (`Ty.MadeOfUsers`), is C28 with the user's as a hypothesis. The user-written functions are assumed to return or to throw json::exception. C27_refuted_user, C27_refuted_user_struct: nothing makes check_json and from_json agree, and in the library's own example they do not.

### C62 a conversion returns a value of the type it names: proved

Mutual induction on types; sorted insertion for sets; `roundFloat_spec` for floating-point numbers. For types put together properly (Proper): sets with a strict order, struct defaults of the right types, user conversions that return values of the user type, a machine that reads floating-point numbers of the format (C62_float: it does).

### C63 a view of text does not outlive the text: partial

A text carries where it lives; induction on types shows that the place is right; `C63_texts` ties the texts to Model/Convert.lean. Refuted by f().as<std::string_view>() and by static_cast<std::vector<std::string_view>>(std::move(v)). Proved: from a variable, for maps, and for types without std::string_view it holds; otherwise exactly the texts that are std::string can be read.

### C64 threads that share values only for reading do not interfere: proved

Two runs of a statement in memories that agree on what belongs to its variables are compared step by step; schedules are reordered by induction. C64_private holds for every statement and every memory; schedules take a statement as one step, allocation is atomic.

### C65 a value whose tag does not fit its payload is refused: partial

Case analysis on tag and payload; each reader is given exactly. C65_refuted: empty(), is<integer>() and the non-const as_array(), as_object() terminate. The partial theorems give every other reader exactly.

### C66 MEO_JSONIZATION converts exactly the listed members: partial

The macros are a function on lists of arguments (counting by position, then one macro per length); overload resolution is a function on the resulting call. Induction on the list; the generated functions are shown equal to those of `Convert`. Refuted as stated: a member called `result` is hidden by a local variable of the generated `to_json` (C66_refuted, C66_hidden, C66_lost). Which lists compile and what is visited is exact (C66_members), and without that name the functions are the ones of the struct type (C66_functions_partial).

### C67 a constructor takes an argument for what it is: partial

The ranking of implicit conversions by the C++ standard is a function from argument and parameter types to numbers; the choice is computed and checked for every arithmetic type and platform, and the value-level statements follow from the ranges of the types. Refuted as stated (C67_refuted): pointers become booleans, exactly as C67_pointer_partial says, and char8_t becomes a number (C67_char8; the other character types do not compile, C67_characters); numbers become sizes of arrays (C67_size, C67_append); braces differ from parentheses (C67_braces, C67_pair, C67_emplace_pair). Other arithmetic types and texts are right on every platform (C67_arithmetic, C67_text, C67_choice).

### C68 serialising and comparing take linear work: proved

`Model/Work` is serialisation and comparison with a count of calls, loop passes and bytes, proved to give the results of `Serialize` and `Compare`. The bounds are by structural induction: in terms of the text for a serialisation that succeeds, in terms of the value for every outcome. Work is counted in calls, loop passes and bytes; growing a std::string is not counted. The constants are in the theorems.

### C69 moving, erasing and ending a lifetime need no memory: partial

The heap model counts allocations. Destroying, replacing and moving leave the counter alone (induction on the depth); a container that is not empty is used as it is. Refuted as stated: erase on a null or empty value allocates, and if that fails the value is left with a wrong tag. True of moves and the end of a lifetime always, and of erase on everything else.

### C70 references stay valid: partial

References are named by container address and index or key. For every statement it is computed which references may designate something else afterwards (`Back`); a path that avoids them leads to the same reference before and after. The places that a reference can lie at are told apart by the separation of footprints. proved for references to values, for every statement of the heap model; refuted for references to arrays and objects, because as_array() and as_object() replace empty ones

### C71 indented output is the compact output laid out: proved

The layout is specified as a function on texts that knows brackets, commas, colons and strings, but no values. Mutual induction over values, with the rest of the text as a parameter; escaped strings never leave the reading of a string. for indentation that fits 64 bits, as the code computes it; C97_layout shows that beyond that no text comes out

### C72 which container holds the text does not matter: partial

The trait carries where the content lies; runs of the parser on both layouts are compared step by step (`Res.Weak`). For every piece size a text is built whose first block begins with the last byte of a piece. refuted for containers in several pieces, such as std::deque<char>; proved: the result is that for a string or undefined, and the former for contents in one piece

### C73 parse can be called with texts, C strings and streams: partial

The rules of overload resolution for the seven kinds of arguments, checked with g++ on declarations of the same shape. refuted for char*, char[N] and classes derived from std::istream, and parsec takes no stream at all; the others and calls with flags proved

### C74 a conversion that the user writes is the one that is used: partial

Overload resolution as a ranking of candidates, then all cases (twelve kinds of types, eight functions, four categories). The tables of the model are compared with the choices of g++ in Tests/Dispatch. refuted as stated: an enum with its own to_json cannot be written, and for types with a constructor of their own to_json is ignored; exact choices for every kind of type, every set of functions and every value category

### C75 copying and destroying cost what the value is worth: proved

The induction of C33 (a value on the heap and the cells it owns) again, with sizes, and with the depth as an equivalence rather than a bound. One block stands for an array or object together with the storage of its elements (`std::vector`, `std::map`); one allocation is counted for each text, although short ones need none. Without allocation failures; for those see C37. C75_copy excludes values containing null pointers (moved-from), which cannot be copied at all (C34).

### C76 the README is right: partial

The statements of the README in the memory model, evaluated by the kernel; that `<<` never writes what `dumps()` does, by induction over lengths. refuted: `std::cout << j` writes several lines where the README gives one (twice), the quotes around "MistEO" are missing in the README, and value["name"][0] throws; the other seven outputs and all conversions are right

### C77 a class whose objects can be written can be read back: partial

A class is what the library sees of it. Overload resolution among the constructors is evaluated for each combination of features that matters; the general theorems rewrite with these. Compared with g++ on a table of 27 classes. refuted as stated (forward_list, vector<bool>, multimap); exact conditions are proved for collections, maps, fixed arrays, nullable classes and for classes of two kinds; the standard classes are listed

### C78 asking a value what it is does not end the program: partial

The functions again with an environment that says what can be allocated and which functions of the user throw; induction over types against the functions without it. refuted as stated: a check_json that throws ends the program, and so does a long key of a struct without memory; type_name and value_info always answer (C78_info); is<T>() answers for every other type (C78_is_partial), and never wrongly (C78_same)

### C79 v == x says whether v holds x: partial

`Model/Equal` on top of the constructors of C28 and `==` of C38; `Spec/Equal` names the types whose values are written in one way only; structural induction on types. refuted as stated (C79_refuted, _float, _small, _enum, _optional, _changed); where nothing is lost in writing x, true means what is claimed (C79_equal_partial); exact for types that are written in one way only, without -0 (C79_exact_partial); when x is left alone (C79_keeps_partial); != is the opposite without exception (C79_differs)

### C80 what is printed to a stream can be parsed: partial

`out << string` of the standard library as a function on streams; the grammar of C01 to C03 and that documents are not prefixes of each other (C17): fill characters in front are either refused at once or open brackets of a document that is cut off, or (slashes in JSONC mode) hide the first line, and the rest is no document. refuted as stated (C80_refuted); exactly when the text is read back, by both kinds of parser, and that it is never read as something else (C80_exact_partial); true without a width or with the fill character streams start with (C80_default_partial); what is written, for every value (C80_written, C80_untouched, C80_once, C80_same)

### C81 elements can be erased while walking: partial

Arrays and objects with named iterators, each valid or not by the rules of the standard; the loops are induction over what is still ahead of the iterator. refuted as stated for arrays (C81_refuted, C81_array_partial is exact); proved for objects with erase(it++), other iterators included (C81_object_partial), and for arrays by position (C81_position); erase, walking and assigning (C81_erase_array, C81_erase_object, C81_walk_array, C81_walk_object, C81_assign); every use of an iterator and when it is undefined (C81_use_array, C81_use_object, C81_room); what is undefined (C81_object_naive, C81_push)

### C82 an argument in the place of a key means what it says: partial

A function from the kind of function called and the argument to the overload chosen and the converted value; the cases, with arithmetic modulo 2^w. The choices are compared with g++ in Tests/Keys.lean. refuted as stated (C82_refuted, C82_surprises); C82_partial gives the arguments for which it holds; the meaning of every kind of argument everywhere (C82_string, C82_text, C82_integer, C82_negative, C82_enumeration, C82_fraction, C82_infinite, C82_nullptr, C82_zero); what never compiles (C82_never) and the only undefined calls (C82_undefined)

### C83 bit counting gives the same in every build: proved

Each implementation from the description of the intrinsic it calls (a search, a logarithm, the loops of the manual); each count fulfils a specification by bits that has one solution. C83_packed links them to the counts that the model of the vector code uses. C83_count; any two builds agree (C83_same), also with the counts in the model of the vector code (C83_packed); byte order (C83_endian); the branch for platforms with neither int nor long of 32 bits is wrong but does not compile there (C83_third)

### C84 the build options decide how strings are scanned and nothing else: partial

The preprocessor conditions as a function of the macros to the trait that is chosen; the consequences for texts are those of C05. The text of C84_refuted is run in five builds by the kernel. refuted as stated (C84_refuted, C84_never_plain). C84_chosen is the exact choice for all macros; C84_same_partial, C84_plain_partial: which targets agree and about which texts; C84_neon; C84_compiles: exactly the builds that do not compile

### C85 what an expression hands out can be used in the next statement: partial

Chains of accessors with their types as the class declarations give them, so that only what compiles is considered. Each creates at most one object; the end of the statement drops the created objects that the reference does not keep. The store of C70 says what is left. refuted as stated (C85_refuted). C85_exact_partial: exactly which expressions leave something usable; C85_within: during the statement everything is; C85_const: what at() hands out is const

### C86 a parse leaves nothing behind but its result: proved

The parser functions once more over the heap of C33, with local variables that are destroyed on every way out. Induction over the steps: each function does what the one without memory does, and has allocated since it was called what its result owns. Text buffers and map nodes are not cells of the heap; one number stands for all allocations of one text.

### C87 the exception of a failed conversion says what was wrong: partial

`as<T>()` once more with the texts; without the texts it is the one of C27. The theorem lists the texts and what is wrong in each case; induction over the type. refuted as stated: numbers are quoted in full (C87_refuted) and a struct does not say which member (C87_refuted_member). C87_innermost_partial: the text is one of a list, about the innermost part that does not fit (a struct with a missing or wrong member counts as a whole). C87_length_partial: at most 200 bytes otherwise.

### C88 threads that work on different parts of one document do not interfere: proved

The comparison of two runs (C64) with single slots of containers instead of whole variables; the places of a store that are apart lie in disjoint memory by induction over the paths; a statement of the specification depends only on the values at its places, also for places that contain or are contained in the changed one. C88_private holds for every statement and every memory in which its places exist; schedules take a statement as one step, allocation is atomic; operator[] with an existing key is taken to read only.

### C89 compact output is the shortest text of a value: proved

Induction over the derivation in the dialect the library reads (lenient strings, comments, trailing commas): each construct is at least as long as what the serialiser writes for its meaning; the length of an object does not depend on the order of members, so sorting does not matter. A code point takes at most six escaped bytes. Length in bytes of the text; the size of a parsed value is counted in values and bytes, not in allocated memory.

### C90 std::swap exchanges two values: partial

A swap is four statements of the heap model, through references bound before: a move construction, two move assignments, the end of the temporary. C70 says where the references lead after each. For places that are apart the effect is the exchange; std::reverse is a loop of swaps. False for a value and a part of it (C90_refuted: the rest of the whole is lost and leaks). Proved for all places that are apart and for a value with itself.

### C91 arrays and objects convert like the values that hold them: partial

The constructors of array and object are modelled beside those of value, with the overloads that a value argument selects; case analysis on the type compares the two. Copies of sound values are equal to them, and an rvalue value goes through the non-const as_array. False as stated: json::array(u) for a class whose to_json gives null, "" or {} is an empty array where the value throws (C91_refuted, exact in C91_moved_array and C91_array_partial); tuples of one element differ (C91_single). Everything else is proved as stated.

### C92 editing a document changes what it names and nothing else: proved

Induction over the relation between a document, subscripts and the part they lead to, one lemma for a step into an object and one for an array; the three cases (leads somewhere, blocked, beyond the end) are shown to be all. C08 and C09 give the way through text. For the memory, the subscripts become statements of the heap model, whose refinement theorem (C33) gives the result. Proved as stated (C92_edit, C92_blocked, C92_beyond, C92_cases, C92_saved); C92_heap relates assignment to the heap model with references.

### C93 no text makes the parser slow or greedy: proved

A third copy of the parser (`Model/Effort`) carries the capacity of every string and vector; its outcome is proved to be the parser’s. Amortised accounting: a buffer of capacity c holding n has 3n − 2c put aside, which pays for carrying it over when it grows. Induction as for C07. That the growth is needed is shown with a vector that grows by one. C93_effort: at most (4 log2(n+1) + 90) n + 10 of calls, passes, copied bytes, moved values and compared key bytes; memory at most (18 values + a map node + a container + 30 bytes) for each byte. C93_document: the counts are no less than what the document is made of and occupies. Examples: libstdc++, libc++ and Microsoft meet the assumptions. C93_growth_needed: with vectors that grow by one it is false.

### C94 a conversion that moves says the same as one that does not: partial

`Model/TakeText` repeats `Model/Take` with texts; without them the two are proved equal. Induction over types as for C54: the elements are sound, so that what each says from an rvalue is what it says from a const value; a blank value has been turned into `[]` or `{}` before. `move_from_json` is an arbitrary function that returns an object or nothing and whatever it leaves of the value. False as stated. C94_same_partial: outcome and text are the same for every value but null, "", [] and {}; C94_blank: for these the text is that of the const value or that of [] or {}; C94_as: std::move(v).as<T>() always says the same. C94_mover_partial and C94_mover_undefined: what happens after move_from_json, for every such function. C94_refuted, C94_refuted_mover, C94_refuted_array.

### C95 converting a document takes work in proportion to the document: partial

`Model/ConvertWork` repeats `Model/Convert` with a count; the results are proved equal. Two inductions over types: one with the size of the type as the factor, one with a factor for the single class and the levels of the document, where distinct keys find distinct members. A class that contains itself is written out to more levels than the document has, with an arbitrary type at the bottom; the counts for the two families of documents are exact, by induction over the levels. False as stated. C95_linear_partial: for each type that does not contain itself, is takes at most the size of the type times the values and bytes of the document, as at most that times the height of the type. C95_modest_partial: without std::variant, a factor that depends on the single classes only and not on how they are nested, times the levels of the document for as. C95_refuted_quadratic and C95_refuted: for two classes that contain themselves no factor does; the exact counts are in C95_chain and C95_tree, doubling with every level in the second. C95_counts: counts to the unit for values of all kinds.

### C96 what was saved is loaded and saved alike: partial

Induction over types as for C28, with what is read back left open. Floating point: what is read is at least as near to the printed number as what was printed, so it rounds to the same millionth, ties included; with the precision kept, nothing else is near enough. False as stated: C96_refuted, and for four kinds of types C96_refuted_set, _variant, _optional, _tuple. C96_saved_partial, C96_again_partial, C96_file_partial: holds for every value under the conditions of `Steady`; C96_float: every floating-point number meets them, in both builds; C96_tidy: every value of a type without the four kinds does.

### C97 writing a text takes memory and copying in proportion to it: proved

`Model/Pour` has the serialiser as the source has it, call by call on one string with a capacity. Each function is proved to be a list of appends followed by an ending, whose concatenation is the text of `Serialize`; an invariant of the string (bytes carried over at most 2.5 times the capacity, buffers asked for at most 3.5 times, capacity grown by a third at least with each request) is then kept by every append. A string that grows by what is needed and no more is shown to be quadratic.

### C98 nested braces make the value written, and copy each part as often as there are braces around it: proved

`Model/Literal` makes a literal from inside out as the compiler does and counts what is copied (compared with g++ 13 on classes of our own). By induction, what is copied for a literal and `n` times the weight of its value is what the literal costs in `n` surroundings; the value of a literal follows from the theorems about `std::map` behind C22. the value, the exact number of copies, both bounds and the growth

### C99 converting to JSON takes work in proportion to the document made: proved

`Model/StoreWork` repeats the constructors of `Model/Convert` with a count; the results are proved equal. Induction over types with the number of layers of wrappers kept open, so that a wrapper is paid for by the value inside it; distinct keys make the weight of an object the sum over its members. for classes with different keys, as stated; C99_same_key shows that the condition is needed

### C100 converting from an rvalue moves what is inside: partial

`Model/TakeWork` counts the work of `Model/Take`. Induction over types against the count of C95: each loop over elements costs at most as much, and as much if no `json::value` is met. false as stated (C100_refuted): only json::value is moved, one level deep. Proved: the exact work where it is moved (C100_moved_partial); for all types without json::value at those places the work equals that from a const lvalue on every document (C100_copied); never more than that (C100_at_most)

### C101 a conversion from an rvalue that runs out of memory leaves its source alone: partial

`Model/TakeMemory` repeats `Model/Take` with numbered requests for memory, any of which may be refused; the conversions with `const&` inside are a parameter with a contract. Induction over types: a conversion agrees with that of `Take` in result and remainder, or a request in its range was refused, and then what is left is bounded by the relation of C55. false as stated (C101_refuted and three more): lists, sets, json::array, objects and smart pointers lose what was moved. Proved: the outcome in every case (C101_outcome, C101_enough), what may be left in every case (C101_left), and that the source stays as it was for the types that move nothing before the last request (C101_strong_partial)

### C102 a conversion to JSON that fails leaves its source alone: partial

`Model/StoreMemory` repeats the constructors of `Model/Convert` with numbered requests for memory, any of which may be refused, and with what is left of the source at every exit. Induction over types: result and remainder agree with `Ty.store` or a request in the range was refused; the remainder is the source with some texts and values moved from; if nothing can fail after the first move, it is the source itself. false as stated (C102_refuted, C102_refuted_lvalue, C102_refuted_memory): tuples, nested lists, maps and collections without size() lose what was moved before the failure. Proved: the outcome in every case (C102_outcome, C102_enough), what may be left in every case (C102_left, C102_inert), and that the source stays as it was for the types in which nothing can fail after the first move (C102_partial)

### C103 a conversion from a const value that runs out of memory says so and loads each member whole or not at all: proved

`Model/AsMemory` repeats `as` of `Model/Convert` with numbered requests for memory, any of which may be refused. Induction over types: a conversion ends as `as` does, or a request in its range was refused; for the members of a class, what is left is a first part of what loading leaves with enough memory and the rest as it was. This is also the contract that C101 asks of conversions with `const&`, so its theorems hold without it (`C103_fair`). C103_outcome, C103_enough, C103_members; C103_fair and C103_rvalue give C101 for the whole library

### C104 a statement that has run out of memory can be executed again: partial

On the heap model. What a failed statement may leave is known from C52 (`Aborted`); for each such remainder, the same statement has the same successor in the store semantics as at first, and the remainder allows another attempt. For merges this is that members put in before are overwritten by the same members. Induction over the attempts. false as stated (C104_refuted, C104_refuted_blank, C104_refuted_part, C104_refuted_move): a null or empty value that was to become a container (C104_blank: whatever the history, the second attempt ends the program), a whole that was to be assigned its own part of another type, and merging with a move. Proved for all other statements, any number of attempts and any failing allocations (C104_partial), and that most statements leave everything as it was when they throw (C104_nothing)

### C105 adding and merging leave the operands alone when they fail: partial

Both operators are one scheme over the operation on the containers: copy or use in place, join, and ask for the result. A lemma about the scheme holds for every operation that does everything or leaves what a relation says. For `append` the relation is that nothing has changed; for `merge` it is found by induction over the members. `Concat` and `United` describe outcomes without the model, `ConcatFailed` and `UnionFailed` the remainders. false as stated (C105_refuted, C105_refuted_right, C105_refuted_tag, C105_refuted_part): rvalue operands may be lost or left half merged. Proved: lvalue operands are never changed (C105_partial), all forms give the same result (C105_forms, C105_enough; the one of C47: C105_agrees), exactly what may be left of rvalue operands (C105_plus, C105_or), and how many requests each form makes (C105_requests, C105_requests_or)

### C106 what does not matter in a text, and what does: proved

`Alike` relates documents that differ in the order of members. The value of a document sorts the members by distinct keys, so a permutation gives the same value (induction over `Alike`); conversely equal sorted lists are permutations of each other, and a permutation of images comes from a permutation of members (induction over the document). With C01, C13, C16 and C38 this is about `parse`, `parsec`, `==` and `dumps`. C106_same and C106_comments for all pairs of texts, both directions; C106_permuted on the texts themselves

### C107 texts can be put together: partial

The parts are values of the grammar with white space around them (C02 for texts, C08 for what is written), so the whole is an array or object of the grammar by induction over the parts, and C01 says how it is parsed. C107_concat and C107_union: a comma inside an array text is +, a comma inside an object text is | when no key is on both sides; the object case compares two sorted lists by their members. false as stated (C107_refuted, C107_refuted_nul): a text that is accepted in spite of what follows its value. Proved for JSON texts (C107_partial), for accepted texts without NUL, slash and surrogate escapes (C107_plain), for what the library writes (C107_dumps), for members (C107_members), and as agreement of the comma with + and | (C107_concat, C107_union)

### C108 a document can be edited in its text: proved

Induction over the path: the text of an element or member is a stretch of the text of the list, and the list with another element there is the list set at that place (elems_spot, members_spot); for objects the sorted members are compared. Subscripts and assignment are those of C92 (follow_part). Cutting and adding: the list without an element (elems_cut, members_cut) or with one more (elems_more, members_more) in the text of the container, which is then replaced as a whole; erase and emplace by C53. C108_needs_value: what is put in must be one value. C108_replace for parse and JSON texts, C108_jsonc for parsec and texts with comments and trailing commas, C108_dumps for values written by the library, C108_erase and C108_add, C108_add_jsonc for taking out and adding; C108_needs_value: text that is not one value can change more.

### C109 a file with one document on each line survives a crash: proved

What `std::getline` sees is `Spec/Lines`. No line feed is inside a line by C11, whole lines are read by C08 and parts of lines are rejected by C17; induction over the documents. C109_needs_newline: if the second writer does not begin with a line feed, the torn line and the new one can together be accepted as a document that nobody wrote, because of what parse allows after the root (C03). C109_read, C109_joined, C109_torn, C109_resumed. C109_needs_newline: that the second writer begins with a line feed is necessary; otherwise a document can be read that was never written.

### C110 a document can be written over an older one: partial

The completeness lemma for values says that exactly the text of the value is read, whatever follows; then the skipping of white space decides (C110_followed, which also says exactly what may follow). C17 for a file that is emptied first. false as stated (C110_refuted): before the new document is complete, a mixture can be read. Proved: when it is complete, the new document or an error, whatever is behind it (C110_partial), and exactly when it is accepted (C110_followed); the new document or an error at every moment if the file is emptied first (C110_emptied); the claim as stated when elements are added at the end of an array or members after the last key of an object (C110_extended, C110_array_grows, C110_object_grows)

### C111 documents can be sent one after another: proved

The reader is `Spec/Arrive`. No proper beginning of a text that ends with its last bracket is accepted (C111_early): white space ends and values end at one place only (ws_det, val_det), also in what parse accepts beyond JSON. Then induction over the documents. C111_stray: the reader never recovers from a byte that cannot begin a document, such as a comma between two. C111_early, C111_arrive, C111_written, C111_unique. C111_brackets: it is enough to try after a closing bracket. C111_tries, C111_work: one parse for each byte, of no more than the longest document. C111_stray: one byte that cannot begin a document, such as a comma, stops such a reader for good.

### C112 a document can travel as a string in another: proved

C08 for each envelope, by induction. For the length: no byte of compact output is below 0x20 (C11), and of the other bytes, tried one by one by the kernel, only the quotation mark and the backslash become two, both of which need a backslash again; the sum is a geometric series. C112_opened, C112_anywhere (any indents, any place), C112_size (exact), C112_growth

## Where code and property disagree

Each item is a theorem with a witness (`Cnn_refuted...` or the name given).

1. C02, C03: after the root, `skip_whitespace` returns false at `/` (strict mode), at a NUL byte and at a malformed
   comment, and `parse()` takes false to mean end of input. `{}/garbage` and `{}\0garbage` are accepted; `parsec` accepts `{} /x`.
2. C15: because of 1, `{}/**/x` is accepted by `parse` and rejected by `parsec`.
3. C04: `"\ud83d\u0041\udca9"` is accepted: a non-surrogate `\u` escape between the halves of a pair does not clear or reject the pending half.
4. C05, C42: with a block trait, plain bytes between the halves are skipped without looking at the pending half, provided the block in which they end
   lies inside the text. So builds differ, and NUL padding can change the result. On a big-endian machine the backslash test of a word also carries into the byte before, and
   a `]` there counts as another backslash (C49_index): such builds differ from the others once more.
5. C21: `as_unsigned()` and the like reject `-0`.
6. C26-C31: `is<std::optional<T>>()` is true for null, but `as<std::optional<T>>()` throws: `static_cast` chooses the
   converting constructor of `std::optional`, not the library's operator. Likewise `std::tuple<T>` and `std::variant<..., json::value>`. So
   `get("k", std::optional<int>())` throws on null, a struct with an empty optional does not survive `to_json`/`from_json`.
7. C27: an enum with underlying type `bool`: `is` and `as` disagree.
8. C30: `from_json` has assigned the earlier members when it fails. C31: a struct whose members are all `MEO_OPT` accepts every non-object.
9. C32: enumerators whose names differ only in case do not round-trip; `static_cast<int>(val) - min` overflows; 64-bit enumerators are truncated.
10. C33, C34, C36: a moved-from array or object keeps its tag with a null pointer; reading or copying it is undefined. `v = std::move(v["k"])` is a use after free when
   the kinds of payload differ. `a["k"] = a` copies a half-written value. `a += a.as_array()` is undefined, with `std::move` too. `o |= o.as_object()` on an empty
   object and `o |= o["k"].as_object()` are uses after free. `o |= std::move(o)` may lose texts (C33). C52: `v.emplace(std::move(v))` and other moves of a value into itself leak.
11. C37: copy assignment writes the tag before it copies: when the copy runs out of memory, tag and payload disagree.
12. C39: `erase` goes through the non-const `as_array`/`as_object`, which turn null, "", [] and {} into an array or object even when nothing is erased.
13. C43: `std::to_string(double)` uses the decimal separator of the C locale, so the text may not be a JSON number; small values print as zero; with
   `MEOJSON_KEEP_FLOATING_PRECISION` subnormals cannot be read back; infinities and NaNs give texts that do not parse.
14. C51: `json::value(x)` for a non-const lvalue `std::optional` moves out of `x`; through a smart pointer it moves even from a const one.
15. C52: `v["k"] = std::move(v)` makes an ownership cycle, which leaks.
16. C54: from an rvalue, null, "", [] and {} convert to empty containers where a const value throws. C55: a conversion to a tuple that throws has hollowed out earlier
   elements; conversions to maps of `json::value` leave the members of the source moved from.
17. C56: with MSVC, unscoped enums in the global namespace have no names; with gcc, a `;` in a template argument hides them; the bounds declared for
   `MEOJSON_ENUM_RANGE` become names themselves.
18. C50: there is no nesting limit.
19. C57: a wide text is cut to the low bytes of its units: U"[\"с\"]" (Cyrillic) is the string `A`, and a unit whose low byte is a digit continues a number.
20. C59: the text of an exception shows the first 100 bytes of a string; the cut can go through a UTF-8 character.
21. C26: `value::get("k", std::string_view(...))` on an object returns a view of a `std::string` that is already destroyed (`json::object::get` returns the string itself); `get("k", nullptr)` compiles until C++20 and constructs a string from a null pointer, or throws if the element is null.
22. C27, C61: nothing makes the user's `check_json` and `from_json` agree, and those of the library's own example and test (`ThirdPartyStruct`: `is_number`, `as_integer`) do not: `is` accepts `1.5`, `as` throws.
23. C63: `f().as<std::string_view>()` compiles, although `operator std::string_view() &&` is deleted, and the view dangles: `as() &&` converts `*this`, which is an lvalue. `static_cast<std::vector<std::string_view>>(std::move(v))` gives views of elements that `array::as() &&` clears before it returns; for a `std::map` they stay.
24. C65: `json::value(json::value::value_type::array).empty()` calls `std::terminate`: the tag says array, the payload is the default (an empty string), and `std::get` throws inside `noexcept`. `is<int>()` does the same for a number tag, and so do the non-const `as_array()` and `as_object()`, which ask `empty()` first.
25. C66: the `to_json` that `MEO_TOJSON` writes has a local variable `result` (jsonization.hpp:431), which hides a data member of that name. `struct { int a = 1; int result = 5; MEO_JSONIZATION(a, result) }` is written as `{"a":1,"result":{"a":1}}`, and its own `from_json` refuses that. `check_json` and `from_json` prefix their variables. Also, 33 members with `MEO_OPT` do not compile, as each tag counts as an argument.
26. C67: of the character types all constructors are deleted but that for `char8_t`, which becomes a number. A pointer that is no `char*` converts to `bool`: `int a[3]; json::value(a)`, `json::value(L"text")`, and an `unsigned char*` text all give `true`. `array(size_t)` is not explicit: `v += 3` appends three nulls, `v += -1` throws `std::length_error`, `arr == 0` holds for an empty array. `json::array b{a}` is `[a]`, not a copy of `a`. `json::value(p)` for a `std::pair` is an array of two, `json::value{p}` an object; `obj.emplace(p)` throws.
27. C69: `erase` on a null or empty value first makes a new container of it (`as_array()`, `as_object()`), which allocates. If that fails, the value keeps its old payload under the new tag: `json::value v = json::array(); v.erase("k")` out of memory leaves an array tagged as object.
28. C70: the non-const `as_array()` and `as_object()` replace an empty container by a new one. `json::array& a = v.as_array(); v.as_array(); a.emplace_back(1);` on an empty `v` writes to a destroyed array; so do `v["k"]`, `v.emplace(1)` and `v.erase(0)` while such a reference is held.
29. C72: `parse(std::deque<char>)` compiles, but `skip_string_literal_with_accel` loads blocks from the address of a character, and a block may lie across two pieces of the deque: undefined behaviour for some texts, whatever the size of the pieces.
30. C73: `json::parse(ifs)` for a `std::ifstream`, and `json::parse(p)` for a `char*` or a `char[N]`, mean the template for containers and do not compile; `json::parse(ifs, false)` does. (C40: `json::open` of a directory throws `std::length_error` on Linux.)
31. C74: a `to_json` in `ext::jsonization` for an enum makes writing the enum ambiguous, so it does not compile; one for a type that has a constructor of its own (`double`, `std::string`, ...) is ignored, while `from_json` for it is used. `std::move(v).as<T>()` ignores a `from_json` in `ext::jsonization` for `std::optional`, smart pointers and variants.
32. C76: the README (and the sample) give the output of `std::cout << j` on one line; it has several. The README also says that `std::cout << value["name"]` prints `MistEO` (it prints quotes) and that `(std::string)value["name"][0]` is `MistEO` (it throws). Its last struct names a member that it does not have.
33. C77: a `std::forward_list` can be written but not read, a `std::vector<bool>` only be written as an lvalue (`for (auto& val : coll)` in array_impl.hpp:100); a `std::span` fails to compile inside the body, since every template `C<T, n>` is taken for a `std::array`, but for a const rvalue; `std::optional` is ambiguous once it has `begin()` (C++26); of the entries of a `std::multimap` with one key all but the first are lost.
34. C78: `is<T>()` is `noexcept` and calls the user's `check_json`; one that throws, as `j.at("k").is_number()` does for a missing key, ends the program. So does `is<S>()` for a struct with a key of 16 characters when there is no memory.
35. C79: `v == x` converts `x` and compares texts: `json::parse("[1.5]")[0] == 1.5` and `json::parse("[-0]")[0] == 0` are false, `json::value(1e-7) == 2e-7` is true, `json::value(o) == o` is false for an empty `std::optional` (the operator of the standard library is the better match), and `v == p` for a variable `p` that is a smart pointer to a string empties the string.
36. C80: `operator<<` writes a string, so a width and a fill character that are set on the stream apply: `out << std::setw(4) << std::setfill('*') << json::object()` writes `*{`, a line feed and `}`.
37. C81: `erase(iterator)` returns `bool`, not the next iterator. For an array no valid iterator is left to go on with: `if (p(*it)) a.erase(it); else ++it;` is undefined as soon as it erases. (`o.erase(it++)` is fine for objects.)
38. C82: `v['a']` is position 97, `v.at(true)` position 1, `v.at(1.5)` position 1, `v.at(-1)` position 2^64 - 1. Before C++23 `o.at(0)`, `o[0]`, `o.erase(0)` and `v.at(nullptr)` make a `std::string` from a null pointer. A `std::string_view` is not taken as a key anywhere.
39. C84: `MEOJSON_DISABLE_PACKED_BYTES` leaves the 64-bit or 32-bit trait in place; strings are never read byte by byte. A build for 64-bit ARM reads `["\ud83dABC\udca9  "]`, builds for x86-64 reject it. NEON on 32-bit ARM does not compile.
40. C85: `for (auto& x : json::parse(s)->as_array())` (before C++23), `auto& v = json::parse(s)->at("k")` and `auto& v = *x.find("k")` use a destroyed value: no accessor tells a temporary from a variable. The loop of the README, `for (auto&& [name, homepage] : (json::object)value["author"])`, is sound.
41. C87: a number that does not fit is quoted in full in the exception, so a document decides how long the text is (`value_info()` stops after 100 bytes); and for a struct the text is "from_json() returned false" without the key, although `from_json` has an argument that returns it.
42. C90: a value and a part of it cannot be swapped. After `std::swap(v, v["k"])` `v` is what `v["k"]` was; the rest of the old `v` owns itself and is never freed (a move of a value into a part of itself, as in C52).
43. C91: `json::array(u)` of a class whose `to_json()` gives null, `""` or `{}` is empty where `json::value(u).as_array()` throws, since the value is an rvalue there and `operator T() &&` calls the non-const `as_array`; likewise `json::object(u)`, and `json::array(std::move(v))`. `arr.as<std::tuple<T>>()` reads the only element, whereas `json::value(arr).as<std::tuple<T>>()` turns the value itself into a `T`.
44. C94: `static_cast<std::array<int, 2>>(json::value())` complains of an array of size 0, while the const value is said to be null (`operator T() &&` calls the non-const `as_array`, as in C54). A `move_from_json` that takes an array or object over and then returns false makes `value_info()` read a null pointer. For a `json::array` or `json::object` the elements have gone to a temporary before the text is made: it always says `size=0`, and the elements are lost even if `move_from_json` did not touch them.
45. C95: the loader of a class asks `val->is<T>()` and then calls `val->as<T>()` for each member, and `as` of a member that is a class asks again for its members. For `struct Node { std::vector<Node> next; MEO_JSONIZATION(next) };` the work is quadratic in the depth of the document. `is` of a `std::variant` goes through the value once for each alternative that almost fits. For `struct Node { std::vector<std::variant<std::pair<Node, int>, std::pair<Node, std::string>>> kids; MEO_JSONIZATION(kids) };` the work doubles with every level: a document of 691 bytes with forty levels, which the parser reads at once, takes more than 19·10¹² calls in `is` alone.
46. C96: loading and saving changes the file for `std::set<double>` in the default build (`{1e-7, 2e-7}` is `[0.000000,0.000000]`, then `[0.000000]`), for `std::variant<double, int>` (5, then 5.000000), for an empty `std::optional` of a class whose members are all `MEO_OPT` (null, then the class with its defaults), and for `std::tuple<json::value>` (another pair of brackets each time).
47. C97 (no part of it is refuted): `dumps(indent)` takes any number. An indent that is longer than a string can be makes it throw `std::length_error` for a value that is sound (`C97_indent`). That `indent * indent_times` is computed modulo 2^64 is never seen: a line further out would need more spaces than a string can hold (`C97_layout`).
48. C98 (no part of it is refuted): `object(std::initializer_list)` goes through `std::make_move_iterator`, but the elements of an initializer list are `const` and are copied all the same. What is written in nested braces is copied at each level, and twice where bare braces are the value of a member: `{{"a", {{"b", {{"c", 1}}}}}}` makes 11 copies of values for 4 values, and n nested arrays n(n+1)/2 (`C98_arrays`, `C98_objects`, `C98_quadratic`). `{}` is null and not an empty object, also as an element or a member (`C98_empty`).
49. C99 (no part of it is refuted): `json::value(std::move(obj))` of a class with MEO_JSONIZATION copies all its members, as `dumper::_to_json` takes them by const reference; the elements of a `std::set` and the keys of maps are copied as well (`C99_not_moved`).
50. C100: from an rvalue only a `json::value` is moved, and only where it is the whole type or the element or mapped type of the outermost container. `value::as() &&` is `static_cast<T>(*this)` of an lvalue for every other type, and there is no conversion operator to `std::string` from an rvalue. So `static_cast<std::vector<std::string>>(std::move(v))` copies every text and then clears the array it copied from, `std::vector<std::vector<json::value>>` copies the inner values with all that is in them, and the keys of maps are copied as well (`C100_refuted`). For all types without `json::value` at those places the work is that of the conversion from a const lvalue to the unit, on every document (`C100_copied`).
51. C101: elements and members are moved one by one into a result that asks for memory in between. If a request is refused, what was moved is destroyed with the result, and the source keeps moved-from elements with null pointers, which cannot be copied or printed (`C101_refuted`, `C101_refuted_object`). `std::make_unique` and `std::make_shared` ask after their argument has been made, so behind a smart pointer the whole document is lost (`C101_refuted_pointer`). `as_array()` and `as_object()` of an empty value set the tag before they ask for the container, and leave a value whose tag and content do not fit (`C101_refuted_blank`). `C101_strong_partial` gives the types for which the source stays as it was, `std::vector<json::value>` among them because it reserves first.
52. C102: elements are moved one by one, and the next one may throw. `json::value(std::move(p))` of a `std::pair<std::string, Color>` whose enumerator has no name throws `json::exception`, and the text of the pair is gone; the pair the other way round keeps it (`C102_refuted`). In an optional the same happens to an lvalue that was not given away (`C102_refuted_lvalue`). Without memory, lists of lists, maps to texts and collections without `size()` lose what was moved (`C102_refuted_memory`). `C102_partial` gives the types for which the source stays as it was: among them `std::vector<std::string>`, because the array reserves before it moves.
53. C104: `operator[]`, `as_array()` and `as_object()` write the tag before they ask for the container. If that is refused, a null value has the tag of an object and the payload of a text, and the next `v["k"]`, `emplace` or `erase` ends the program, because `empty()` is `noexcept` and throws (`C104_refuted`, `C104_refuted_blank`, `C104_blank`). `v = v["a"]` that fails leaves a `v` in which there is no `"a"` (`C104_refuted_part`). `v |= std::move(o)` that fails has moved some members, and executed again it replaces them by what is left of them (`C104_refuted_move`). All other statements can be executed again as often as needed (`C104_partial`), and most have done nothing when they throw (`C104_nothing`).
54. C105: `std::make_unique` for the result is asked for after the operator on the containers has moved them. `std::move(v) + xs` that fails there leaves `v` an empty array and nobody with its elements (`C105_refuted`); in `v + std::move(xs)` all elements of `xs` are lost (`C105_refuted_right`). `std::move(v) | ns` that fails while a member is assigned leaves it with the tag of the new value and the content of the old (`C105_refuted_tag`), and `v | std::move(ns)` loses the members before the one that failed (`C105_refuted_part`). Operands that are lvalues are never changed (`C105_partial`).
55. C107: at the root, `parse` stops at a NUL or a `/` that follows the value, and does not look at the rest (C02). `{}/x` is accepted and `[{}/x]` is not (`C107_refuted`, `C107_refuted_nul`). JSON texts can be put together, and so can all accepted texts without NUL, `/` and escapes of surrogates (`C107_partial`, `C107_plain`).
56. C110: in place, a reader can get a mixture that is neither document: `["c","d"]` written over `["a","b"]` is `["c","b"]` after three bytes (`C110_refuted`). When the new document is complete, what is left of the old one never changes it (`C110_partial`), but it can make the file unreadable; it is ignored exactly if `C110_followed` says so. If the file is emptied first, the reader gets the new document or an error (`C110_emptied`). Nor is there a mixture when only elements are added at the end of an array, or members after the last key of an object (`C110_array_grows`, `C110_object_grows`). A log to which a second writer appends without a line feed has a similar gap (`C109_needs_newline`).
