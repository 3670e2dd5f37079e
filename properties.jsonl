{"id": "C01", "title": "Unsigned variable-length integers round-trip", "statement": "For each of varuint16, varuint32, varuint64, varuint and varsize, writing any value of the type's documented range to a bit stream and reading it back at that point returns exactly that value and leaves the reader exactly after the written bits, whatever was written before and whatever follows.", "quantifier": "every value in the documented range of each type (2^15, 2^29, 2^57, 2^64 and 2^31 values), every preceding stream content (any, also unaligned, bit position) and every following bit string", "why_tests_cant": "Up to 2^64 values times arbitrary surrounding streams; a byte-boundary or shift mistake at a single length class can hide between sampled values.", "anchors": ["crates/zserio/src/ztype/varuint_encode.rs: write_varuint16/32/64, write_varuint, write_varsize, write_varuint_type", "crates/zserio/src/ztype/varuint_decode.rs: read_varuint16/32/64, read_varuint, read_varsize, read_sized_uint"]}
{"id": "C02", "title": "Signed variable-length integers round-trip", "statement": "For each of varint16, varint32, varint64 and varint, writing any value of the type's documented range (limits.rs) and reading it back returns that value and consumes exactly the bits written.", "quantifier": "every value between the documented MIN and MAX of each type (including i64::MIN, which limits.rs declares to be MIN_VARINT), every preceding and following stream content", "why_tests_cant": "Up to 2^64 values; the sign/continuation-bit interplay differs for first, middle and last byte and only i64::MIN breaks the sign handling.", "anchors": ["crates/zserio/src/ztype/varint_encode.rs: write_varint16/32/64, write_varint, write_varint_type", "crates/zserio/src/ztype/varint_decode.rs: read_varint16/32/64, read_varint, read_sized_int", "crates/zserio/src/ztype/limits.rs"]}
{"id": "C03", "title": "Out-of-range variable-length values are refused, never truncated", "statement": "Writing a value outside the range of varuint16/32/64, varsize or varint16/32/64 never succeeds: the call either returns an error or panics, and so no other value can be silently stored in its place.", "quantifier": "every value of the Rust argument type (u16/u32/u64/i16/i32/i64) outside the zserio range", "why_tests_cant": "The out-of-range region is almost the whole of u64/i64; a silently accepted value is only visible if that value is sampled.", "anchors": ["crates/zserio/src/ztype/varuint_encode.rs: write_varuint_type, write_varsize", "crates/zserio/src/ztype/varint_encode.rs: write_varint_type", "crates/zserio/src/ztype/varuint_bitsize.rs: unsigned_bitsize", "crates/zserio/src/ztype/varint_bitsize.rs: signed_bitsize"]}
{"id": "C04", "title": "Variable-length bit sizes are exact and minimal", "statement": "The size functions (varuint16_bitsize ... varsize_bitsize, varint16_bitsize ...) return exactly the number of bits the corresponding writer emits; the size is a positive multiple of 8 not above the type's maximum, it is the least number of bytes whose capacity holds the value, and it never decreases when the magnitude grows.", "quantifier": "every value of every variable-length integer type", "why_tests_cant": "Needs every length-class boundary of nine types for all values, and a relation between two separately written loops (size and writer).", "anchors": ["crates/zserio/src/ztype/varuint_bitsize.rs", "crates/zserio/src/ztype/varint_bitsize.rs", "crates/zserio/src/ztype/varuint_encode.rs", "crates/zserio/src/ztype/varint_encode.rs"]}
{"id": "C05", "title": "Variable-length integers follow the zserio wire layout", "statement": "The bytes written for a variable-length integer are exactly those of the zserio wire format: big-endian groups of 7 bits with the top bit of each byte telling that another byte follows, the last byte of a maximum-length encoding carrying a full 8 bits, and for signed types a sign bit first and the magnitude after it.", "quantifier": "every in-range value of every variable-length type", "why_tests_cant": "Interoperability with other zserio implementations needs every encoding to agree, not only the sampled ones.", "anchors": ["crates/zserio/src/ztype/varuint_encode.rs: write_varuint_type", "crates/zserio/src/ztype/varint_encode.rs: write_varint_type"]}
{"id": "C06", "title": "Fixed-width integers round-trip", "statement": "uint8..uint64, int8..int64, bit:n and int:n (1..64 bits): writing any value representable in n bits and reading n bits gives back the same value and uses exactly n bits.", "quantifier": "every width 0..64, every value representable in that width, every surrounding stream", "why_tests_cant": "64 widths times up to 2^64 values times alignment positions.", "anchors": ["crates/zserio/src/ztype/bits_encode.rs", "crates/zserio/src/ztype/bits_decode.rs"]}
{"id": "C07", "title": "Bit length and numbits are exact", "statement": "bit_length(v) is the number of binary digits of v (least n with v < 2^n) and numbits(v) is the least number of bits that can number v different values (0 for 0, 1 for 1), for every unsigned 64-bit value, without panicking.", "quantifier": "every u64 value", "why_tests_cant": "2^64 values; implemented with shifts and a 256-entry character table where one wrong entry affects isolated ranges only.", "anchors": ["crates/zserio/src/numbits.rs: bit_length, numbits, BIT_LENGTH_BYTE"]}
{"id": "C08", "title": "Alignment is exact, minimal and agreed between writer, reader and size", "statement": "align_writer, align_reader and align_bitsize move a position to the next multiple of the alignment, add fewer bits than the alignment, add zero bits only, do nothing when already aligned, and reader and writer stay at the same position; reading past the padding yields what was written after it.", "quantifier": "every alignment >= 1 and every bit position", "why_tests_cant": "Unbounded positions and 255 alignments; the three functions are separate pieces of code that must agree everywhere.", "anchors": ["crates/zserio/src/ztype/alignment.rs: align_reader, align_writer, align_bitsize", "crates/zserio/src/ztype/bit_alignment.rs: align_to"]}
{"id": "C09", "title": "Strings round-trip and their size is exact", "statement": "Writing any string shorter than 2^31 bytes and reading it back gives the same string and consumes exactly bitsize_string(s) bits.", "quantifier": "every valid UTF-8 string of fewer than 2^31 bytes, every surrounding stream", "why_tests_cant": "Unboundedly many strings; the length prefix changes size at 2^7, 2^14, 2^21, 2^28 bytes, impractical to test.", "anchors": ["crates/zserio/src/ztype/string_encode.rs: write_string, bitsize_string", "crates/zserio/src/ztype/string_decode.rs: read_string"]}
{"id": "C10", "title": "bytes values round-trip and their size is exact", "statement": "Writing a BytesType whose byte_size equals its blob length (below 2^31) and reading it back gives an equal value and uses exactly bitsize_of_bytes bits.", "quantifier": "every blob, every surrounding stream", "why_tests_cant": "Unboundedly many blobs and length classes.", "anchors": ["crates/zserio/src/ztype/bytes_type.rs", "crates/zserio/src/ztype/reader.rs: read_bytes", "crates/zserio/src/ztype/writer.rs: write_bytes"]}
{"id": "C11", "title": "extern values round-trip and their size is exact", "statement": "Writing an ExternType (bit_size below 2^31, blob of exactly ceil(bit_size/8) bytes, unused trailing bits zero) and reading it back gives an equal value and uses exactly bitsize_of_extern bits.", "quantifier": "every bit size including those not a multiple of 8, every blob, every surrounding stream", "why_tests_cant": "Unboundedly many blobs; partial-last-byte shifting has eight cases per content.", "anchors": ["crates/zserio/src/ztype/extern_type.rs: read_extern_type, write_extern_type, bitsize_of_extern, from_object"]}
{"id": "C12", "title": "Decoding truncated or corrupt bytes reports an error instead of panicking", "statement": "from_bytes on arbitrary bytes returns Ok or Err; it never panics.", "quantifier": "every byte string offered to the reader of every supported type", "why_tests_cant": "The input space is all byte strings; panics occur only at specific truncation points and corrupt selectors.", "anchors": ["crates/zserio/src/ztype/string_decode.rs: read_string", "crates/zserio/src/ztype/extern_type.rs: read_extern_type", "crates/zserio/src/ztype/array_traits/delta_context.rs: read_descriptor", "crates/zserio-rs-build/src/internal/generator/zunion.rs: generate_union (from_u32)", "crates/zserio/src/ztype/varuint_decode.rs"]}
{"id": "C13", "title": "Truncated data is never accepted as complete", "statement": "If an encoding is cut short by at least one bit before its end, reading it does not succeed: no proper prefix of an encoding is itself accepted.", "quantifier": "every value and every truncation point", "why_tests_cant": "All values times all truncation points.", "anchors": ["crates/zserio/src/ztype/varuint_decode.rs", "crates/zserio/src/ztype/varint_decode.rs", "crates/zserio/src/ztype/bits_decode.rs", "crates/zserio/src/ztype/string_decode.rs", "crates/zserio/src/ztype/bytes_type.rs", "crates/zserio/src/ztype/extern_type.rs", "crates/zserio/src/ztype/array.rs"]}
{"id": "C14", "title": "to_bytes emits ceil(bits/8) bytes with zero padding and from_bytes ignores what follows", "statement": "to_bytes returns the written bits followed by fewer than 8 zero bits to complete the last byte; from_bytes(to_bytes(v)) = v, and appending any bytes to the encoding does not change the decoded value.", "quantifier": "every value of every round-tripping type, every trailing byte string", "why_tests_cant": "All values and all trailing data.", "anchors": ["crates/zserio/src/lib.rs: to_bytes, from_bytes, to_writer, from_reader"]}
{"id": "C15", "title": "Unpacked arrays round-trip", "statement": "Writing an array of any length below 2^31 (auto length or matching fixed length, with or without element byte alignment) and reading it back gives the same elements in the same order and consumes exactly the bits written, provided each element round-trips.", "quantifier": "every element list, every start position, every element type that itself round-trips", "why_tests_cant": "Unbounded lists, positions and element types.", "anchors": ["crates/zserio/src/ztype/array.rs: Array::zserio_write, zserio_read_array_length, zserio_read, read_one_element"]}
{"id": "C16", "title": "Array size computation is exact", "statement": "Array::zserio_bitsize returns exactly the number of bits that Array::zserio_write emits from the same bit position, for unpacked and packed arrays, including the constant-size shortcut and element alignment.", "quantifier": "every element list, every start position, every element type whose own size function is exact", "why_tests_cant": "Unbounded lists; separate code paths (constant shortcut, aligned, packed) must agree with the writer for all of them.", "anchors": ["crates/zserio/src/ztype/array.rs: Array::zserio_bitsize, zserio_bitsize_packed, zserio_write", "crates/zserio/src/ztype/array_traits/delta_context.rs: bitsize_of, finish_init, write"]}
{"id": "C17", "title": "Packed integer arrays round-trip", "statement": "Writing a packed array of integers (bit fields, signed bit fields and every variable-length type) and reading it back gives the same elements and consumes exactly the written bits.", "quantifier": "every list of in-range integers of every packable integer type, every start position", "why_tests_cant": "The delta encoding depends on the whole history of the array; unbounded lists of 64-bit values.", "anchors": ["crates/zserio/src/ztype/array_traits/delta_context.rs: DeltaContext::init, finish_init, write, read", "crates/zserio/src/ztype/array.rs", "crates/zserio/src/ztype/array_traits/bit_field_array_trait.rs", "crates/zserio/src/ztype/array_traits/unsigned_bit_field_array_trait.rs"]}
{"id": "C18", "title": "Packing never loses more than one bit", "statement": "A packed array is never more than one bit longer than the same array unpacked, and when delta packing is chosen it is strictly smaller than the unpacked form with its one-bit descriptor.", "quantifier": "every non-empty list of elements with exact sizes", "why_tests_cant": "A cost comparison over all arrays.", "anchors": ["crates/zserio/src/ztype/array_traits/delta_context.rs: finish_init, bitsize_of", "crates/zserio/src/ztype/array.rs"]}
{"id": "C19", "title": "Delta width always suffices", "statement": "Whenever packing is active, the stored bit count fits the 6-bit descriptor field, and every delta between consecutive elements is representable in the stored number of bits, so no delta is truncated.", "quantifier": "every element list", "why_tests_cant": "The maximum is a running invariant over unbounded histories.", "anchors": ["crates/zserio/src/ztype/array_traits/delta_context.rs: init, write_descriptor, write, MAX_BIT_NUMBER_LIMIT, MAX_BIT_NUMBER_BITS"]}
{"id": "C20", "title": "Packed writing does not panic on in-range integers", "statement": "Writing a packed array of in-range integers succeeds in debug as well as release builds.", "quantifier": "every list of integers, both overflow-check settings", "why_tests_cant": "Only pairs of neighbours straddling 2^63 are affected, a vanishing part of the input space.", "anchors": ["crates/zserio/src/ztype/array_traits/delta_context.rs: write, read"]}
{"id": "C21", "title": "Packed arrays of non-integer elements keep their content", "statement": "A packed array of bool, float, string, bytes or extern elements reads back as the array that was written.", "quantifier": "every list of such elements", "why_tests_cant": "Depends on list length and content; short lists behave correctly because packing is rejected by the cost rule.", "anchors": ["crates/zserio/src/ztype/array_traits/boolean_array_trait.rs", "crates/zserio/src/ztype/array_traits/string_array_trait.rs", "crates/zserio/src/ztype/array_traits/float32_array_trait.rs", "crates/zserio/src/ztype/array_traits/byte_buffer_array_trait.rs", "crates/zserio/src/ztype/array_traits/bit_buffer_array_trait.rs", "crates/zserio/src/ztype/array_traits/delta_context.rs"]}
{"id": "C22", "title": "Array decoding pre-allocates at most the configured chunk", "statement": "Whatever length an input claims, the space reserved before the first element is decoded is at most the configured chunk (default 1000) and at most the claimed length, apart from the smallest allocation a Vec makes at all; and the result of decoding does not depend on the chunk setting.", "quantifier": "every claimed length, every chunk setting, every input", "why_tests_cant": "All lengths up to 2^32 and all settings.", "anchors": ["crates/zserio/src/ztype/array.rs: ARRAY_ALLOC_CHUNK, set_array_alloc_chunk, zserio_read"]}
{"id": "C23", "title": "Values written one after another are read back in order", "statement": "Any sequence of values of any mixture of supported types written to one stream is read back in the same order with the same values, without any framing in between.", "quantifier": "every finite sequence of values of mixed types", "why_tests_cant": "Unbounded sequences and interleavings of types at all bit offsets.", "anchors": ["crates/zserio/src/ztype/*_encode.rs", "crates/zserio/src/ztype/*_decode.rs"]}
{"id": "C24", "title": "Generated structures round-trip", "statement": "For every structure schema built from the supported field kinds (scalars, nested structures, arrays, optional fields, conditional fields, aligned fields, choices, unions, enums, bitmasks), decoding the encoding of any valid object gives that object and consumes exactly the written bits.", "quantifier": "every schema of the modelled class, every valid object, every start position", "why_tests_cant": "Ranges over all schemas (programs) and all their values.", "anchors": ["crates/zserio-rs-build/src/internal/generator/zstruct.rs", "crates/zserio-rs-build/src/internal/generator/encode.rs: encode_field, encode_type", "crates/zserio-rs-build/src/internal/generator/decode.rs: decode_field, decode_type", "crates/zserio-rs-build/src/internal/generator/zchoice.rs", "crates/zserio-rs-build/src/internal/generator/zunion.rs", "crates/zserio-rs-build/src/internal/generator/zenum.rs", "crates/zserio-rs-build/src/internal/generator/zbitmask.rs"]}
{"id": "C25", "title": "Generated size functions agree with the writer", "statement": "For every schema and object, zserio_bitsize(p) equals the number of bits zserio_write emits when started at bit position p.", "quantifier": "every schema of the modelled class, every object, every start position", "why_tests_cant": "Size and write code are generated by separate generators and must agree for all schemas.", "anchors": ["crates/zserio-rs-build/src/internal/generator/bitsize.rs: bitsize_type_reference, bitsize_field", "crates/zserio-rs-build/src/internal/generator/encode.rs"]}
{"id": "C26", "title": "Enum values are assigned and decoded consistently", "statement": "Enum items without explicit value get the previous value plus one (first item 0); decoding accepts exactly the declared values, maps each to its own item, and rejects every other number with an error.", "quantifier": "every enum declaration with distinct values, every number", "why_tests_cant": "All enum declarations and all 2^64 input numbers.", "anchors": ["crates/zserio-rs-build/src/internal/generator/zenum.rs: generate_enum, TryFrom<i64>"]}
{"id": "C27", "title": "Bitmask constants are distinct single bits", "statement": "Bitmask items without explicit values get distinct powers of two, in increasing order.", "quantifier": "every bitmask declaration of up to 64 items", "why_tests_cant": "All declarations; wrap-around occurs only past bit 63 and after explicit values.", "anchors": ["crates/zserio-rs-build/src/internal/ast/zbitmask.rs: evaluate", "crates/zserio-rs-build/src/internal/generator/zbitmask.rs"]}
{"id": "C28", "title": "Unions store which member is set and reject unknown members with an error", "statement": "The union selector written identifies the member; decoding restores the same member and value; an unknown selector is reported as an error.", "quantifier": "every union schema, every member, every selector number in the input", "why_tests_cant": "All unions and all 2^31 selector numbers.", "anchors": ["crates/zserio-rs-build/src/internal/generator/zunion.rs"]}
{"id": "C29", "title": "Choices store exactly the branch selected by the parameter", "statement": "A choice writes the field of the first case that lists the selector value and nothing when none matches; decoding with the same selector restores it; unselected branches do not influence the encoding.", "quantifier": "every choice schema, selector value and object", "why_tests_cant": "All schemas and selector values.", "anchors": ["crates/zserio-rs-build/src/internal/generator/zchoice.rs: generate_choice_match_construct"]}
{"id": "C30", "title": "Optional and conditional fields cost and carry exactly what is present", "statement": "An absent optional field takes one bit and decodes as absent; a present one takes one bit plus its value; a field whose condition is false takes no bits at all.", "quantifier": "every field type and value, every condition", "why_tests_cant": "All schemas and values.", "anchors": ["crates/zserio-rs-build/src/internal/generator/encode.rs: encode_field", "crates/zserio-rs-build/src/internal/generator/decode.rs: decode_field", "crates/zserio-rs-build/src/internal/generator/bitsize.rs: bitsize_field"]}
{"id": "C31", "title": "Packed arrays of structures round-trip", "statement": "Writing a packed array of structures (with nested structures, enums, bitmasks, optional fields and inner arrays) and reading it back gives the same structures.", "quantifier": "every schema of the modelled class and every list of valid objects", "why_tests_cant": "Every integer field of every nesting level carries its own delta history across the whole array.", "anchors": ["crates/zserio-rs-build/src/internal/generator/packed_contexts.rs", "crates/zserio-rs-build/src/internal/generator/encode.rs", "crates/zserio-rs-build/src/internal/generator/decode.rs", "crates/zserio/src/ztype/array_traits/object_array_trait.rs", "crates/zserio/src/ztype/array_traits/delta_context.rs"]}
{"id": "C32", "title": "Packed size functions agree with the packed writer", "statement": "For every packed array of structures the computed size equals the number of bits written.", "quantifier": "every schema of the modelled class and every list of objects", "why_tests_cant": "Separate generators, history-dependent contexts.", "anchors": ["crates/zserio-rs-build/src/internal/generator/bitsize.rs", "crates/zserio-rs-build/src/internal/generator/packed_contexts.rs"]}
{"id": "C33", "title": "Packed unions and choices round-trip", "statement": "A packed array whose elements contain unions or choices reads back as written.", "quantifier": "every union/choice schema and list of objects", "why_tests_cant": "Context indices and initialisation depend on the whole list and on unselected branches.", "anchors": ["crates/zserio-rs-build/src/internal/generator/zunion.rs", "crates/zserio-rs-build/src/internal/generator/zchoice.rs", "crates/zserio-rs-build/src/internal/generator/packed_contexts.rs"]}
{"id": "C34", "title": "Different values have different encodings", "statement": "Two different values of the same type written at the same position never produce the same bits, and neither encoding is a prefix of the other.", "quantifier": "every pair of values of a round-tripping type", "why_tests_cant": "All pairs of values.", "anchors": ["crates/zserio/src/ztype/*_encode.rs", "crates/zserio-rs-build/src/internal/generator/encode.rs"]}
{"id": "C35", "title": "Constant expressions are evaluated as the generated code would", "statement": "When the schema compiler reports an expression as fully resolved, its computed value is the value the generated code computes for that expression at run time, whatever the run-time values of fields and parameters.", "quantifier": "every expression and every run-time environment", "why_tests_cant": "All expression trees and environments.", "anchors": ["crates/zserio-rs-build/src/internal/ast/expression.rs: evaluate", "crates/zserio-rs-build/src/internal/generator/expression.rs"]}
{"id": "C36", "title": "Mixing integer types yields a type that does not depend on operand order", "statement": "The result type chosen for an arithmetic operation on two integer types is defined for every pair of builtin integer types, and swapping the operands does not change signedness or width of the result.", "quantifier": "every pair of builtin integer types", "why_tests_cant": "Pairs include parameterised bit widths (bit:n, int:n).", "anchors": ["crates/zserio-rs-build/src/internal/ast/evaluate_mixing_native_types.rs"]}
{"id": "C37", "title": "Names resolve locally first, then package, then imports, and resolution terminates", "statement": "A name defined in the current type is found there, else in the current package, else in the first imported package (breadth first, in import order) that defines it; the lookup terminates for every import graph.", "quantifier": "every import graph and every name", "why_tests_cant": "All import graphs, including cyclic ones.", "anchors": ["crates/zserio-rs-build/src/internal/compiler/symbol_scope.rs: ModelScope::resolve_symbol"]}
{"id": "C38", "title": "Subtypes resolve to their base type", "statement": "Following subtype declarations from any type reference terminates and yields a builtin or compound type, never another subtype; a chain of subtypes has the same wire format as its base type.", "quantifier": "every set of subtype declarations", "why_tests_cant": "All declaration graphs, including cyclic ones.", "anchors": ["crates/zserio-rs-build/src/internal/compiler/fundamental_type.rs: get_fundamental_type"]}
{"id": "C39", "title": "Different template instantiations get different names", "statement": "Instantiating a template with different arguments produces differently named types, and instantiating it twice with the same arguments produces the same name.", "quantifier": "every template and every pair of argument lists", "why_tests_cant": "All argument lists.", "anchors": ["crates/zserio-rs-build/src/internal/compiler/template_instantiation.rs"]}
{"id": "C40", "title": "Floating-point values keep their bit pattern", "statement": "float32 and float64 values (NaN payloads, infinities, signed zero included) are read back with the identical bit pattern; float16 reads back every half-precision number exactly.", "quantifier": "every 32-bit and 64-bit pattern, every 16-bit half pattern", "why_tests_cant": "2^64 patterns.", "anchors": ["crates/zserio/src/ztype/float_encode.rs", "crates/zserio/src/ztype/float_decode.rs"]}
{"id": "C41", "title": "Reading into a used object gives the same result as reading into a fresh one", "statement": "Decoding into an object that already holds data yields the same object as decoding into a default one.", "quantifier": "every schema, every previous content, every input", "why_tests_cant": "All previous contents and inputs.", "anchors": ["crates/zserio-rs-build/src/internal/generator/decode.rs: decode_field", "crates/zserio/src/lib.rs: from_bytes"]}
{"id": "C42", "title": "Lengths announced in the input are honoured exactly", "statement": "read_varsize returns the number that the encoded bytes denote (or an error); a length in the input is never silently replaced by another length.", "quantifier": "every input byte string", "why_tests_cant": "All five-byte encodings; only those above 32 bits are affected.", "anchors": ["crates/zserio/src/ztype/varuint_decode.rs: read_varsize"]}
{"id": "C43", "title": "Arrays of a wrong length are never written", "statement": "An array whose number of elements differs from its fixed length, or is too large for the length header (2^31 or more), is refused (error or panic) instead of being written.", "quantifier": "every element type, packed or not, every fixed length, every list of elements", "why_tests_cant": "Lists of 2^31 and more elements do not fit into a test, yet the length is cast to 32 bits.", "anchors": ["crates/zserio/src/ztype/array.rs: zserio_write"]}
{"id": "C44", "title": "A selective import makes only the named symbol visible", "statement": "With `import package.Symbol` the name Symbol is found in that package, and no other name of the package becomes visible.", "quantifier": "every set of packages, every import list and every name", "why_tests_cant": "All import graphs; a test would have to look for names that should not be found.", "anchors": ["crates/zserio-rs-build/src/internal/compiler/symbol_scope.rs: resolve_symbol"]}
{"id": "C45", "title": "An instantiated template is the template with its parameters replaced", "statement": "Instantiating a template defines a type that is the template with every occurrence of a parameter, at any depth, replaced by the corresponding argument, and leaves all other types as they were.", "quantifier": "every template, every list of arguments, every state of the package", "why_tests_cant": "All templates and all orders of instantiation, which interact through shared names.", "anchors": ["crates/zserio-rs-build/src/internal/compiler/template_instantiation.rs: instantiate_type"]}
{"id": "C46", "title": "Items of enumerations and bitmasks have the values of their expressions", "statement": "The compiler gives an item with an expression the value of that expression, and one without the successor of the previous value (enumerations) or the lowest bit above all bits used so far (bitmasks).", "quantifier": "every list of items, every expression", "why_tests_cant": "All item lists and expressions, including those that refer to constants.", "anchors": ["crates/zserio-rs-build/src/internal/generator/zenum.rs", "crates/zserio-rs-build/src/internal/ast/zbitmask.rs: evaluate"]}
{"id": "C47", "title": "Generated text keeps the grouping of expressions", "statement": "The Rust text emitted for an expression that passes the type check is grouped by Rust's precedence rules as the schema expression is grouped, also where the generator appends `!= 0`, `.clone()` or a cast.", "quantifier": "every expression the schema grammar can produce, every choice of casts", "why_tests_cant": "All expression trees; grammar and Rust order the operators differently.", "anchors": ["crates/zserio-rs-build/src/internal/generator/expression.rs", "crates/zserio-rs-build/src/internal/generator/decode.rs", "crates/zserio-rs-build/src/internal/parser/ZserioParser.g4: expression"]}
{"id": "C48", "title": "Objects are written in the zserio encoding", "statement": "The bits generated code writes for an object are those of the zserio encoding: two's complement numbers most significant bit first, shortest variable-length integers, zero padding up to the next multiple of an alignment, presence bits, selectors, length headers, and for packed arrays one descriptor per column followed by differences; together with the rule by which this writer packs columns these leave exactly one possibility.", "quantifier": "every schema without the packed arrays of C21, C31 and C33, every valid object, every position in the stream", "why_tests_cant": "A round trip does not show that another zserio implementation can read the data: a wrong layout that reader and writer share passes all of them.", "anchors": ["crates/zserio-rs-build/src/internal/generator/encode.rs", "crates/zserio/src/ztype/array.rs", "crates/zserio/src/ztype/array_traits/delta_context.rs"]}
{"id": "C49", "title": "Generated readers never panic", "statement": "Whatever bytes are given to the reader of a generated type, it returns an object or an error; it never panics.", "quantifier": "every schema, every byte sequence, every parameter of the type", "why_tests_cant": "All schemas times all inputs, malformed ones included; a fuzzer samples inputs of a few schemas.", "anchors": ["crates/zserio-rs-build/src/internal/generator/decode.rs", "crates/zserio-rs-build/src/internal/generator/zunion.rs", "crates/zserio/src/ztype/array.rs"]}
{"id": "C50", "title": "What is accepted can be written again", "statement": "An object that a generated reader has accepted is a valid object of its type: writing it succeeds, and reading the result gives the same object.", "quantifier": "every schema, every byte sequence that is accepted", "why_tests_cant": "Inputs that no writer produces (non-canonical numbers, lengths, deltas) are accepted too; there are too many to try.", "anchors": ["crates/zserio-rs-build/src/internal/generator/decode.rs", "crates/zserio/src/ztype/varuint_decode.rs", "crates/zserio/src/ztype/array_traits/delta_context.rs"]}
{"id": "C51", "title": "Decoded objects are proportional to the input", "statement": "The memory of a decoded object is at most a constant, which depends on the schema only, times the number of bits read.", "quantifier": "every schema, every byte sequence that is accepted", "why_tests_cant": "The worst input has to be found among all; a bound for all inputs needs an invariant of all readers.", "anchors": ["crates/zserio-rs-build/src/internal/generator/decode.rs", "crates/zserio/src/ztype/array.rs"]}
{"id": "C52", "title": "Literals keep their value", "statement": "A literal of a schema (integer in any base, boolean, string with escapes, floating-point number) denotes in the generated Rust code what it denotes in the schema, or the compiler refuses the schema with an error.", "quantifier": "every literal that the lexer accepts", "why_tests_cant": "There are infinitely many literals; tests contain a few numbers and plain strings.", "anchors": ["crates/zserio-rs-build/src/internal/visitor.rs:933-975", "crates/zserio-rs-build/src/internal/generator/expression.rs:433-468", "crates/zserio-rs-build/src/internal/parser/ZserioLexer.g4"]}
{"id": "C53", "title": "The top-level file declares every package", "statement": "The generated top-level file (lib.rs or mod.rs) declares the module of every package exactly once, and its text does not depend on the order in which packages were found.", "quantifier": "every set of packages", "why_tests_cant": "The shape of the package tree and the order of the hash maps vary without bound; the test schemas have one shape.", "anchors": ["crates/zserio-rs-build/src/internal/generator/mod_file.rs:14-107"]}
{"id": "C54", "title": "Every symbol is found where generated code looks for it", "statement": "The generated files form a crate in which the module path that generated code uses for a symbol contains the code of that symbol and of no other; no generated file is overwritten by another one.", "quantifier": "every schema, every conversion of names to snake case", "why_tests_cant": "It depends on all pairs of names of a schema and on all pairs of packages; colliding names do not occur in the tests.", "anchors": ["crates/zserio-rs-build/src/internal/generator/package.rs", "crates/zserio-rs-build/src/internal/generator/mod_file.rs", "crates/zserio-rs-build/src/internal/generator/file_generator.rs", "crates/zserio-rs-build/src/internal/generator/types.rs:13-86", "crates/zserio-rs-build/src/internal/generator/model.rs"]}
{"id": "C55", "title": "The emitted statements do what the schema means", "statement": "The lines which the generator emits for the functions of a structure, choice, union, enum or bitmask (write, read, size, each plain and packed, and the two context functions) have matching braces and, executed on any object of the declared type, have exactly the outcome (value, error or panic) that the schema gives them; in particular emitted reader and emitted writer are inverse.", "quantifier": "every schema type, every object, every stream and packing context", "why_tests_cant": "A test looks at the code generated for a few schemas; the generator combines optional, conditional, aligned, offset, array, packed and parameterised fields freely.", "anchors": ["crates/zserio-rs-build/src/internal/generator/encode.rs", "crates/zserio-rs-build/src/internal/generator/decode.rs", "crates/zserio-rs-build/src/internal/generator/bitsize.rs", "crates/zserio-rs-build/src/internal/generator/packed_contexts.rs", "crates/zserio-rs-build/src/internal/generator/array.rs", "crates/zserio-rs-build/src/internal/generator/zstruct.rs", "crates/zserio-rs-build/src/internal/generator/zchoice.rs", "crates/zserio-rs-build/src/internal/generator/zunion.rs", "crates/zserio-rs-build/src/internal/generator/zenum.rs:94-266", "crates/zserio-rs-build/src/internal/generator/zbitmask.rs:61-225"]}
{"id": "C56", "title": "Emitted code does not move out of borrowed objects and calls existing functions", "statement": "The emitted writer, size function and context initialisation of a field never take a value that is not Copy out of the borrowed object by value, and call only functions of the run-time library that exist.", "quantifier": "every field description", "why_tests_cant": "The combination of type and modifier that fails to compile does not occur in the test schemas.", "anchors": ["crates/zserio-rs-build/src/internal/generator/encode.rs:66-123", "crates/zserio-rs-build/src/internal/generator/decode.rs:75-113", "crates/zserio-rs-build/src/internal/generator/bitsize.rs:113-202", "crates/zserio-rs-build/src/internal/generator/packed_contexts.rs:144-210"]}
{"id": "C57", "title": "A field whose condition is false has no effect", "statement": "If the condition of a field is false, the emitted writer, reader and size function neither look at any other expression of the field nor change object, stream or context.", "quantifier": "every field description, every state", "why_tests_cant": "An expression that can only be evaluated when the condition holds (a division by a field that may be 0) does not occur in the test schemas.", "anchors": ["crates/zserio-rs-build/src/internal/generator/array.rs:94-131", "crates/zserio-rs-build/src/internal/generator/zstruct.rs:131-264", "crates/zserio-rs-build/src/internal/generator/encode.rs:125-312"]}
{"id": "C58", "title": "Generated expressions type-check in Rust", "statement": "The Rust expression generated for a schema expression that the compiler accepts has a Rust type, and where the compiler has computed a numeric type for it (native_type), that is the one.", "quantifier": "every schema expression, every symbol table", "why_tests_cant": "Zserio converts numbers implicitly, Rust does not; the test schemas contain a handful of expressions, whereas casts are needed for every combination of operator and operand types.", "anchors": ["crates/zserio-rs-build/src/internal/ast/expression.rs:73-704", "crates/zserio-rs-build/src/internal/generator/expression.rs:28-457", "crates/zserio-rs-build/src/internal/ast/evaluate_mixing_native_types.rs", "crates/zserio-rs-build/src/internal/generator/types.rs:106-131"]}
{"id": "C59", "title": "Generated expressions have the type that their place requires", "statement": "An expression that the compiler accepts as the value of a constant, the length of an array, the length of bit<> and int<>, a condition, the result of a function or the argument of a parameterised type is emitted with the casts that make it fit the Rust type required there.", "quantifier": "every schema expression, every symbol table, every place and required type", "why_tests_cant": "The same as for C58: the expressions in the test schemas happen to have the required types.", "anchors": ["crates/zserio-rs-build/src/internal/generator/zconst.rs", "crates/zserio-rs-build/src/internal/generator/array.rs:122-127", "crates/zserio-rs-build/src/internal/generator/encode.rs:67-79", "crates/zserio-rs-build/src/internal/generator/decode.rs:74-90", "crates/zserio-rs-build/src/internal/generator/expression.rs:14-26", "crates/zserio-rs-build/src/internal/generator/function.rs:25-50", "crates/zserio-rs-build/src/internal/generator/casts.rs:16-30"]}
{"id": "C60", "title": "Nothing that a declaration says is lost", "statement": "What the compiler keeps of a declaration (structure, choice, union, enumeration, bitmask, constant, subtype) is what the declaration says: names, types, arguments, arrays, alignments, offsets, conditions, constraints, cases, defaults and expressions, each in its place. Declarations that say different things have different representations.", "quantifier": "every parse tree", "why_tests_cant": "Something that is not stored produces no error: the generated code is that of another schema. The test schemas use a few combinations, and nothing compares them with the source.", "anchors": ["crates/zserio-rs-build/src/internal/visitor.rs:267-763", "crates/zserio-rs-build/src/internal/visitor.rs:789-1583", "crates/zserio-rs-build/src/internal/parser/ZserioParser.g4"]}
{"id": "C61", "title": "No declaration and no file is lost", "statement": "Every declaration of every file is found in the model under its name; every parameter, field, function and item is found under its name in its declaration; nothing else is found.", "quantifier": "every list of parse trees of files, every name", "why_tests_cant": "The tables are hash maps whose insert replaces silently; a loss shows only for schemas in which a name occurs twice or a package has several files.", "anchors": ["crates/zserio-rs-build/src/internal/visitor.rs:126-265", "crates/zserio-rs-build/src/internal/model.rs:28-54", "crates/zserio-rs-build/src/internal/compiler/symbol_scope.rs:166-199", "crates/zserio-rs-build/src/internal/ast/zstruct.rs:30-67", "crates/zserio-rs-build/src/internal/ast/zchoice.rs:149-193", "crates/zserio-rs-build/src/internal/ast/zunion.rs:45-81", "crates/zserio-rs-build/src/internal/ast/zenum.rs:26-48"]}
{"id": "C62", "title": "Correct files are represented or refused with an error", "statement": "The compiler represents every file that lexer and grammar accept, whatever the order of its declarations; a file that it does not represent is refused with an error, not with a panic. A directory is loaded exactly if each of its files is represented.", "quantifier": "every parse tree with literals as the lexer delivers them", "why_tests_cant": "Which literals and numbers are understood depends on library functions (parse, from_str_radix) called in many places of the visitor; the test schemas use only those that are.", "anchors": ["crates/zserio-rs-build/src/internal/visitor.rs:146-230", "crates/zserio-rs-build/src/internal/visitor.rs:566-581", "crates/zserio-rs-build/src/internal/visitor.rs:933-1000", "crates/zserio-rs-build/src/internal/visitor.rs:1470-1522", "crates/zserio-rs-build/src/internal/parser/ZserioLexer.g4:119-151"]}
{"id": "C63", "title": "A choice takes the case whose label equals the selector", "statement": "For every choice and every value of its selector, the generated code takes the first case with a label of that value (an item of the selector's type may be written without the type, other names are constants, labels may be computed), and no case if there is none; a choice that cannot be translated like this is refused with an error.", "quantifier": "every selector expression, every list of cases and labels, every value of the selector", "why_tests_cant": "Labels are written as text before => and become patterns of Rust, where | and plain names have another meaning than in expressions; the test schemas only have single literals and items as labels and parameters as selectors.", "anchors": ["crates/zserio-rs-build/src/internal/ast/zchoice.rs:33-151", "crates/zserio-rs-build/src/internal/generator/zchoice.rs:134-208", "crates/zserio-rs-build/src/internal/generator/expression.rs:28-449"]}
{"id": "C64", "title": "A parameterised type receives exactly its arguments", "statement": "For every field or array of a parameterised type, the object that is read into is built by correct Rust code that gives every parameter the value of the argument at its position and every other member its default; the assertions before writing hold exactly if the parameters of the object have these values, so that what is written is read with the same parameters. A field with another number of arguments than the type has parameters is refused with an error.", "quantifier": "every list of parameters, data members and arguments, with and without @index, every object and every value of the arguments", "why_tests_cant": "The tests pass the right number of arguments; that missing arguments silently become defaults on the reading side only shows when the written object has another value there.", "anchors": ["crates/zserio-rs-build/src/internal/generator/pass_parameters.rs:10-54", "crates/zserio-rs-build/src/internal/generator/decode.rs:184-423", "crates/zserio-rs-build/src/internal/generator/encode.rs:186-267"]}
{"id": "C65", "title": "Every type name is bound to the declaration it names", "statement": "After type resolution, every reference to a type in a structure, choice, union, subtype, constant, enumeration or bitmask is bound to the declaration that it names where it is written: a qualified name to the declaration in the named package, a simple name to that of the own package or else the nearest imported one, also inside of templates. Resolution changes nothing else, fails exactly if a name names nothing, and what is bound is found when code is generated.", "quantifier": "every set of packages with every graph of imports, every declaration, every reference", "why_tests_cant": "The test schemas have few packages without equal names; which declaration a name is bound to only matters if two packages declare it.", "anchors": ["crates/zserio-rs-build/src/internal/compiler/resolve_types.rs:11-90", "crates/zserio-rs-build/src/internal/compiler/symbol_scope.rs:77-242", "crates/zserio-rs-build/src/internal/compiler/template_instantiation.rs:21-564", "crates/zserio-rs-build/src/internal/model.rs:78-131"]}
{"id": "C66", "title": "Every instance of a template is translated with its own types", "statement": "The compiler accepts an expression in a template exactly if the expression is meaningful in every instance of the template, and in each instance emits the translation with the types of that instance. A field that gives the offset of another field is marked as such in every instance. None of this depends on the order in which the instances are processed, which is that of a hash map.", "quantifier": "every expression, every set of instances, every order in which they are processed", "why_tests_cant": "The test schemas have no template whose instances translate an expression differently, and the order of a hash map changes from run to run.", "anchors": ["crates/zserio-rs-build/src/internal/ast/expression.rs:73-124", "crates/zserio-rs-build/src/internal/ast/field.rs:66-95", "crates/zserio-rs-build/src/internal/compiler/template_instantiation.rs:443-483", "crates/zserio-rs-build/src/internal/model.rs:212-280", "crates/zserio-rs-build/src/internal/generator/packed_contexts.rs:38-80", "crates/zserio-rs-build/src/internal/generator/index_offsets.rs:5-20"]}
{"id": "C67", "title": "Types that contain themselves are generated correctly", "statement": "For declarations that refer to each other or to themselves, as zserio allows through optional fields and arrays, the generated Rust types have a size; the creation of packing contexts ends and gives the contexts that reading and writing use; and every (finite) object is written to bytes from which it is read back.", "quantifier": "every set of declarations with every graph of references, every object of any depth", "why_tests_cant": "The test schemas contain no recursive type at all, and for a recursive type tests can only try objects of a few depths.", "anchors": ["crates/zserio-rs-build/src/internal/generator/packed_contexts.rs:58-142", "crates/zserio-rs-build/src/internal/generator/zstruct.rs:72-89", "crates/zserio-rs-build/src/internal/generator/zunion.rs:14-130", "crates/zserio-rs-build/src/internal/generator/zchoice.rs:30-97"]}
{"id": "C68", "title": "Reading takes a bounded number of nested calls", "statement": "The number of nested calls of generated functions while an input is read is bounded, so that no input can exhaust the stack; in particular reading always ends.", "quantifier": "every set of declarations, every input", "why_tests_cant": "The inputs that force deep nesting are hostile ones; tests read what the library has written from small objects.", "anchors": ["crates/zserio-rs-build/src/internal/generator/decode.rs:274-434", "crates/zserio-rs-build/src/internal/generator/zstruct.rs:72-89", "crates/zserio/src/ztype/array.rs:94-165"]}
{"id": "C69", "title": "Generated names are accepted by Rust", "statement": "The names generated for the fields, parameters and functions of a type, for the items of an enumeration or bitmask, and for types are identifiers of Rust (no keywords), those within one type are different, methods do not replace the methods that generated code calls, and types do not clash with the imports of the generated file.", "quantifier": "every name and every list of names that zserio allows", "why_tests_cant": "The tests of the name conversion try four names; whether two names of a schema get the same Rust name, or a name becomes a keyword, depends on every character of every name.", "anchors": ["crates/zserio-rs-build/src/internal/generator/types.rs:26-104", "crates/zserio-rs-build/src/internal/generator/preamble.rs:3-15", "crates/zserio-rs-build/src/internal/generator/zunion.rs:46-100", "crates/zserio-rs-build/src/internal/generator/zenum.rs:43-60", "crates/zserio-rs-build/src/internal/generator/function.rs:17-18"]}
{"id": "C70", "title": "Generated expressions compute the value the schema means", "statement": "The Rust code generated for an expression (lengths of arrays, conditions, constraints, functions, arguments) has, when it runs, the value of the schema expression over the integers, for all values of the fields it mentions; it neither panics nor yields another value, in debug and in release builds.", "quantifier": "every expression that type-checks, all values of the names in it, debug and release builds", "why_tests_cant": "Casts and the choice of the type of an operation go wrong only for some values of some types: a test sees the values it tries, with the types of one schema.", "anchors": ["crates/zserio-rs-build/src/internal/generator/expression.rs:14-432", "crates/zserio-rs-build/src/internal/generator/casts.rs:5-29"]}
{"id": "C71", "title": "Generated code with generated expressions does what the schema text says", "statement": "For every structure, choice and union as it is written in a schema, with conditions, array lengths, widths of bit fields and type arguments given by expressions, the generated writer, reader and size functions, into which the Rust code generated for these expressions is pasted, write and restore the objects of the schema in the zserio encoding, where the expressions have the values the schema means.", "quantifier": "every structure, choice and union with any expressions that Rust accepts, all objects, debug and release builds", "why_tests_cant": "A test fixes the expressions of one schema and the values of a few objects; where the generated expression and the schema differ depends on both.", "anchors": ["crates/zserio-rs-build/src/internal/generator/encode.rs:20-260", "crates/zserio-rs-build/src/internal/generator/decode.rs:20-300", "crates/zserio-rs-build/src/internal/generator/bitsize.rs:20-200", "crates/zserio-rs-build/src/internal/generator/expression.rs:14-330"]}
{"id": "C72", "title": "An object wrapped in an extern value can be unwrapped", "statement": "ExternType::from_object gives an extern value with the bits of the object, no more and no fewer; after it has been written into a stream and read back, from_bytes of its data gives the object back.", "quantifier": "all generated types, all valid objects of fewer than 2^31 bits, debug and release builds", "why_tests_cant": "The size and the bytes come from two different functions of the generated code; a test sees only objects for which they agree.", "anchors": ["crates/zserio/src/ztype/extern_type.rs:16-33"]}
{"id": "C73", "title": "The code generated for a whole schema does what the schema text says", "statement": "When code is generated for all types of a schema, each with its own conditions, array lengths, widths and type arguments given by expressions, and the generated functions of a type call those of the types it uses, then the writer of any type appends the zserio encoding of a valid object, the reader restores the object from it, and the size function gives its length.", "quantifier": "every schema of nested structures, choices, unions, enums and bitmasks with any expressions that Rust accepts, all objects, debug and release builds", "why_tests_cant": "The types, their nesting and their expressions come from the schema; a test compiles a few schemas and tries a few objects.", "anchors": ["crates/zserio-rs-build/src/internal/generator/zstruct.rs:17-260", "crates/zserio-rs-build/src/internal/generator/zchoice.rs:20-330", "crates/zserio-rs-build/src/internal/generator/zunion.rs:17-330", "crates/zserio-rs-build/src/internal/generator/expression.rs:14-330"]}
{"id": "C74", "title": "A packed array stores each column in the best way", "statement": "Each column of a packed array is stored as differences exactly if that takes fewer bits than storing its numbers one by one, and then with the least width into which all differences of neighbouring numbers fit (at most 62 bits).", "quantifier": "every supported schema, every valid object, every packed array in it, every column of that array", "why_tests_cant": "Both a column that is not packed though it should be and one that is packed with too large a width can be read back; only the size differs, for particular combinations of numbers.", "anchors": ["crates/zserio/src/ztype/array_traits/delta_context.rs", "crates/zserio/src/ztype/array.rs", "crates/zserio-rs-build/src/internal/generator/zchoice.rs:99-112"]}
{"id": "C75", "title": "The reader decodes every encoding that the format permits", "statement": "The generated reader gets a valid object from each of its encodings: whichever columns of packed arrays the writer stores as differences, and with any width of at most 62 bits into which the differences fit. In particular it reads what writers emit that pack every column in the best way, and two different objects never have encodings of which one begins with the other.", "quantifier": "every supported schema, every valid object, every encoding of it that follows the layout rules (C48) with any sufficient plan for packed columns, every start position, whatever follows", "why_tests_cant": "Tests of this project read what its own writer wrote; other zserio implementations make other packing decisions (C74), and there are exponentially many for an array of structures.", "anchors": ["crates/zserio/src/ztype/array_traits/delta_context.rs", "crates/zserio/src/ztype/array.rs", "crates/zserio-rs-build/src/internal/generator/decode.rs"]}
{"id": "C76", "title": "From the text of a structure to the bits and back", "statement": "For a structure as it is parsed, the emitted writer and reader do what the text says: the visitor keeps types, arrays, conditions, alignments, offsets and the operators and operands of all expressions; every name in an expression is the parameter or field with that name, with its declared type; and the writer, executed on an object that the text permits, writes the zserio encoding in which presence of fields, numbers of elements and widths are the values of the expressions in the text, from which the reader restores the object.", "quantifier": "every parse tree of a structure with builtin types and expressions over the parameters and the fields in front, every object that the text permits and whose expressions fit the Rust types they are computed in, debug and release builds, every start position, whatever follows", "why_tests_cant": "The chain has many links (operand order in the visitor, tables from tokens to operators and from names to types, the symbol table, casts in the emitted expressions, the emitted calls), and an error in one of them shows only for schemas that use it with values for which it makes a difference.", "anchors": ["crates/zserio-rs-build/src/internal/visitor.rs", "crates/zserio-rs-build/src/internal/ast/zstruct.rs", "crates/zserio-rs-build/src/internal/ast/field.rs", "crates/zserio-rs-build/src/internal/ast/expression.rs", "crates/zserio-rs-build/src/internal/generator/zstruct.rs"]}
{"id": "C77", "title": "Constraints, initializers, offsets and implicit have an effect", "statement": "A constraint on a field is checked, a new object has the value of an initializer, an offset is the byte position of the field it belongs to, and an implicit array is stored without its number of elements, as the zserio language says.", "quantifier": "every structure with such fields, every object", "why_tests_cant": "Nothing fails when a constraint is ignored: objects that violate it are written and read back, and only a reader of another implementation rejects them.", "anchors": ["crates/zserio-rs-build/src/internal/ast/field.rs", "crates/zserio-rs-build/src/internal/visitor.rs", "crates/zserio-rs-build/src/internal/generator/encode.rs", "crates/zserio-rs-build/src/internal/generator/zstruct.rs"]}
{"id": "C78", "title": "From the text of a package to bits", "statement": "For every package that the visitor accepts and every structure, choice or union that its text declares, the functions that are emitted for the type and for all types it uses write every valid object as the zserio encoding of the type that the text declares, with the computed size, and the reader restores it.", "quantifier": "every parse tree of a package, every type declared in it, every valid object, every position in a stream", "why_tests_cant": "A test has one schema. How types are found by their names, how arguments meet parameters, how labels of choices, values of enum items and lengths are evaluated, and which names expressions see depends on the whole package.", "anchors": ["crates/zserio-rs-build/src/internal/visitor.rs", "crates/zserio-rs-build/src/internal/compiler/symbol_scope.rs", "crates/zserio-rs-build/src/internal/generator/zstruct.rs", "crates/zserio-rs-build/src/internal/generator/zchoice.rs", "crates/zserio-rs-build/src/internal/generator/zunion.rs", "crates/zserio-rs-build/src/internal/generator/zenum.rs", "crates/zserio-rs-build/src/internal/generator/zbitmask.rs"]}
{"id": "C79", "title": "The parser reads expressions as they are written", "statement": "The generated parser reads every expression whose operands are in parentheses where they bind more loosely than the operator (operators bind as in C, groups associate to the left, ?: to the right), gives the tree of that expression and stops at the first token that is no operator. It reads nothing else, and no sequence of tokens is the text of two expressions.", "quantifier": "every expression tree of the grammar, every sequence of tokens, whatever follows the expression (except the > that closes bit<..> or int<..>)", "why_tests_cant": "Precedence and associativity are sixteen pairs of numbers in 900 lines of generated code that act together through recursion; a wrong pair shows only for the nestings of operators that involve it.", "anchors": ["crates/zserio-rs-build/src/internal/parser/gen/zserioparser.rs", "crates/zserio-rs-build/src/internal/parser/ZserioParser.g4"]}
{"id": "C80", "title": "The same schema gives the same code in every run", "statement": "What the compiler generates for a schema does not depend on the order in which the hash maps of packages, structures, choices and unions are traversed, which is another one in every run: the same instances of templates are made, the same schemas are accepted, and the same files with the same contents are written.", "quantifier": "every set of packages and symbols, every list of references to templates (nested to any depth), every expression of a template with any number of instances, every pair of orders", "why_tests_cant": "The order of a hash map is chosen at random when the program starts; a test sees one order per run, and agreement of two runs says nothing about the others.", "anchors": ["crates/zserio-rs-build/src/internal/model.rs", "crates/zserio-rs-build/src/internal/generator/package.rs", "crates/zserio-rs-build/src/internal/generator/mod_file.rs", "crates/zserio-rs-build/src/internal/compiler/template_instantiation.rs"]}
{"id": "C81", "title": "Names in expressions have the types they were declared with", "statement": "A name in an expression, and a name behind a dot, stands for a declaration with the type that is written in that declaration, as it is meant in the package of the declaration; behind a dot only members of the type on the left are accepted, and all of them are.", "quantifier": "every set of packages with any imports, every declaration, subtypes of any depth, every place, every expression", "why_tests_cant": "The type depends on all declarations that are visible from the place where the name is used, which may be in packages that do not know each other; a test has one set of packages.", "anchors": ["crates/zserio-rs-build/src/internal/ast/expression.rs", "crates/zserio-rs-build/src/internal/compiler/symbol_scope.rs", "crates/zserio-rs-build/src/internal/compiler/fundamental_type.rs"]}
{"id": "C82", "title": "A declaration may refer to itself", "statement": "An expression is evaluated to the same whether or not the declaration that it belongs to is in use: the value of an enumeration item may use other items, that of a bitmask other values of it, a function may call itself on another object, a condition of a field may ask for the field of the same name of another object.", "quantifier": "every set of symbol tables, every declaration in use, every expression of any size, both build modes", "why_tests_cant": "Whether a declaration is looked at while it is borrowed depends on all names in the expression and all subtypes behind them; the panic of RefCell appears only for schemas that do it.", "anchors": ["crates/zserio-rs-build/src/internal/ast/expression.rs", "crates/zserio-rs-build/src/internal/compiler/symbol_scope.rs", "crates/zserio-rs-build/src/internal/model.rs", "crates/zserio-rs-build/src/internal/ast/zenum.rs", "crates/zserio-rs-build/src/internal/ast/zbitmask.rs", "crates/zserio-rs-build/src/internal/ast/zstruct.rs", "crates/zserio-rs-build/src/internal/ast/field.rs"]}
{"id": "C83", "title": "The lexer finds the tokens that are written", "statement": "A text is divided into the longest pieces that the rules of the grammar describe, each read by the first rule that describes it. Tokens that are written one behind the other, with blanks and comments where they would run together, are read as these tokens; comments have no effect. Every literal and name that is found is one of the language. The text of an expression is read as this expression.", "quantifier": "every text, every sequence of tokens, all literals and names of any length, comments with any contents", "why_tests_cant": "There are unboundedly many literals and names, and 116 rules that compete for every position of the text; a rule that takes one character too many shows only for certain neighbours.", "anchors": ["crates/zserio-rs-build/src/internal/parser/ZserioLexer.g4", "crates/zserio-rs-build/src/internal/parser/gen/zseriolexer.rs", "crates/zserio-rs-build/src/internal/model/package.rs"]}
{"id": "C84", "title": "The parser reads files as they are written", "statement": "A file that is written down, token by token or as characters with blanks and comments, is read as this file, with its package, imports, declarations, fields, types, arguments, clauses and expressions; a text is the text of at most one file. Conversely, whatever is read is a file of the language, its text is exactly the one that was read, and its literals are literals of the language, so that it is represented exactly if it meets the demands of C62.", "quantifier": "every file with any number of declarations of any size and nesting, every text", "why_tests_cant": "The grammar is recursive and its alternatives share beginnings of any length (types and expressions, template arguments and comparisons, offsets and constraints); a file that is read differently shows only with particular neighbours.", "anchors": ["crates/zserio-rs-build/src/internal/parser/ZserioParser.g4", "crates/zserio-rs-build/src/internal/parser/gen/zserioparser.rs", "crates/zserio-rs-build/src/internal/parser/ZserioLexer.g4", "crates/zserio-rs-build/src/internal/model/package.rs"]}
{"id": "C85", "title": "From the characters of a schema to bits", "statement": "If characters are the text of a package of the language that meets the demands of the compiler, then the compiler accepts them, there is code for every type that the text declares, and this code writes every valid object in the zserio encoding of the type, computes its size, and reads it back.", "quantifier": "all texts of packages of any size, all types that they declare, all valid objects, all bits in front and behind, debug and release", "why_tests_cant": "It is a statement about all schemas and all objects at once, through lexer, parser, visitor, generator and the generated functions.", "anchors": ["crates/zserio-rs-build/src/internal/model/package.rs", "crates/zserio-rs-build/src/internal/parser/ZserioParser.g4", "crates/zserio-rs-build/src/internal/visitor.rs", "crates/zserio-rs-build/src/internal/generator/zstruct.rs", "crates/zserio-rs-build/src/internal/generator/encode.rs", "crates/zserio-rs-build/src/internal/generator/decode.rs", "crates/zserio-rs-build/src/internal/generator/bitsize.rs"]}
{"id": "C86", "title": "A subtype is the type that it stands for", "statement": "If every subtype in the types of fields, parameters, functions and constants of a package is replaced by the type that it stands for, through any number of subtypes, then the compiler accepts the new package too, and the generator sees the same declarations in both: the functions that are emitted for a type that uses subtypes write every valid object in the zserio encoding of the type without subtypes, compute its size, and read it back. Arguments behind the name of a subtype are passed on.", "quantifier": "all packages with any number of subtypes and chains of any length, all types, all valid objects, all bits in front and behind, debug and release", "why_tests_cant": "Subtypes are followed at about ten places of the generator and of the evaluation of expressions, for every kind of declaration; a test has one chain at one place.", "anchors": ["crates/zserio-rs-build/src/internal/compiler/fundamental_type.rs", "crates/zserio-rs-build/src/internal/generator/packed_contexts.rs", "crates/zserio-rs-build/src/internal/generator/array.rs", "crates/zserio-rs-build/src/internal/generator/subtype.rs", "crates/zserio-rs-build/src/internal/generator/casts.rs", "crates/zserio-rs-build/src/internal/ast/expression.rs"]}
{"id": "C87", "title": "A constant is the value of its expression", "statement": "For every constant of a package, whose type is a builtin type or a subtype of one, the Rust constant that is emitted has the value of the expression in the schema, also if other constants are used in it and whatever the order of the declarations; the values are unique. In lengths of arrays, widths, conditions, constraints, initialisers and arguments of a type, the name of a constant stands for this value unless a field or parameter has the same name: the functions that are emitted for the type write every valid object in the zserio encoding of the type, compute its size, and read it back. A value is in the range of the declared type.", "quantifier": "all packages with any number of constants that depend on each other without cycles, all expressions, all types that use them, all valid objects, all bits in front and behind, debug and release", "why_tests_cant": "A test has a few constants with literals; which names an expression may use, which types the operands have, and what hides a constant depends on the whole package.", "anchors": ["crates/zserio-rs-build/src/internal/generator/zconst.rs", "crates/zserio-rs-build/src/internal/generator/expression.rs", "crates/zserio-rs-build/src/internal/compiler/symbol_scope.rs", "crates/zserio-rs-build/src/internal/compiler/fundamental_type.rs", "crates/zserio-rs-build/src/internal/ast/expression.rs"]}
{"id": "C88", "title": "An item of an enumeration is the number it is declared with", "statement": "For every enumeration of a package, the Rust enumeration that is emitted has the declared items, in this order, with the numbers that are written for them, or counted on from the item in front. In the lengths of arrays, widths, conditions and arguments of a type, `Color.RED` is the item RED of the enumeration Color, unless a field or parameter is called Color; a field of the type Color is the item that is stored in it; both can be compared, and valueof() gives their numbers. The functions that are emitted for the type write every valid object in the zserio encoding of the type, compute its size, and read it back.", "quantifier": "all packages with any number of enumerations, all types whose expressions use them, all valid objects, all bits in front and behind, debug and release", "why_tests_cant": "A test compares a field with one item; which item a name is, the number it has, the types of both sides of a comparison and of valueof depend on the whole package.", "anchors": ["crates/zserio-rs-build/src/internal/ast/expression.rs", "crates/zserio-rs-build/src/internal/ast/zenum.rs", "crates/zserio-rs-build/src/internal/generator/expression.rs", "crates/zserio-rs-build/src/internal/generator/zenum.rs", "crates/zserio-rs-build/src/internal/compiler/symbol_scope.rs"]}
{"id": "C89", "title": "Parameters, selectors and labels of all kinds", "statement": "For every parameter that is an integer, a boolean, a string or an enumeration, the argument that is emitted has the value of the expression in the schema. A choice with such a parameter as its selector takes exactly the case with a label of this value; `RED` and `Color.RED` as labels of a choice on a parameter of the type Color are the item RED. The types with such parameters write every valid object in the zserio encoding, compute its size, and read it back, like those with integers.", "quantifier": "all expressions, all parameters, all choices and all labels, all packages, all valid objects, debug and release", "why_tests_cant": "Whether an argument gets a cast or clone() depends on the type of its expression and on the parameter; which item a label means depends on names in the whole package.", "anchors": ["crates/zserio-rs-build/src/internal/generator/decode.rs", "crates/zserio-rs-build/src/internal/generator/encode.rs", "crates/zserio-rs-build/src/internal/generator/zchoice.rs", "crates/zserio-rs-build/src/internal/generator/types.rs", "crates/zserio-rs-build/src/internal/compiler/symbol_scope.rs", "crates/zserio-rs-build/src/internal/ast/zchoice.rs"]}
{"id": "C90", "title": "Emitted expressions are read as they are meant", "statement": "In every place where an expression of the schema is emitted - condition, length of an array, width of bit<e>, argument, assertion about a parameter - the Rust parser reads the emitted text, with all that is emitted around it (casts, parentheses, clone(), != 0, comparisons), as the operation on the meant operands, whatever operators the expression has.", "quantifier": "all expressions of the schema language, all nestings of operators, all places", "why_tests_cant": "The text is put together without parentheses, so its reading depends on the precedences of both languages for every combination of operators in every place.", "anchors": ["crates/zserio-rs-build/src/internal/generator/expression.rs", "crates/zserio-rs-build/src/internal/generator/decode.rs", "crates/zserio-rs-build/src/internal/generator/encode.rs", "crates/zserio-rs-build/src/internal/generator/array.rs", "crates/zserio-rs-build/src/internal/generator/casts.rs"]}
{"id": "C91", "title": "Members of objects in expressions", "statement": "An expression may go into a field that is a structure, to any depth: `header.len`, `a.b.c`. It means what the name of the member means in the expressions of that structure, for the object that the field holds: the generator finds the same member with the same type as the declaration of the structure says, also through subtypes, and the emitted code reads its value. So conditions, lengths, widths and arguments may use members of fields, and the objects are written in the zserio encoding, their size is computed, and they are read back.", "quantifier": "all packages, all structures, all paths of members, all valid objects, debug and release", "why_tests_cant": "The lookup changes the scope for every dot; which declaration is found depends on the types of all fields of the path, on subtypes, and on the names in the whole package.", "anchors": ["crates/zserio-rs-build/src/internal/ast/expression.rs", "crates/zserio-rs-build/src/internal/generator/expression.rs", "crates/zserio-rs-build/src/internal/compiler/symbol_scope.rs", "crates/zserio-rs-build/src/internal/compiler/fundamental_type.rs"]}
{"id": "C92", "title": "Bitmasks in expressions", "statement": "In the expressions of a package, a field whose type is a bitmask is the number that it holds, and `Flags.A` is the number of the value A of the bitmask Flags: the one that is written for it, or the next power of two. isset(f, Flags.A), valueof(f), comparisons and & | ^ compute with these numbers, and the emitted code does so too. So conditions, lengths, widths and constants may use bitmasks, and the objects are written in the zserio encoding, their size is computed, and they are read back.", "quantifier": "all packages, all bitmasks, all expressions, all valid objects, debug and release", "why_tests_cant": "The numbers of the values depend on all values in front of them; the emitted text depends on whether an operand is a field, a value or an expression of bitmasks, and on the type of the bitmask.", "anchors": ["crates/zserio-rs-build/src/internal/ast/zbitmask.rs", "crates/zserio-rs-build/src/internal/generator/zbitmask.rs", "crates/zserio-rs-build/src/internal/ast/expression.rs", "crates/zserio-rs-build/src/internal/generator/expression.rs"]}
{"id": "C93", "title": "Functions in expressions", "statement": "In the expressions of a structure, union or choice, a call of one of its functions is the value of the expression of the function for the object as far as it is written or read: the emitted method returns this value, also when it calls other methods. What the methods of a package return is uniquely determined unless one calls itself. So conditions, lengths, widths and arguments may call functions, and the objects are written and read back.", "quantifier": "all packages, all functions, all depths of calls, all valid objects, debug and release", "why_tests_cant": "The type of the emitted computation depends on the types of all operands, on the return types of the functions it calls and on the return type it is cast to; calls nest to any depth.", "anchors": ["crates/zserio-rs-build/src/internal/generator/function.rs", "crates/zserio-rs-build/src/internal/generator/expression.rs", "crates/zserio-rs-build/src/internal/ast/expression.rs", "crates/zserio-rs-build/src/internal/generator/zstruct.rs"]}
{"id": "C94", "title": "Functions of other objects in expressions", "statement": "In an expression, a call of a function of an object, such as header.size(), is the value of the expression of that function for that object: the same that a call of the function is in the expressions of the type of the object. The emitted method call returns this value, also when that function calls functions of objects inside its object. What the methods of a package return is uniquely determined if no type contains itself and no function calls itself on the same object.", "quantifier": "all packages, all functions, all depths of nesting of the objects and of the calls, all valid objects, debug and release", "why_tests_cant": "The value depends on the object that the path leads to, on the types of all operands there and on the functions that are called from there; paths and calls nest to any depth.", "anchors": ["crates/zserio-rs-build/src/internal/generator/function.rs", "crates/zserio-rs-build/src/internal/generator/expression.rs", "crates/zserio-rs-build/src/internal/ast/expression.rs", "crates/zserio-rs-build/src/internal/generator/zstruct.rs"]}
{"id": "C95", "title": "Dependencies that the text shows", "statement": "If by the text of a package no constant uses itself in its value, no function uses itself, and no structure has a parameter or field of its own type, each neither directly nor through others, then no emitted Rust constant depends on itself, the calls of the emitted methods end, and what is generated for the constants and functions of the package is there and uniquely determined. Conversely, if a constant uses itself, directly or through others, no values go with the emitted constants, so Rust refuses them.", "quantifier": "all packages, all lengths of chains of dependencies, all nestings of expressions", "why_tests_cant": "Chains of constants, functions and types may have any length and may run through any part of an expression, and the emitted expressions differ from those of the text.", "anchors": ["crates/zserio-rs-build/src/internal/generator/function.rs", "crates/zserio-rs-build/src/internal/generator/zconst.rs", "crates/zserio-rs-build/src/internal/generator/expression.rs"]}
{"id": "C96", "title": "Expressions without a value panic", "statement": "Where an expression of the schema has no value because an array does not have the element or because a divisor is 0, while the operands are in the ranges of their Rust types, the emitted code panics in debug and in release builds; it does not go on with another value. So do the length of an array, the width of a number and the condition of a field that are such expressions.", "quantifier": "all operands (expressions of any nesting), all scopes and values of the names, both build modes", "why_tests_cant": "The operands may be any expressions, with casts that the generator adds; a test tries a few.", "anchors": ["crates/zserio-rs-build/src/internal/generator/expression.rs", "crates/zserio-rs-build/src/internal/generator/array.rs"]}
