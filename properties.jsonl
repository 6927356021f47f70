{"id": "C01", "title": "Unsigned bit fields round-trip and reject exactly the values that do not fit", "statement": "WriteUnsignedBits(w, v, n) with 0<=n<=64 succeeds exactly when v < 2^n. When it succeeds it appends exactly n bits and ReadUnsignedBits(r, n) started at that point returns v and consumes exactly those n bits. When it fails it returns ErrValueOutOfBitRange and the stream is unchanged.", "quantifier": "every uint64 value, every width 0..64, every stream contents and bit position, every suffix following the field", "why_tests_cant": "2^64 values x 65 widths x arbitrary stream positions; the shift at width 64 wraps", "anchors": ["ztype/bits_encode.go:WriteUnsignedBits", "ztype/bits_decode.go:ReadUnsignedBits"]}
{"id": "C02", "title": "Signed bit fields round-trip and reject exactly the values that do not fit", "statement": "WriteSignedBits(w, v, n) with 1<=n<=64 succeeds exactly when -2^(n-1) <= v < 2^(n-1); then exactly n bits (two's complement) are appended and ReadSignedBits(r, n) returns v. Otherwise ErrValueOutOfBitRange and nothing is written.", "quantifier": "every int64 value, every width 1..64, every stream contents and position", "why_tests_cant": "boundary behaviour (1<<64, MinInt64, wrapping subtraction) and the whole value space cannot be enumerated", "anchors": ["ztype/bits_encode.go:WriteSignedBits", "ztype/bits_decode.go:ReadSignedBits"]}
{"id": "C03", "title": "Fixed-width integers and booleans never fail to write and round-trip bit-exactly", "statement": "WriteUint8/16/32/64, WriteInt8/16/32/64 and WriteBool accept every value of the Go type, append exactly 8/16/32/64/1 bits, most significant bit first, and the matching Read function returns the identical value.", "quantifier": "every value of each Go integer type, every stream position", "why_tests_cant": "the 32 and 64 bit spaces cannot be enumerated", "anchors": ["ztype/bits_encode.go", "ztype/bits_decode.go", "ztype/bool_encode.go", "ztype/bool_decode.go"]}
{"id": "C04", "title": "Unsigned variable-length integers round-trip over exactly their documented range", "statement": "For varuint16, varuint32, varuint64, varuint and varsize: writing v succeeds exactly when v is within [MinX, MaxX] of limits.go; on success the matching Read function returns v and leaves the reader exactly after the written bytes; on failure the error is ErrOutOfBounds and nothing is written.", "quantifier": "every value of the Go parameter type of each of the five types, every stream position and following data", "why_tests_cant": "up to 2^64 values; the interesting part is the carry between the 7-bit groups and the 8-bit last group", "anchors": ["ztype/varuint_encode.go", "ztype/varuint_decode.go", "ztype/limits.go"]}
{"id": "C05", "title": "Signed variable-length integers round-trip over exactly their documented range", "statement": "For varint16, varint32, varint64 and varint: writing v succeeds exactly when v is within [MinX, MaxX] of limits.go; on success the matching Read function returns v; on failure the error is ErrOutOfBounds and nothing is written.", "quantifier": "every value of the Go parameter type of each of the four types, every stream position and following data", "why_tests_cant": "2^64 values, with a single failing point at the most negative int64 that sampling will not hit", "anchors": ["ztype/varint_encode.go", "ztype/varint_decode.go", "ztype/limits.go"]}
{"id": "C06", "title": "The reported size of a variable-length integer is the number of bits it occupies", "statement": "UnsignedBitSize(v, max) and SignedBitSize(v, max), with the max that belongs to the type, return exactly the number of bits the corresponding Write function appends, and return an error exactly when the Write function does.", "quantifier": "every value, every variable-length type", "why_tests_cant": "size functions and writers are separate code paths that have to agree on 2^64 values", "anchors": ["ztype/varuint_encode.go:UnsignedBitSize", "ztype/varint_encode.go:SignedBitSize", "internal/generator/templates/builtin_bitsizeof.go.tmpl"]}
{"id": "C07", "title": "Variable-length encoders choose the shortest encoding", "statement": "Among all byte strings a variable-length Read function accepts and decodes to v, the one produced by the Write function has minimal length.", "quantifier": "every value in range, every alternative byte string", "why_tests_cant": "ranges over all alternative encodings of all values", "anchors": ["ztype/varuint_encode.go:writeVarUint", "ztype/varint_encode.go:writeVarInt"]}
{"id": "C08", "title": "Variable-length decoders are total and bounded", "statement": "On any input each variable-length Read function either returns a value inside the documented range after consuming between one and its maximum number of whole bytes, or returns an error; without running out of input only ReadVarsize can return an error and it does so exactly for numbers above MaxVarsize. No input makes it loop, panic or consume more.", "quantifier": "every input bit string, every bit offset, every variable-length type", "why_tests_cant": "quantifies over all byte strings, including malformed ones", "anchors": ["ztype/varuint_decode.go", "ztype/varint_decode.go"]}
{"id": "C09", "title": "Reader and writer alignment agree, are minimal, and pad with zeros", "statement": "Align(b) on a writer appends the least number of zero bits that makes the bit position a multiple of b and returns the new position; Align(b) on a reader at the same position skips the same number of bits; CountAlignBits(pos, b) is that number; aligning twice equals aligning once.", "quantifier": "every bit position, every boundary 1..64, every stream", "why_tests_cant": "all positions x boundaries; involves uint8 truncation of the remainder", "anchors": ["zstream/writer.go:Align", "zstream/reader.go:Align", "zstream/reader.go:discard", "ztype/bit_alignment.go:CountAlignBits"]}
{"id": "C10", "title": "Marshal produces the written bits padded with fewer than eight zero bits, or nothing", "statement": "If the object's MarshalZserio succeeds having written k bits, Marshal returns ceil(k/8) bytes whose first k bits are the written bits and whose remaining bits are zero. If it fails Marshal returns nil and an error.", "quantifier": "every Marshaler (any sequence of writer operations)", "why_tests_cant": "quantifies over all programs that use the writer", "anchors": ["marshal.go:Marshal", "zstream/writer.go:Close"]}
{"id": "C11", "title": "The byte-and-cache bit stream behaves like one flat bit sequence", "statement": "Any interleaving of WriteBits, WriteBitsUnsafe (with operand below 2^n), WriteBool, WriteByte, Write and Align on a BitWriter followed by Close produces the same bytes as appending the bits one by one to a list; any interleaving of ReadBits, ReadBool, ReadByte, Read and Align on a BitReader returns what taking bits one by one from the list would.", "quantifier": "every finite sequence of operations with every operand, starting from any reachable cache state", "why_tests_cant": "unbounded operation sequences over all cache fill levels", "anchors": ["zstream/writer.go", "zstream/reader.go"]}
{"id": "C12", "title": "Unmarshal ignores bytes after the encoded object", "statement": "If Unmarshal(b, m) succeeds then Unmarshal(b ++ t, m) succeeds with the same result for every t.", "quantifier": "every byte string, every suffix, every decoder built from the ztype Read functions, every generated type", "why_tests_cant": "ranges over all suffixes and all decoders", "anchors": ["marshal.go:Unmarshal", "zstream/reader.go"]}
{"id": "C13", "title": "Truncated input is always reported", "statement": "If a decoder consumed k bits of an input, running it on any input that keeps fewer than k of those bits returns an error instead of a value.", "quantifier": "every decoder built from the ztype Read functions, every input, every truncation point", "why_tests_cant": "every prefix of every message", "anchors": ["ztype/*_decode.go", "ztype/delta_context.go:Read"]}
{"id": "C14", "title": "A write failure of the underlying sink is always reported", "statement": "If the io.Writer under the BitWriter stops accepting bytes at any point, the MarshalZserio/Write call in progress (or Close) returns an error; success means every byte reached the sink.", "quantifier": "every encoder built from the ztype Write functions, every value, every failure point", "why_tests_cant": "every crash point of every message", "anchors": ["ztype/*_encode.go", "ztype/array_encode.go:MarshalZserio", "ztype/object_array_encode.go:MarshalZserio", "zstream/writer.go"]}
{"id": "C15", "title": "Strings, byte buffers and bit buffers round-trip", "statement": "WriteString/WriteBytes/WriteExtern of a well-formed value (ByteSize equals len(Buffer); len(Buffer) is the ceiling of BitSize/8; unused low bits of the last byte zero) of size at most MaxVarsize followed by the matching Read returns the value; longer strings are rejected without output.", "quantifier": "every byte string/bit string, every stream position", "why_tests_cant": "all contents and lengths, at all 8 bit offsets", "anchors": ["ztype/string_encode.go", "ztype/string_decode.go", "ztype/bytes_encode.go", "ztype/bytes_decode.go", "ztype/extern_encode.go", "ztype/extern_decode.go"]}
{"id": "C16", "title": "Floating point values travel bit-exactly", "statement": "WriteFloat32/WriteFloat64 append the IEEE bit pattern big-endian and ReadFloat32/ReadFloat64 return the same bit pattern, including NaN payloads and signed zero; every float16 bit pattern read and written again is unchanged when the half/single conversion is the identity on it.", "quantifier": "every 16/32/64 bit pattern, every stream position", "why_tests_cant": "2^64 bit patterns including all NaNs", "anchors": ["ztype/float_encode.go", "ztype/float_decode.go"]}
{"id": "C17", "title": "numbits is the width needed for that many distinct codes", "statement": "NumBits(v) is the least n with 2^n >= v, except NumBits(1) = 1 and NumBits(0) = 0; every number below v fits into NumBits(v) bits; NumBits is monotone.", "quantifier": "every uint64", "why_tests_cant": "2^64 inputs", "anchors": ["ztype/varuint_encode.go:NumBits"]}
{"id": "C18", "title": "Delta packing round-trips every integer sequence", "statement": "Initialising a DeltaContext with the elements of a sequence, writing them in order, then reading the same number of elements with a fresh context returns the same sequence, whatever mode (packed or unpacked) was chosen.", "quantifier": "every finite sequence of elements of every integer-like array traits, any length, any stream position", "why_tests_cant": "unbounded sequences and histories; the mode switch depends on all elements", "anchors": ["ztype/delta_context.go"]}
{"id": "C19", "title": "Delta packing never costs more than one bit over unpacked and its reported size is exact", "statement": "The number of bits a DeltaContext writes for a sequence is the sum of what BitSizeOf reports, and is at most one more than the sum of the unpacked element sizes; packed mode is chosen exactly when it is strictly smaller and every delta fits 62 bits.", "quantifier": "every finite sequence for every traits whose BitSizeOf is the number of bits written", "why_tests_cant": "size decision is a global function of unbounded sequences", "anchors": ["ztype/delta_context.go:finishInit", "ztype/delta_context.go:BitSizeOf", "ztype/delta_context.go:Init"]}
{"id": "C20", "title": "Unpacked arrays of builtin elements round-trip", "statement": "For an automatic-length or fixed-length, unpacked array whose elements are all in range, UnmarshalZserio after MarshalZserio returns the same elements, in order, and leaves the reader after the array, with or without element alignment (offset check).", "quantifier": "every element traits, every element list up to MaxVarsize elements, every stream position", "why_tests_cant": "all lists of all lengths for 24 element types", "anchors": ["ztype/array.go", "ztype/array_encode.go", "ztype/array_decode.go", "ztype/array_traits.go"]}
{"id": "C21", "title": "Packed arrays round-trip for every element type that accepts packing", "statement": "The same as C20 for IsPacked arrays of every traits that offers PackedTraits().", "quantifier": "every traits, every element list", "why_tests_cant": "data-dependent packed/unpacked mode; unbounded lists", "anchors": ["ztype/array_encode.go", "ztype/array_decode.go", "ztype/packed_array_traits.go", "ztype/delta_context.go"]}
{"id": "C22", "title": "The reported bit size of an array is the number of bits it occupies", "statement": "Array.ZserioBitSize(pos) (ZserioBitSizePacked for packed arrays) equals the number of bits MarshalZserio appends when started at bit position pos.", "quantifier": "every traits, every element list, every bit position", "why_tests_cant": "all lengths including the boundaries of the length prefix (64, 128, 2^28, ...)", "anchors": ["ztype/array.go:ZserioBitSize", "ztype/array.go:ZserioBitSizePacked", "ztype/object_array.go"]}
{"id": "C23", "title": "An array element that cannot be written makes the array write fail", "statement": "If writing any element of an array returns an error, MarshalZserio of the array (and hence of the enclosing object) returns an error rather than a stream that decodes to something else.", "quantifier": "every traits, every array with at least one unwritable element", "why_tests_cant": "any element at any index; failures are data dependent", "anchors": ["ztype/array_encode.go:MarshalZserio", "ztype/object_array_encode.go:MarshalZserio", "ztype/array_traits.go:BitFieldArrayTraits.Write"]}
{"id": "C24", "title": "Arrays of objects round-trip", "statement": "For every object type whose own MarshalZserio/UnmarshalZserio round-trip at every bit position, ObjectArray round-trips at every position, including compound parameters set per element.", "quantifier": "every element type satisfying the hypothesis, every element list, every position", "why_tests_cant": "higher-order: quantifies over all element types", "anchors": ["ztype/object_array_encode.go", "ztype/object_array_decode.go", "ztype/object_array_traits.go"]}
{"id": "C25", "title": "Generated structs round-trip", "statement": "For every schema struct (builtin, enum, bitmask, nested, parameterised, array and packed array fields; optional fields, alignment, conditional fields) and every value that MarshalZserio accepts with all array elements in range, UnmarshalZserio into a zero value returns the same value.", "quantifier": "every schema, every value of the generated type, every starting bit position", "why_tests_cant": "quantifies over all schemas, not just the example schema, and all values", "anchors": ["internal/generator/templates/struct.go.tmpl", "internal/generator/templates/encode.go.tmpl", "internal/generator/templates/decode.go.tmpl"]}
{"id": "C26", "title": "The reported bit size of a generated object is what it occupies", "statement": "ZserioBitSize(pos) of every generated type equals the number of bits MarshalZserio writes at position pos.", "quantifier": "every schema, every value, every position", "why_tests_cant": "quantifies over all schemas and positions", "anchors": ["internal/generator/templates/bitsizeof.go.tmpl", "internal/generator/templates/builtin_bitsizeof.go.tmpl"]}
{"id": "C27", "title": "Generated unions round-trip and reject unknown tags", "statement": "A union value with a selected member round-trips including its tag; decoding a tag that names no member is an error.", "quantifier": "every union schema, every member, every value, every tag on the wire", "why_tests_cant": "all schemas and all tags", "anchors": ["internal/generator/templates/union.go.tmpl"]}
{"id": "C28", "title": "Generated choices encode the member named by the selector", "statement": "For every choice and selector value, marshalling writes the field of the case one of whose labels equals the selector (or the default field, or nothing when that case is empty), and unmarshalling with the same selector reads it back.", "quantifier": "every choice schema with any number of labels per case, every selector value", "why_tests_cant": "all schemas; multi-label and empty cases are rarely exercised", "anchors": ["internal/generator/templates/choice.go.tmpl"]}
{"id": "C29", "title": "Packed arrays of generated objects round-trip", "statement": "A packed array of structs (per-field delta contexts, nested structs, enums, bitmasks, optional fields, alignment) round-trips.", "quantifier": "every struct schema, every element list", "why_tests_cant": "per-field contexts carry history across the whole array", "anchors": ["internal/generator/templates/packing_context_*.go.tmpl", "internal/generator/templates/struct.go.tmpl", "ztype/object_array_traits.go"]}
{"id": "C30", "title": "Enumerations: implicit values continue from the previous item and names round-trip", "statement": "An item without an explicit value gets 0 if first and previous+1 otherwise; an implicit item after a non-integer item is an error; XString(x.String()) returns x for every declared item with distinct values and names, and XString rejects every other string.", "quantifier": "every enum declaration, every declared value, every string", "why_tests_cant": "all declarations, all strings", "anchors": ["internal/ast/enum.go:Evaluate", "internal/generator/templates/enum.go.tmpl"]}
{"id": "C31", "title": "Bitmasks: implicit values are fresh single bits", "statement": "A bitmask value without an explicit value gets 1 if first, otherwise the smallest power of two greater than its predecessor; it shares no bit with any earlier value of the declaration and fits int64.", "quantifier": "every bitmask declaration", "why_tests_cant": "all declarations, including those with explicit non-monotone or large values", "anchors": ["internal/ast/bitmask.go:Evaluate", "internal/ast/bitmask.go:findNextFreeBit"]}
{"id": "C32", "title": "Mixing numeric types in an expression picks a type that does not depend on operand order", "statement": "DetermineArithmeticOperationResultType(a,b) and (b,a) agree on kind, signedness and width; the result is unsigned if either operand is, float if either is, and at least as wide as each operand.", "quantifier": "every pair of operand types (all builtin types, all bit widths, dynamic widths, literals)", "why_tests_cant": "all pairs of an infinite family (bit:N)", "anchors": ["internal/ast/mixing_native_types.go"]}
{"id": "C33", "title": "Constant folding computes what the generated code would compute", "statement": "For a fully resolved integer/boolean expression the value folded at generation time equals the value of the same expression evaluated by the runtime operators of the generated code.", "quantifier": "every expression tree over integer and boolean literals and all operators", "why_tests_cant": "unbounded expression trees", "anchors": ["internal/ast/expression.go:Evaluate", "internal/generator/expression.go", "ztype/varuint_encode.go:NumBits"]}
{"id": "C34", "title": "Cyclic constant definitions are reported, and evaluation terminates", "statement": "Evaluating the constants of a model terminates; if a constant (transitively) refers to itself evaluation reports an error; if no constant does, every constant gets the value of its expression independent of evaluation order.", "quantifier": "every set of constant definitions, every evaluation order", "why_tests_cant": "unbounded reference graphs and orders (map iteration)", "anchors": ["internal/ast/expression.go:Evaluate", "internal/ast/expression.go:evaluateIdentifier", "internal/model/transform.go:EvaluateConsts"]}
{"id": "C35", "title": "The import list of a generated file is exactly the set of reachable packages, once each", "statement": "GoGetAllImports(pkg) terminates on every import graph (including cycles), contains no duplicates, and contains a package exactly when it is reachable from pkg by one or more imports.", "quantifier": "every finite import graph with distinct package names", "why_tests_cant": "all graphs", "anchors": ["internal/generator/funcs.go:GoGetAllImports"]}
{"id": "C36", "title": "Looking up a package or symbol through imports terminates and finds it exactly if reachable", "statement": "GetImportedScope(name) and GetOtherType(name) terminate; they succeed exactly when a reachable package has that name (symbol). GetSymbol(name) prefers a type of that name in the package or in what it imports directly, then a member of the declaration at hand, then what a reachable package declares.", "quantifier": "every import graph, every name", "why_tests_cant": "all graphs including import cycles", "anchors": ["internal/ast/package.go:GetImportedScope", "internal/ast/package.go:GetOtherType"]}
{"id": "C37", "title": "Generated file paths never collide and respect the length limit", "statement": "Within one run assembleUniqueFilePath never returns the same path twice and never returns a path longer than the configured maximum.", "quantifier": "every sequence of (directory, file name) requests, every maximum length", "why_tests_cant": "all call histories; suffix collisions need specific histories", "anchors": ["internal/generator/gen.go:assembleUniqueFilePath"]}
{"id": "C38", "title": "Distinct template instantiations get distinct types", "statement": "Instantiating a template with different argument lists yields differently named types, so two fields of different instantiated type never share a generated type.", "quantifier": "all template names and argument lists", "why_tests_cant": "name concatenation over all strings", "anchors": ["internal/model/transform.go:generateInstantiatedName", "internal/model/transform.go:instantiateStruct"]}
{"id": "C39", "title": "Subtype chains resolve to their original type", "statement": "GetOriginalType of a reference follows subtype links to the first builtin or compound type, reports whether a cast is needed exactly when at least one link was followed, and reports an error for cyclic chains; every acyclic chain resolves.", "quantifier": "every chain of subtypes of every length, acyclic or cyclic, across packages", "why_tests_cant": "all chain lengths and package graphs", "anchors": ["internal/ast/package.go:GetOriginalType"]}
{"id": "C40", "title": "Generator output order is deterministic", "statement": "The order of generated types within a package does not depend on map iteration order: any permutation of the declarations produces the same sequence of outputs.", "quantifier": "every set of declarations, every iteration order", "why_tests_cant": "map iteration orders are all permutations", "anchors": ["internal/generator/gen.go:newOutputs"]}
{"id": "C41", "title": "Import stripping changes nothing but unused imports", "statement": "StripImports keeps the text outside the import block byte for byte, keeps every import whose qualifier followed by a dot occurs in the body, and removes only import lines.", "quantifier": "every source text", "why_tests_cant": "all texts", "anchors": ["internal/generator/strip_imports.go:StripImports"]}
{"id": "C42", "title": "Obtaining bit field traits is total and independent of call history", "statement": "GetBitFieldArrayTraits[T](n) and GetSignedBitFieldArrayTraits[T](n) return traits of width n for every width 1..64 and every T wide enough, regardless of which other calls happened before.", "quantifier": "every history of calls, every width, every Go type", "why_tests_cant": "depends on the global history of the process", "anchors": ["ztype/array_traits.go:GetBitFieldArrayTraits", "ztype/array_traits.go:GetSignedBitFieldArrayTraits"]}
{"id": "C43", "title": "Clone yields an independent array", "statement": "After b := a.Clone(), writing to elements of b does not change what a serialises to.", "quantifier": "every array, every sequence of later element updates", "why_tests_cant": "aliasing over all update histories", "anchors": ["ztype/array.go:Clone"]}
{"id": "C44", "title": "Messages written one after another on one stream are read back one after another", "statement": "Writing any sequence of values with round-tripping codecs to one writer and reading them with the matching decoders from one reader returns the sequence; earlier output is never altered by later writes.", "quantifier": "every finite sequence of codecs and values", "why_tests_cant": "unbounded histories, every starting alignment", "anchors": ["zstream/writer.go", "zstream/reader.go", "ztype"]}
{"id": "C45", "title": "The Go type chosen for a bit field holds every value of the field", "statement": "For int:N and bit:N with 1<=N<=64 the Go type chosen by the generator has at least N bits and the same signedness, so the conversion after reading never changes the value. int:8, uint:16, bit:32 and the like are the same types as int8, uint16, uint32.", "quantifier": "every width, every value of the field", "why_tests_cant": "every width times every value", "anchors": ["internal/ast/scope.go:goBits", "internal/ast/scope.go:GoType", "internal/generator/templates/decode.go.tmpl"]}
{"id": "C46", "title": "Arithmetic on fixed alignment: alignTo returns the next multiple", "statement": "alignTo(a, p) is the least multiple of a that is at least p for positive p, and alignTo(8, p) agrees with CountAlignBits(p, 8).", "quantifier": "every position and alignment", "why_tests_cant": "all positions", "anchors": ["ztype/bit_alignment.go:alignTo", "ztype/bit_alignment.go:CountAlignBits"]}
{"id": "C47", "title": "Decoding into a used object equals decoding into a fresh one", "statement": "UnmarshalZserio(r) leaves the object in the same state regardless of its previous contents.", "quantifier": "every schema, every previous contents, every input", "why_tests_cant": "all previous states", "anchors": ["internal/generator/templates/decode.go.tmpl", "internal/generator/templates/union.go.tmpl", "internal/generator/templates/choice.go.tmpl"]}
{"id": "C48", "title": "Type resolution binds a name to the package that declares it", "statement": "ResolveTypes sets the package of an unqualified reference to the own package if it declares the name, else to the first import that matches and declares it, and reports an error otherwise; it is idempotent.", "quantifier": "every model, every reference", "why_tests_cant": "all models and import lists", "anchors": ["internal/model/transform.go:resolveTypeReference"]}
{"id": "C49", "title": "A type reference accepted by resolution can be looked up later", "statement": "If ResolveTypes binds a reference to a package, every later lookup of that package from the referring package (GetImportedScope, used by GetOriginalType and the generator) succeeds.", "quantifier": "every model, every kind of import, every reference", "why_tests_cant": "all combinations of import kinds and references over unbounded models", "anchors": ["internal/model/transform.go:resolveTypeReference", "internal/model/transform.go:ResolveImports", "internal/ast/package.go:GetImportedScope"]}
{"id": "C50", "title": "The path length option behaves as documented", "statement": "Every generated file lies in the output directory of its package and ends in .go; a name that fits into the limit is not shortened; a limit of 0 means no limit.", "quantifier": "every directory, file name, limit and history", "why_tests_cant": "all lengths and histories", "anchors": ["internal/generator/gen.go:assembleUniqueFilePath", "internal/cli/generate.go"]}
{"id": "C51", "title": "Every generated file takes part in the Go build", "statement": "The file written for a type is not ignored by the Go tool in a normal build.", "quantifier": "every type name", "why_tests_cant": "all names; special suffixes only show with specific names", "anchors": ["internal/generator/gen.go:newTypeOutput", "internal/generator/gen.go:assembleUniqueFilePath"]}
{"id": "C52", "title": "Distinct enum items get distinct Go constants", "statement": "The Go names of two different items of the enums of a package differ.", "quantifier": "all enum and item names", "why_tests_cant": "all strings", "anchors": ["internal/ast/enum.go:GoName"]}
{"id": "C53", "title": "Distinct names stay distinct when capitalised for Go", "statement": "Two different field (type, function) names of one scope have different Go names.", "quantifier": "all names", "why_tests_cant": "all strings", "anchors": ["internal/model/transform.go:CapitalizeNames"]}
{"id": "C54", "title": "After stripping exactly the used imports remain", "statement": "An import remains in a generated file exactly if the code after the import block uses its qualifier, so that the file compiles.", "quantifier": "every import line, every text", "why_tests_cant": "all texts; false positives need specific text", "anchors": ["internal/generator/strip_imports.go:StripImports"]}
{"id": "C55", "title": "Go reads a generated expression as the expression of the schema", "statement": "The Go text generated for an expression whose value is not known at generation time is a Go expression, and Go's precedence and associativity group its operators as the schema language does.", "quantifier": "every expression tree", "why_tests_cant": "unbounded expression trees, all combinations of operators", "anchors": ["internal/generator/expression.go:ExpressionToGoString", "internal/parser/ZserioParser.g4"]}
{"id": "C56", "title": "Integer literals have the number they write as value", "statement": "An integer literal in binary, octal, decimal or hexadecimal notation is accepted exactly if its number fits a zserio integer type, and its value is that number.", "quantifier": "every literal the lexer accepts", "why_tests_cant": "all digit strings", "anchors": ["internal/ast/expression.go:Evaluate", "internal/parser/ZserioLexer.g4"]}
{"id": "C57", "title": "String literals have the text they stand for as value", "statement": "The value of a string literal is the text between its quotes with every escape sequence replaced by the character it stands for.", "quantifier": "every string literal the lexer accepts", "why_tests_cant": "all strings", "anchors": ["internal/ast/expression.go:Evaluate", "internal/parser/ZserioLexer.g4"]}
{"id": "C58", "title": "Floating point literals and expressions keep their value", "statement": "Every floating point literal the lexer accepts is accepted by evaluation, and an expression of floating point numbers is folded to its value.", "quantifier": "every floating point literal, every expression tree over floating point numbers", "why_tests_cant": "all digit strings and unbounded expression trees", "anchors": ["internal/ast/expression.go:Evaluate", "internal/parser/ZserioLexer.g4"]}
{"id": "C59", "title": "Builtin values are written bit for bit as the zserio format describes", "statement": "Every value in the range of a builtin type (bit fields, integers, variable-length integers, bool, floats, string, bytes, extern) is written as exactly the bits the zserio wire format assigns to it, both as a field and as an array element, and these bits are read back as the value.", "quantifier": "every builtin type, every bit width, every value in range, every bit position", "why_tests_cant": "2^64 values per type and every position; round-trip tests pass when writer and reader deviate together", "anchors": ["ztype/bits_encode.go", "ztype/varint_encode.go", "ztype/varuint_encode.go", "ztype/float_encode.go", "ztype/string_encode.go", "ztype/bytes_encode.go", "ztype/extern_encode.go", "ztype/array_traits.go", "internal/generator/templates/encode.go.tmpl"]}
{"id": "C60", "title": "Packed integer arrays have the layout of the zserio format", "statement": "A packed array of integers is written as length, descriptor, first element and differences in two's complement, as the zserio wire format describes, packed exactly if that is smaller and all differences fit 62 bits.", "quantifier": "every integer type, every list of values in range, every bit position", "why_tests_cant": "all lists; round-trip tests cannot see a wrong layout or a missed packing", "anchors": ["ztype/array_encode.go", "ztype/delta_context.go"]}
{"id": "C61", "title": "Generated objects are written bit for bit as the zserio format describes", "statement": "MarshalZserio of every type of a schema writes exactly the bits that the zserio wire format assigns to the value: fields in order, alignment, presence flags, array lengths, union tags, packed arrays of compound types.", "quantifier": "every schema, every type of it, every value, every bit position", "why_tests_cant": "unbounded schemas and nesting depth; round-trip tests cannot see a common deviation of writer and reader", "anchors": ["internal/generator/templates/struct.go.tmpl", "internal/generator/templates/union.go.tmpl", "internal/generator/templates/choice.go.tmpl", "internal/generator/templates/encode.go.tmpl", "internal/generator/templates/packing_context_encode.go.tmpl"]}
{"id": "C62", "title": "A template with arguments stands for the template with its arguments put in", "statement": "After template instantiation every field, parameter and function result of every declaration has the type the schema gives it: a type without template arguments is itself, and a template with arguments is a generated type with the parts of the template in which every template parameter is replaced by its argument, at every depth; the name of an instantiate declaration stands for the type it names.", "quantifier": "every schema, every order in which the declarations are visited, every nesting depth", "why_tests_cant": "unbounded schemas and nesting, and the order of visits is the random order of Go maps", "anchors": ["internal/model/transform.go:InstantiateTemplates", "internal/model/transform.go:instantiateType", "internal/model/transform.go:instantiateStruct", "internal/model/transform.go:instantiateChoice", "internal/model/transform.go:instantiateField"]}
{"id": "C63", "title": "Template instantiation ends and succeeds", "statement": "For every schema whose template types have the right number of arguments, instantiation returns without an error.", "quantifier": "every schema, every order in which the declarations are visited", "why_tests_cant": "termination over unbounded nesting; a test sees only that one schema returns", "anchors": ["internal/model/transform.go:InstantiateTemplates", "internal/model/transform.go:instantiateStruct"]}
{"id": "C64", "title": "Type arguments reach the field they are written at", "statement": "The type arguments written behind the type of a field, as in Foo<X>(a) x, belong to that field after template instantiation, also in instances of templates and next to other fields of the same type.", "quantifier": "every schema, every field of every declaration and of every instance", "why_tests_cant": "references are shared between fields and instances, the effect depends on all other fields and on the order of visits", "anchors": ["internal/model/transform.go:instantiateField", "internal/model/transform.go:instantiateType"]}
{"id": "C65", "title": "Equal template types of a package are one Go type", "statement": "Two uses of the same template with the same arguments in a package refer to the same generated type, named after the template and its arguments.", "quantifier": "every schema, every package, every template type used in it", "why_tests_cant": "unbounded nesting of template arguments", "anchors": ["internal/model/transform.go:generateInstantiatedName", "internal/model/transform.go:instantiateType"]}
{"id": "C66", "title": "Expressions of a schema become Go expressions that compile", "statement": "Every expression the generator accepts is printed as a Go expression that satisfies the typing rules of Go, whatever the zserio types of its operands; arithmetic on numbers has a Go type with room for every operand.", "quantifier": "every expression tree over fields, parameters, function calls, array elements, enum and bitmask values and constants, with every combination of zserio types", "why_tests_cant": "unbounded expression trees and all pairs of types of operands; tests compile a handful of schemas", "anchors": ["internal/generator/expression.go:twoOperatorEqualTypesToGoString", "internal/generator/expression.go:twoOperatorToGoString", "internal/generator/expression.go:getSymbolType", "internal/ast/expression.go:Evaluate", "internal/ast/mixing_native_types.go:evaluateMixingIntegerTypes"]}
{"id": "C67", "title": "Generated expressions have the value the schema gives them", "statement": "The Go text of an expression evaluates, for every value of the fields it uses, to the value the expression has over the integers.", "quantifier": "every expression tree, every state of the fields", "why_tests_cant": "unbounded expression trees and up to 2^64 values per field; overflow shows only for particular values", "anchors": ["internal/generator/expression.go:twoOperatorEqualTypesToGoString", "internal/generator/expression.go:twoOperatorToGoString", "internal/generator/expression.go:ExpressionToGoString", "internal/generator/templates/functions.go.tmpl"]}
{"id": "C68", "title": "Every schema file below the given directory is read, once", "statement": "Given the directory of a schema, the compiler reads every file with the extension .zs or .zserio below it, at any depth and whatever the file system looks like, each of them once, and reports directories it cannot read; files and directories whose name starts with a dot are left out.", "quantifier": "every tree of directories, files and links, every path given on the command line", "why_tests_cant": "unbounded nesting of directories; tests have a few fixed trees", "anchors": ["internal/model/model.go:FromFilesystem", "internal/model/model.go:filesToParse"]}
{"id": "C69", "title": "What is written in a schema is what the compiler works with", "statement": "Two declarations the compiler accepts are treated alike only if the zserio language gives them the same meaning: no part of a declaration with a meaning (types, widths, expressions, lengths, alignments, conditions, constraints, offsets, array kinds, parameters, arguments, order of fields) is lost or confused with another on the way from the text to the syntax tree, and what is not supported is reported.", "quantifier": "every pair of parse trees of every kind of declaration, with expressions and types of any depth", "why_tests_cant": "unbounded pairs of parse trees; a test compares single schemas with expected trees", "anchors": ["internal/visitor/visitor.go:Visitor", "internal/parser/ZserioParser.g4", "internal/ast/struct.go:Struct", "internal/ast/expression.go:Expression", "internal/ast/type_reference.go:TypeReference"]}
{"id": "C70", "title": "Every declaration of every file can be found by its name", "statement": "After all files are read, a package name and the name of a declaration lead to that declaration, for every declaration of every file; two declarations with the same name in one package are reported.", "quantifier": "every list of files, every list of declarations in them", "why_tests_cant": "files and declarations in any number and order, name clashes only show when two of them meet", "anchors": ["internal/visitor/visitor.go:VisitPackageDeclaration", "internal/model/model.go:parseFile", "internal/ast/package.go:CollectSymbols"]}
{"id": "C71", "title": "Type references of a schema are bound to the declarations they name", "statement": "After a schema is accepted, every type used in it, in any position, is bound to the package whose declaration the name means at that place: the package itself if it declares the name, otherwise the package it imports that declares it; a name that means nothing is reported.", "quantifier": "every list of packages, every declaration, every position of a type reference (fields, parameters, arguments, functions, constants, enums, bitmasks, subtypes, cases)", "why_tests_cant": "unbounded schemas and import relations; a position that is forgotten shows only if a schema uses it", "anchors": ["internal/model/transform.go:ResolveImports", "internal/model/transform.go:ResolveTypes", "internal/model/transform.go:resolveTypeReference", "internal/ast/package.go:GoType"]}
{"id": "C72", "title": "Members of a type have distinct, exported Go names and keep their name in JSON", "statement": "The parameters, fields and functions of a struct, choice or union get Go names that other packages can use and that do not clash with each other or with the generated methods, and a field has the key in JSON that it has in the schema.", "quantifier": "every declaration with any number of parameters, fields and functions of any names", "why_tests_cant": "names in any number and combination; a clash shows only for particular names", "anchors": ["internal/model/transform.go:CapitalizeNames", "internal/generator/templates/struct.go.tmpl", "internal/generator/templates/union.go.tmpl", "internal/generator/templates/choice.go.tmpl", "internal/generator/templates/field_declaration.go.tmpl"]}
{"id": "C73", "title": "A type is referred to by the Go name it is declared with", "statement": "Wherever generated code uses a type of a schema, it uses the name under which the Go code of that type declares it, and the generator finds the declaration of the type of every field.", "quantifier": "every declaration of any kind and name, every reference from the same or another package", "why_tests_cant": "all names and kinds; tests use names of one style", "anchors": ["internal/model/transform.go:CapitalizeNames", "internal/ast/package.go:GoType", "internal/ast/package.go:GetSymbol"]}
{"id": "C74", "title": "No name of a generated Go package is declared twice", "statement": "The types, constants, variables and functions that the code of all declarations of a package declares at package level have distinct names.", "quantifier": "every list of declarations of any kinds and names", "why_tests_cant": "clashes depend on pairs of names in unbounded packages", "anchors": ["internal/generator/templates/enum.go.tmpl", "internal/generator/templates/union.go.tmpl", "internal/generator/templates/bitmask.go.tmpl", "internal/generator/templates/package.go.tmpl", "internal/generator/gen.go:newOutputs"]}
{"id": "C75", "title": "Generated files have legal package names and distinct imports", "statement": "The Go package made of a zserio package has a name that Go accepts, and the packages imported by a generated file have distinct names.", "quantifier": "every package name, every list of imported packages", "why_tests_cant": "all names; a clash of two imports shows only for particular names", "anchors": ["internal/generator/templates/preamble.go.tmpl", "internal/generator/funcs.go:GoPackageName", "internal/ast/package.go:GoPackageAlias"]}
{"id": "C76", "title": "A name in an expression means what is declared nearest", "statement": "In an expression of a declaration, a name means the parameter, field or function of that name inside the declaration; otherwise the declaration of that name in the package; otherwise the one in an imported package; and nothing else. Every expression of a schema is evaluated in that way.", "quantifier": "every list of packages, every declaration, every name, every order in which declarations are evaluated and enums traversed", "why_tests_cant": "depends on all other packages, on names that happen to coincide, and on the random order of map traversal", "anchors": ["internal/ast/package.go:GetSymbol", "internal/ast/package.go:GetType", "internal/ast/package.go:GetCurrentCompoundType", "internal/ast/package.go:GetOtherType", "internal/ast/package.go:CollectSymbols", "internal/ast/struct.go:BuildScope", "internal/ast/union.go:BuildScope", "internal/ast/choice.go:BuildScope", "internal/ast/struct.go:Evaluate", "internal/ast/union.go:Evaluate", "internal/ast/choice.go:Evaluate", "internal/model/model.go:evaluate"]}
{"id": "C77", "title": "What is behind a dot is a member of the type before it", "statement": "A name with names behind dots, as `a.b.c`, means member `c` of the type of member `b` of the type of `a`, through any number of subtypes and whatever packages declare the types; behind the name of an enum or bitmask it means the item or value of that name.", "quantifier": "every list of packages, every expression of that form of any length, every chain of subtypes of up to a hundred", "why_tests_cant": "unbounded nesting, chains and packages", "anchors": ["internal/ast/expression.go:evaluateDotExpression", "internal/ast/expression.go:evaluateCompoundDotExpression", "internal/ast/expression.go:evaluateSymbolType", "internal/ast/package.go:GetOriginalSymbol", "internal/ast/package.go:GetCompoundType", "internal/ast/package.go:GetImportedScope"]}
{"id": "C78", "title": "Labels of choices mean the items of the type of the selector", "statement": "In a choice whose selector is of an enum or bitmask type, a name as label of a case means the item or value of that type, whatever else is called by that name; the name of a constant means the constant.", "quantifier": "every list of packages, every choice, every label, every order of evaluation", "why_tests_cant": "depends on all other enums of all packages", "anchors": ["internal/ast/choice.go:fullySpecifyChoiceConditions", "internal/ast/choice.go:Evaluate", "internal/ast/expression.go:evaluateDotExpression", "internal/ast/expression.go:Evaluate"]}
{"id": "C79", "title": "The type written in the schema decides how values are encoded", "statement": "A field whose type is written as a builtin type, with or without a bit width, gets a Go type that holds its values. The generated code for it compiles. It writes each value as the format says for that type, reads the same value back, reports the number of bits written, and arrays of the type and packed structs use the traits of the same type.", "quantifier": "every builtin type as it can be written, every bit width from 1 to 64 as a number or from an expression, with and without a subtype in between, every value in range", "why_tests_cant": "unit tests use a few of the types; the choice is made by text templates whose result would have to be compiled and run for every type", "anchors": ["internal/generator/templates/encode.go.tmpl", "internal/generator/templates/decode.go.tmpl", "internal/generator/templates/builtin_bitsizeof.go.tmpl", "internal/generator/templates/instantiate_array_traits.go.tmpl", "internal/generator/templates/array_traits_type.go.tmpl", "internal/generator/templates/array_init.go.tmpl", "internal/ast/scope.go:GoType", "internal/ast/scope.go:GoArrayTraits", "internal/ast/scope.go:IsDeltaPackable"]}
{"id": "C80", "title": "Enums and bitmasks are encoded as the type they are declared over", "statement": "The code generated for an enum or a bitmask over an integer type compiles, writes values as the format says for that type, reads them back, and reports the number of bits written, also when the type is given by a subtype.", "quantifier": "every integer type as it can be written, every bit width from 1 to 64, directly or through a subtype, every value in range", "why_tests_cant": "unit tests use bit:3 and int32; the choice is made by text templates", "anchors": ["internal/generator/templates/enum.go.tmpl", "internal/generator/templates/bitmask.go.tmpl", "internal/generator/templates/builtin_bitsizeof.go.tmpl", "internal/generator/templates/instantiate_array_traits.go.tmpl"]}
{"id": "C81", "title": "Expressions are grouped by the strength of their operators", "statement": "The tokens of an expression are read as the one tree in which every operator has operands that bind at least as strongly: operators of the same strength are grouped from left to right, the ternary operator from right to left. Every sequence of tokens that some expression is written with is accepted, and nothing is read but what is written.", "quantifier": "every expression of the language, of any depth, before every token that cannot go on with an expression", "why_tests_cant": "the number of ways to combine operators is unbounded", "anchors": ["internal/parser/ZserioParser.g4:expression", "internal/parser/zserio_parser.go:expression"]}
{"id": "C82", "title": "Schema text is split into the words that are written in it", "statement": "A text that is made of operators, keywords, names, literals, white space and comments is split into exactly these tokens: the longest possible word is taken, names may begin with keywords, and white space and comments separate words and mean nothing. If a text is split without anything invalid then it consists of the tokens, white space and comments.", "quantifier": "every sequence of tokens, white space and comments in which neighbours do not look like one longer token; every text", "why_tests_cant": "texts are unbounded and the rules of the lexer overlap", "anchors": ["internal/parser/ZserioLexer.g4", "internal/parser/zserio_lexer.go"]}
{"id": "C83", "title": "Default values of a schema are loaded into every object", "statement": "LoadDefaultValues never fails. Afterwards every field of the object and of the objects inside it that has an initializer has the value of the initializer, all other values, the tags of unions and the parameters are as before. Calling it again changes nothing.", "quantifier": "every schema of structs, unions and choices of any depth, every object", "why_tests_cant": "schemas and objects are unbounded; the method is generated from a template", "anchors": ["internal/generator/templates/default_values.go.tmpl", "internal/generator/templates/struct.go.tmpl:LoadDefaultValues", "internal/generator/templates/union.go.tmpl:LoadDefaultValues", "internal/generator/templates/choice.go.tmpl:LoadDefaultValues", "internal/generator/templates/enum.go.tmpl:LoadDefaultValues"]}
{"id": "C84", "title": "Enum items stored in a database are read back", "statement": "With SQL support, an item of an enum that is stored in a database column is read back as the same item, from text and from bytes. A value that is no item is stored as a text that is never read back as an item. Reading never changes the receiver unless the column has the name of an item.", "quantifier": "every enum, every value of its Go type, everything a driver can deliver", "why_tests_cant": "all enums and values; needs a database driver", "anchors": ["internal/generator/templates/enum.go.tmpl:Value", "internal/generator/templates/enum.go.tmpl:Scan"]}
{"id": "C85", "title": "Packages are read as they are written", "statement": "The tokens of a package (constants, subtypes, structures with alignments, offsets, conditions and constraints, choices, unions, enums, bitmasks, template instances, imports) are read as exactly the declarations that are written: no two packages share their tokens, whatever is read accounts for every token in order, and the same holds of texts with any white space and comments.", "quantifier": "every package of declarations of any number and size, every sequence of tokens, every text", "why_tests_cant": "packages are unbounded; the grammar needs unbounded lookahead and is ambiguous", "anchors": ["internal/parser/ZserioParser.g4:packageDeclaration", "internal/parser/ZserioParser.g4:structureFieldDefinition", "internal/parser/ZserioParser.g4:typeInstantiation", "internal/parser/zserio_parser.go"]}
{"id": "C86", "title": "Offset callbacks of arrays are told where elements begin", "statement": "If an array has a function for checking offsets, then writing calls it once for each element, in order, with the index and the position of the first bit of the element, which is on a byte, with zeros before it; reading the written bits gives the elements and makes the same calls.", "quantifier": "every element type with correct traits, packed or not, of automatic or fixed length, every list of elements and everything written before", "why_tests_cant": "arrays and the bits in front of them are unbounded", "anchors": ["ztype/array_encode.go:MarshalZserio", "ztype/array_decode.go:UnmarshalZserio", "ztype/array_decode.go:WithCheckOffsetMethod"]}
{"id": "C87", "title": "Comments of a schema are comments of the generated code", "statement": "The comment of a declaration in the generated code is all the comments in front of the declaration in the schema, behind the word before it, in order and each on a line of its own; whatever the comments are, Go takes them for comments and nothing else.", "quantifier": "every text of a schema, every place in it", "why_tests_cant": "texts are unbounded; comments may contain quotes, slashes, stars and code", "anchors": ["internal/visitor/visitor.go:getComment", "internal/parser/ZserioLexer.g4:DOC_COMMENT", "internal/generator/templates/struct.go.tmpl"]}
{"id": "C88", "title": "Items written with other items have the values of the schema", "statement": "Every enum item and bitmask value has in the generated code the value that the schema says: that of its expression, in which other enum items, bitmask values and constants stand for their values, or the one after the item before it; independent of the order in which declarations are evaluated.", "quantifier": "all enums and bitmasks of a package, all expressions and references between them, every order of evaluation", "why_tests_cant": "schemas are unbounded, and the order of evaluation is that of Go maps, which differs from run to run", "anchors": ["internal/ast/enum.go:Evaluate", "internal/ast/bitmask.go:Evaluate", "internal/ast/expression.go:evaluateDotExpression", "internal/model/transform.go:EvaluateEnums"]}
{"id": "C89", "title": "Subtypes are used in expressions like the types they stand for", "statement": "An expression with fields, parameters, functions or array elements of a subtype is accepted, and has a result of the same kind and type, exactly when this holds with the types in place of the subtypes.", "quantifier": "all expressions, all subtypes", "why_tests_cant": "expressions are unbounded", "anchors": ["internal/ast/expression.go:evaluateExpressionType", "internal/ast/expression.go:evaluateSymbolType"]}
{"id": "C90", "title": "From the text of a schema to the bits of the format", "statement": "For every text of a schema, whatever its white space and comments, the methods generated from it write each value that they accept as the bits that the zserio format gives for the declarations of the schema, and read the value back from them: types, order of fields, alignment, optional clauses, array lengths, bit widths, type arguments, selectors and labels are those of the text. SQL tables and databases, services, pubsubs, rule groups and the compatibility version change nothing of it.", "quantifier": "all texts of schemas of one file, all expressions in them, all values of the generated types, all positions in the stream", "why_tests_cant": "schemas, expressions and values are unbounded; the claim goes through reading, resolution, selection of functions, templates and the runtime at once", "anchors": ["internal/model/model.go:FromFilesystem", "internal/ast/package.go:GetOriginalType", "internal/generator/templates", "internal/visitor"]}
{"id": "C91", "title": "Decoding arbitrary input does not panic", "statement": "Whatever bits are given to the generated decoding method of a type, from any position on and into a new or a used object, it returns an object of the type or an error; it never panics.", "quantifier": "all schemas, all inputs, all positions, all objects decoded into", "why_tests_cant": "inputs and schemas are unbounded; a fuzzer only samples them", "anchors": ["internal/generator/templates/decode.go.tmpl", "internal/generator/templates/struct.go.tmpl", "internal/generator/templates/choice.go.tmpl", "internal/generator/templates/union.go.tmpl", "ztype/array_decode.go", "ztype/object_array_decode.go", "ztype/delta_context.go"]}
{"id": "C92", "title": "Encoding ends, with calls nested no deeper than the value", "statement": "Writing a value and measuring it ends for every value, also for types that contain themselves: the nested calls go no deeper than the value is nested, plus the depth of the packing contexts of its packed arrays. So the result does not depend on the size of the stack once that depth fits.", "quantifier": "all schemas, all values, all sizes of the stack", "why_tests_cant": "values of types that contain themselves are nested without bound; a test tries a few depths", "anchors": ["internal/generator/templates/encode.go.tmpl", "internal/generator/templates/bitsizeof.go.tmpl", "internal/generator/templates/struct.go.tmpl", "internal/generator/templates/packing_context_create.go.tmpl", "ztype/object_array_encode.go"]}
{"id": "C93", "title": "Functions of a schema return what their expression denotes", "statement": "For every text of a schema, each function that it declares becomes a method of the generated type, named as the function with a capital first letter, that returns for every object the number or truth value that the expression of the function denotes for the fields and parameters of that object, as a value of the declared return type.", "quantifier": "all texts of schemas of one file, all functions and expressions in them, all objects", "why_tests_cant": "functions, expressions and objects are unbounded; the claim goes through reading, resolution, naming and typing of Go at once", "anchors": ["internal/generator/templates/functions.go.tmpl", "internal/generator/templates/struct.go.tmpl", "internal/generator/templates/union.go.tmpl", "internal/generator/templates/choice.go.tmpl", "internal/ast/struct.go:Evaluate", "internal/ast/union.go:Evaluate", "internal/ast/choice.go:Evaluate", "internal/model/transform.go:CapitalizeNames"]}
{"id": "C94", "title": "A run of the generator writes the files of the schema or reports an error, and leaves no broken files", "statement": "A run that ends without an error has written, for every output of every package, a file with the complete final text of that output, each to a path of its own, and has left all other files as they were; a run that ends with an error, whatever the system refuses to do, leaves at every path what was there before, nothing, or the complete text of an output; without faults and with well-formed outputs a run ends without an error; with the standard output as destination no file changes and exactly the chosen package is printed.", "quantifier": "all packages and outputs, all contents of the disk before, all faults of the system at any file (directories, opening, writing after any number of characters), all formatters", "why_tests_cant": "faults at every point and all numbers of files cannot be enumerated, and the file system of a test rarely refuses anything", "anchors": ["internal/generator/gen.go:Generate", "internal/generator/gen.go:writeToFile", "internal/generator/gen.go:writeGoSource", "internal/generator/gen.go:generatePackage", "internal/cli/generate.go"]}
{"id": "C95", "title": "Traits for bit fields may be obtained by several goroutines at once", "statement": "When several goroutines obtain array traits for bit fields, in whatever order their steps happen, each call ends, and it returns traits for the asked type and number of bits.", "quantifier": "all numbers of calls, all types and widths, all interleavings of their steps", "why_tests_cant": "a test sees a few schedules, and the window between two machine words is a nanosecond wide", "anchors": ["ztype/array_traits.go:GetBitFieldArrayTraits", "ztype/array_traits.go:GetSignedBitFieldArrayTraits"]}
{"id": "C96", "title": "The tables of a generated enum compile, and stay what they are", "statement": "For every enum the generator accepts, Go accepts the constants and maps generated for it; XStrings and XValues list the names and values of the items in the order of the declaration, and String and XString translate between them, whatever users of the package do with the slices they got before.", "quantifier": "every enum declaration, every Go type of it, every sequence of calls and of writes to slices that were returned", "why_tests_cant": "every sequence of operations on shared slices; every combination of written and unwritten values", "anchors": ["internal/generator/templates/enum.go.tmpl", "internal/ast/enum.go:Evaluate"]}
{"id": "C97", "title": "Functions that call functions are resolved once, in their own struct, and circles are reported", "statement": "When the functions of a schema call one another, in their own struct or through a member, resolving the schema ends; it is accepted exactly if every name and call in it has a meaning, where names in the body of a function are members of the struct that declares the function; the outcome and the type and value of every call do not depend on the order in which structs are taken; functions that call one another in a circle are reported.", "quantifier": "all sets of structs with members, functions and expressions, all orders in which the structs are taken", "why_tests_cant": "every call graph and every traversal order of a Go map", "anchors": ["internal/ast/expression.go:evaluateFunctionCallExpression", "internal/ast/expression.go:evaluateDotExpression", "internal/ast/struct.go:Evaluate", "internal/model/transform.go:EvaluateStructs"]}
{"id": "C98", "title": "The memory that decoding asks for is bounded by the input", "statement": "Reading strings, byte buffers, bit buffers and arrays asks for an amount of memory that is at most a constant multiple of the number of bits that are read; the multiple depends on the type only.", "quantifier": "all inputs, well formed or not, all lengths, all element types and nestings of arrays", "why_tests_cant": "a test has a few inputs, and inputs that exhaust the memory end the test", "anchors": ["ztype/string_decode.go:ReadString", "ztype/bytes_decode.go:ReadBytes", "ztype/extern_decode.go:ReadExtern", "ztype/array_decode.go:UnmarshalZserio", "ztype/object_array_decode.go:UnmarshalZserio"]}
{"id": "C99", "title": "Parameters of members need not be set before encoding", "statement": "The parameters of a parameterised type are fields of the Go struct. Objects that differ only in the parameters of their members, at any depth, are encoded to the same bits with the same result and size, packed or not, and decoding gives the object with the parameters that the type arguments of the schema give.", "quantifier": "all schemas, all values, all values left in parameters of members at any depth, inside optional members and arrays", "why_tests_cant": "a test has one schema and a few values left in parameters; forgetting them in one of five methods shows for few combinations of types", "anchors": ["internal/generator/templates/encode_compound_parameters.go.tmpl", "internal/generator/templates/encode.go.tmpl", "internal/generator/templates/bitsizeof.go.tmpl", "internal/generator/templates/packing_context_encode.go.tmpl", "internal/ast/field.go"]}
{"id": "C100", "title": "Constraints in the schema are checked", "statement": "For a field `uint8 a : a < 9;` MarshalZserio and UnmarshalZserio report an error if the value violates the constraint; a value that meets all constraints is treated as if they were not there. A schema whose constraint uses a name that does not exist is rejected by the generator.", "quantifier": "all schemas with constraints on fields of structures, all values, all bits", "why_tests_cant": "a test has a few constraints and values; that a constraint is dropped on the way from the schema to the generated code shows only for values that violate it", "anchors": ["internal/ast/field.go", "internal/visitor/visitor.go", "internal/generator/templates/encode.go.tmpl", "internal/generator/templates/decode.go.tmpl", "internal/generator/templates/struct.go.tmpl"]}
{"id": "C101", "title": "Offsets are checked and extended fields may be missing", "statement": "A field with an offset (`n: uint8 a;`) begins at the byte that the offset names; MarshalZserio and UnmarshalZserio report an error if it does not. A field marked `extend` may be missing at the end of the input: bits written with a schema without the field are read with a schema that has it.", "quantifier": "all schemas with offsets and extended fields, all values, all inputs", "why_tests_cant": "the unit tests have no schema with offsets or extended fields; dropping a keyword on the way from the grammar to the generated code gives no error anywhere", "anchors": ["internal/parser/ZserioParser.g4", "internal/visitor/visitor.go", "internal/ast/field.go", "internal/generator/templates/encode.go.tmpl", "internal/generator/templates/decode.go.tmpl"]}
{"id": "C102", "title": "What was decoded can be encoded again", "statement": "If UnmarshalZserio accepts an input, MarshalZserio of the object succeeds, and UnmarshalZserio of what it wrote makes the same object. So a program that reads, keeps and writes objects neither fails on input that it has accepted nor changes it. The input need not have been written by MarshalZserio: numbers may use more bytes than needed, padding may have any value, a float16 may be a signalling NaN.", "quantifier": "all schemas, all objects decoded into, all inputs that are accepted, all bytes after what was written", "why_tests_cant": "tests decode what the encoder wrote; the inputs that no encoder writes are not enumerable, and the values they decode to need not be in the range that the encoder writes", "anchors": ["internal/generator/templates/decode.go.tmpl", "internal/generator/templates/encode.go.tmpl", "ztype/packed_array_traits.go", "ztype/array_encode.go", "ztype/varint_decode.go", "ztype/varuint_decode.go", "ztype/extern_decode.go", "ztype/float_decode.go"]}
