# Formal model of go-zserio in Lean 4

## Trusted base

* The Lean 4.33.0 kernel.
* Axioms: only `propext`, `Classical.choice`, `Quot.sound` (the standard ones). No axioms of our own, no
  `sorry`, no `native_decide`, no `bv_decide`.  `Verif/Audit.lean` prints the axioms of every claimed theorem
  during the build.
* The reading of `/repo` that produced the definitions.  Nothing is extracted automatically: each definition
  cites the file and lines it was transcribed from, and says where it simplifies.
* The behaviour of dependencies that are not in the sandbox:
  `github.com/icza/bitio` (modelled, `Verif/Bitio.lean`, from its published semantics),
  `github.com/x448/float16` (modelled in `Verif/Codec.lean` on bit patterns, from its published source), Go's `bufio/bytes/io`
  (sources and sinks are lists of bytes; a sink may refuse any subset of the calls made to it).
* `github.com/iancoleman/strcase` (`ToSnake`, `ToCamel`), also not in the sandbox, transcribed from its published source in
  `Verif/Files.lean`; Go's `sort.Slice` is any sorting algorithm, or insertion sort for few elements.
* Go semantics: `uint64`/`int64` and narrower types are `BitVec n` with wrap-around; `int` used for lengths and
  positions is a mathematical integer (documented at each use); a Go panic is the error value `Err.panic`, which the
  "drop the error" constructs of the code do not absorb.

## Model layers

1. `Verif/Bits` – bit lists, MSB first, to and from naturals.
2. `Verif/Stream` – programs over the `Writer`/`Reader` interfaces as free monads (`WM`, `RM`), so that one and the
   same program text can be run on two machines: an abstract machine (a flat list of bits) and the byte-and-cache
   machine of bitio.  `Verif/Bitio` has the second machine and the simulation theorem for *all* programs.
3. `Verif/Fixed`, `Verif/Varint`, `Verif/Codec` – ztype functions one by one.
4. `Verif/Delta`, `Verif/Traits`, `Verif/Array`, `Verif/Object` – delta context, arrays, arrays of objects; `Verif/Callbacks` – the
   calls that arrays make to functions for checking offsets.
5. `Verif/Schema*` – the code the templates generate, as an interpreter over schemas (`methods schema n name` are the methods
   of the type `name` with at most `n` nested calls).  Theorems hold at every `n`; a Go execution corresponds to any `n` above
   its nesting depth.  That results do not depend on `n` once it is large enough is proved for types
   that do not contain themselves and for encoding all types (C92).  Expressions in a schema
   (conditions, lengths, widths, arguments) are arbitrary total functions of the parameters and earlier fields; panicking
   expressions are not modelled.  Nil and empty slices are identified.  `GetBitFieldArrayTraits` is assumed to succeed (C42).
   When encoding sets the parameters of nested objects, the theorems ask that they already had these values; C99 shows for which schemas
   other values make no difference.  That the Go methods change the parameters in place is not expressed: expressions that look at
   parameters of members are outside C99.
6. `Verif/AstEnum` (enum and bitmask values, Go types of bit fields), `Verif/AstMix` (types of expressions), `Verif/Imports`
   (imports, package lookup, type resolution), `Verif/Original` (symbols, subtypes), `Verif/Files` (file paths, Go names,
   template instances), `Verif/Outputs` (order of outputs), `Verif/Strip` (import stripping), `Verif/Literals` (literals), `Verif/Fold` (expressions, constants), `Verif/ItemValues` (enum items and bitmask values that refer to one another), `Verif/Functions` (functions of a schema), `Verif/Run` (files written by a run), `Verif/Concurrent` (traits obtained by several goroutines), `Verif/EnumTables` (constants, maps and slices of enums), `Verif/Calls` (functions that call functions), `Verif/Generate` (from the text of a schema to its methods: the steps one after another), `Verif/GoText` (text of expressions), `Verif/GoTypes` (their types and casts) – pure parts of the compiler.
   Strings are lists of characters there, one per byte (ASCII).
7. `Verif/Wire` – the zserio wire format as a function from values to bits, written from the description of the format and
   used only as a specification.  `WireNum`, `WirePack`, `WireObj`, `WireDecl` prove that the model writes it, layer by layer;
   `WireTotal` and `WireDefined` say for which values it is defined and compare decisions about packing.
   Two things in `Verif/Wire` follow the code because the description does not settle them: the varint without a magnitude
   of 63 bits is the negative zero, and the presence flag of an aligned field comes after the padding in an object and
   before it in a packed array (both cannot be right, see C61).
8. `Verif/Template` – template instantiation over a heap of type references (Go pointers that several fields can share), in
   whatever order the Go maps are iterated, with the specification `StandsFor`.  `TemplateLaws` and `TemplateRun` have the
   invariant of a run, `TemplateUse` the conditions on a schema (`TemplatesOk`), the model of a schema text (`parseSchema`)
   and a decision procedure for `StandsFor`.  Type references are those after `ResolveTypes`, so only template parameters
   have no package.
9. `Verif/Discover` (which files are read), `Verif/FrontEnd` (from parse trees to syntax trees and packages).  A parse tree has
   a constructor for each alternative of the grammar; texts of tokens are lists of characters that the lexer would accept.  How
   a text becomes a parse tree is part of item 13, comments as well.
10. `Verif/Resolve` (`ResolveImports`, `ResolveTypes`), `Verif/GoNames` (`CapitalizeNames` and the names the templates declare).
    References inside expressions are not resolved by the code and not part of it; the model starts from the packages of item 9.
11. `Verif/Scope` (symbol lookup, the scope in which each declaration is evaluated, dot expressions, labels of choices).  Values and the
    types of other expressions are those of `Verif/Fold` and `Verif/GoTypes`; that searches through imports run out of fuel is not told apart from not finding
    anything; errors, which end the evaluation, are `none`.  Map traversal is any permutation.
12. `Verif/Select` (which functions of package ztype the templates call for a type reference, and what these calls do).  A call that does not
    type check in Go is `none`; only the Go types of arguments and results are compared, the rest of the generated text is taken to compile.
13. `Verif/Lexer` (from texts to tokens) and `Verif/Parser` (from tokens to the parse trees of expressions).  The generated lexer is taken to do
    what ANTLR documents: the longest match, the first rule among those that match it; the tables of the generated automaton are not compared with the grammar.
    The loop of `expression` with its precedences follows the generated Go code.  `Verif/DeclParser` has a function for each rule of
    the grammar for packages and declarations; where ANTLR looks ahead without bound (offsets, ends of lengths, template arguments), the decision is modelled
    as trying the alternatives in order.  `Verif/Comments` has the token
    stream with the hidden channels and how comments get to declarations.
14. `Verif/Defaults` (`LoadDefaultValues` over Go values, `Value` and `Scan` of enums).
15. `Verif/Memory` (sizes that decoding asks for).
16. `Verif/Props/*` – the property theorems, each next to an `example` meeting its hypotheses.

## Properties: what is modelled and how it is proved

| id | model | proof plan |
|---|---|---|
| C01 | `writeUnsignedBits`/`readUnsignedBits` on the abstract machine | case split on range; bit-list/number inverse lemma |
| C02 | signed variants with `BitVec 64` arithmetic | two's complement lemma on `BitVec`/`Int` |
| C03 | fixed-width functions | instance of the C01 lemma |
| C04 | `writeVarUint`, `UnsignedBitSize`, five readers | induction on the number of remaining bytes |
| C05 | signed variants; `MinInt64` for varint64 is a violation: negation proved, `_partial` for all other values | same |
| C06 | size functions against the bits written | size characterisation lemma |
| C07 | any accepted byte string for a value is at least as long | value bound by number of bytes read |
| C08 | readers on arbitrary bit lists | structural analysis of the reader |
| C09 | `Align` of reader and writer, `CountAlignBits` | arithmetic mod boundary |
| C10 | `Marshal` on the byte machine | simulation theorem |
| C11 | bitio machine refines abstract machine; `ReadBits(0)` on a byte boundary returns the stale cache: witness, `_partial` for the reader | simulation by induction over programs |
| C12 | all error-propagating ("strict") decoder programs; generated objects of schemas without packed arrays; false for packed arrays: witness | induction over programs, then over the recursion level |
| C13 | same; `DeltaContext.Read` ignores an error: negation by witness | induction over programs, then over the recursion level |
| C14 | byte machine over a sink that refuses arbitrary calls; generated objects of schemas without arrays; arrays drop errors: witness | induction over programs, then over the recursion level |
| C15 | string/bytes/extern functions | bit-list lemmas |
| C16 | float functions on bit patterns, with the half/single conversion | bit-list lemmas, field decomposition |
| C17 | `NumBits` | `Nat.log2`/size lemmas |
| C18 | `DeltaContext` Init/Write/Read state machines | invariant over the element list |
| C19 | `finishInit`, `BitSizeOf` | same |
| C20 | `Array` Marshal/Unmarshal generic over traits with a law, instances for all traits | induction on the list |
| C21 | packed path; float/string/bytes/extern elements violate: witness | C18 + list induction |
| C22 | `ZserioBitSize`; violated (length prefix, alignment): witnesses + partial | arithmetic |
| C23 | violated (errors dropped, bits masked): witnesses + partial (arrays whose elements are all writable) | |
| C24 | `ObjectArray` generic over element methods (`Meth`) | induction on the list |
| C25 | schema interpreter, flat bits and (without packed arrays) the bytes of `Marshal`; violated for varint64 -2^63 and packed arrays of non-integers: witnesses + partial | laws per field, induction over the recursion level; inversion of success gives acceptance |
| C26 | interpreter size function; violated (bytes, arrays, packed, length field): witnesses + partial | same induction, sizes relative to the position |
| C27 | union part of the interpreter; unknown tag accepted by every union: proved negation |  |
| C28 | choice part; multi-label/empty case violated: witnesses + partial against an independent selection spec |  |
| C29 | packed interpreter (context tree); unions and recursive types violate: witnesses + partial | per-field context invariants, induction over the recursion level |
| C30 | `Enum.Evaluate`, names table | list induction |
| C31 | `Bitmask.Evaluate`; overlap/overflow: witness + partial | |
| C32 | type mixing table and functions; exact type not symmetric, properties of result are | case analysis |
| C33 | `Verif/Fold`: evaluation of expression trees; numbits, comparison of truth values, eager operands, uint64: witnesses + partial against a meaning of the operators over `Int` | tree induction |
| C34 | evaluation with status over a graph of constants; alias cycles and imported constants: witnesses + partial | invariant over the evaluation, measure |
| C35 | worklist algorithm | invariant + measure |
| C36 | recursive lookup with fuel; diverges on a cycle: witness; terminates on acyclic graphs | |
| C37 | path assembly over call histories; collision: witness + partial | |
| C38 | name concatenation; not injective: witness + partial | |
| C39 | chain following with the 100-iteration guard | induction on chain |
| C40 | sorting by (template, name) | permutation-invariance of sorting by a total order |
| C41 | text model of StripImports | list induction |
| C42 | table with history; width 64 and type clash panic: witness + partial | |
| C43 | arrays as references into a heap; violated: witness | |
| C44 | sequences of codecs | induction on sequence |
| C45 | `goBits` | case analysis |
| C46 | `alignTo` | arithmetic |
| C47 | decode with prior state; stale conditional fields and union members: witnesses + partial | equality of decoder programs |
| C48 | `resolveTypeReference` | case analysis, induction over nested template arguments |
| C49 | resolution followed by lookup; single-type imports and qualified names fail: witnesses + partial | |
| C50 | path assembly; limit 0 fails: witness + partial | cutting lemmas on lists |
| C51 | snake case and file suffix against the rules of `go build` for file names; exact condition, witnesses | case analysis of the parts between underscores |
| C52 | camel case; underscores and several enums collide: witnesses + partial | case folding is inverse |
| C53 | capitalising; witness + partial | |
| C54 | text model of StripImports; parts of words count as uses: witness + partial | |
| C55 | `Verif/GoText`: tokens of the text; Go grammar as an inductive relation with precedence levels; several witnesses + exact condition | deterministic parser relation, counting of parentheses |
| C56 | `strconv.ParseInt` on the text of a token; numbers of 64 bits and `B`: negation proved + partial | induction on digits |
| C57 | string literals; escapes: negation proved + partial | |
| C58 | syntax of `ParseFloat`, folding over an arbitrary type of floats; suffix, parentheses and signs: negations proved + partial | |
| C59 | `Wire.scalar`, all builtin types | induction on the bytes of variable-length integers; halves by kernel evaluation of the 2046 subnormals |
| C60 | `Wire.layAll` for one sequence; crossing zero: negation proved + partial | invariant of the delta context after each element |
| C61 | `Wire.format` against `methods schema n name`; union tags, flag order: witnesses + partial | induction on nesting; simulation between the tree of contexts and the sequences of a packed array |
| C62 | `instantiateTemplates` against `StandsFor`/`Faithful`; eight kinds of schemas go wrong: witnesses + partial (`TemplatesOk`) | invariant over the run: references keep their meaning, every instance is remembered with the type it was made for; nested induction on fuel and lists |
| C63 | the same run returns; recursive templates never do (proved for every fuel): partial without recursion (`Layered`) | measure that drops from a type to its arguments and to the fields of its template |
| C64 | type arguments of the shared references; witness + partial (`BareParams`) | same invariant, strict form |
| C65 | names of instances; nested template types get two names: witness + partial | same invariant |
| C66 | `TEx.res`, `TEx.toPEx` against the typing rules of Go (`goCheck`); no casts in comparisons and bitwise operators: witnesses, exact condition for fields + partial (`TEx.Sound`) | induction on the expression: kind, zserio type and Go type fit together |
| C67 | evaluation of the Go text with wrap-around (`goEval`) against integers of any size (`TEx.val`); overflow and `isset` with several bits: witnesses + partial (`InRange`, `Small`) | induction on the expression, casts to the type of the result |
| C68 | `filesToParse` over a tree of directories; roots `.` and `..`, links, several roots: witnesses + partial | induction on the tree |
| C69 | `visitDirective` on parse trees against "same meaning" relations; seven kinds of losses: proved + partial | injectivity of the visitor by an inverse for expressions, by induction for types and lists |
| C70 | `visitPackage`, `loadPackages` as maps filled in order; duplicates: witnesses + partial | induction on the list of declarations and files |
| C71 | `resolveModel` against "the name means" (`NameMeans`, `Visible`); four kinds of positions and single imports are forgotten: witnesses + partial | induction on declarations, slot by slot; exact condition of acceptance |
| C72 | `goFields`, `goMembers`; witnesses, exact condition for members | title case is injective on names with the same case |
| C73 | `goName`, `goUserType`, `capField`, `typeScope`; witnesses, exact condition | case analysis of the kinds |
| C74 | `goTopNames`; witnesses, exact condition per declaration, partial for packages | prefixes of names |
| C75 | `importNames`, `goPackageName`; witnesses + partial | injectivity of the alias without underscores |
| C76 | `getSymbolIn` in the visits of `evaluateModel` against `Refers`, `ADecl.evaluated` against `Written`; witnesses + partial | invariant of the current scopes over the visits, unique names |
| C77 | `evalSymbol` against `Means`; witnesses + partial | induction on the path, chains of subtypes by induction on `TypeStands` |
| C78 | `labelSymbol`; witnesses + partial | as C77, both operands of the dot that is made are evaluated |
| C79 | `writeCall`, `readCall`, `sizeCall`, `arrayTraitsOf` of `visitTypeInst t` against `TypeDenotes` and `Wire.scalar`; witnesses + partial | cases on the type, widths symbolic |
| C80 | `enumWrite`, `enumRead`, `enumSize`, `bitmaskWrite`, … against `Wire.scalar`; witnesses + partial | the calls are those of fields, C79 |
| C81 | `parseExpression` against `CExpr.tokens`, `CExpr.Grouped` | induction on the tree with what may follow; soundness by induction on the fuel; regrouping of arbitrary trees |
| C82 | `lex` against `PiecesFit`, `LiteralText`; witness + partial | each matcher is its specification; nothing longer matches; induction on the pieces |
| C83 | `loadDefaults` against `FieldAt`; witness + partial | induction on the path |
| C84 | `EnumTable.scan`, `EnumTable.sqlValue` | C30, names have no parentheses |
| C85 | `parsePackage` against `PackageWritten`, `CDirective.Readable`; witness + partial | reading and inversion for each rule; brackets and neighbours in expressions for the offsets |
| C86 | `Arr.marshalCalls`, `Arr.unmarshalCalls` against `Laid` | induction on the elements, the lemmas of C20 and C21 |
| C87 | `getComment` on `tokenStream` against `lastGap`, `goSkip`; witness + partial | C82, induction on pieces and on comments |
| C88 | `evaluateItems` against `VMeans`; witnesses + partial | invariant on the states of all expressions, induction on the depth of the recursion |
| C89 | `TEx.res` of an expression and of it with the subtypes replaced; witnesses + partial | induction on the expression |
| C90 | `compileText` against `SchemaMeans` and `Wire.format`, also for the bytes of `Marshal`; partial | composition of C85, C61, C25, C10 and agreement of each step with what is written (`Resolved`); induction on expressions |
| C91 | methods of a schema, all inputs, also from the text of the schema; witnesses for lengths, widths and recursion | `Unpanicked` is kept by the program, induction on depth; shapes of objects and contexts |
| C92 | `methods` at any two depths and bottoms; witness for packed arrays of recursive types | induction on the nesting of the value; `TypeDepth`, `ContextDepth` |
| C93 | `compileFunctions` against `FunctionMeans`; witnesses for range, choices, unions | as C90; the conversion to the return type by its low bits |
| C94 | `generate` against `Final`; witnesses + partial | induction on the outputs with the counts of paths; C37 for distinct paths |
| C95 | `Calling.Runs` on all interleavings; witnesses + partial | invariant `Orderly` of table and calls; steps ahead decrease |
| C96 | `enumTable` against numbers of the type and distinctness, `EnumVars.run` over any operations; witnesses + partial | induction on items and on operations |
| C97 | `evaluateStructs` against `FMeans`, any order; witnesses + partial | invariant on the results of all functions; complete functions do not change, functions left decrease; `FMeans.acc` for circles |
| C98 | `MRd`: read functions with the arguments of `make`, `erase` gives the functions of the other properties; witnesses + partial | `Frugal` is kept by sequences and loops; reading never gives bits back |
| C99 | `methods schema` on values that are `Val.Like`; witness for missing type arguments; partial | induction on depth, field by field; `InstMeans` for schemas in the domain of C90 |
| C100 | `compileText` of the schema against that of `CPackage.free`; `MeetsConstraints`; witness for a violated constraint; partial | transfer of `SchemaMeans` rule by rule; evaluation of one name |
| C101 | `compileText` of the schema against that of `CPackage.bare`; witnesses for a wrong offset and for older data; partial | the visitor gives the same syntax tree |
| C102 | `methods schema`: every result of `unmarshal` is one that `Accepts` (C25) has; witness for packed arrays; partial | `Yields`: what a reader program returns, induction on depth, field by field; the ranges of C08 |

Not expressed: recovery from syntax errors, the tables of the generated automata, Go formatting of generated files, SQL driver glue,
memory consumption other than the sizes asked for while decoding (C98), time consumption, data races other than those on the tables of bit field traits (C95).
