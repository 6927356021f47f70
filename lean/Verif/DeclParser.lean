import Verif.Parser

/-!
# From tokens to the parse tree of a package

Source: /repo/internal/parser/ZserioParser.g4:13-482, from which ANTLR generates /repo/internal/parser/zserio_parser.go; one function per
rule of the grammar.  Most decisions look at the next token only.  The others are made by ANTLR's `AdaptivePredict`, which
follows all alternatives until one is left, and takes the first of those that remain:

* Does a field begin with an offset?  Both alternatives are followed up to the semicolon (`structureField`).
* Does `>` end the length of `bit<…>`, or is it an operator?  (`lengthArgument`)
* Does `<` behind a name begin template arguments or a length?  Template arguments are taken if there are some up to a `>`
  (`typeReference`); ANTLR also looks at what is behind that.
-/

namespace Verif

/-! ## Parts -/

/-- `p.Match(type)` for a keyword, e.g. /repo/internal/parser/ZserioParser.g4:60 -/
def expectKeyword (k : Keyword) : List Token → Option (List Token)
  | .keyword k' :: ts => if k' = k then some ts else none
  | _ => none

/-- An optional keyword, e.g. /repo/internal/parser/ZserioParser.g4:100-101, 118 -/
def optKeyword (k : Keyword) : List Token → Bool × List Token
  | .keyword k' :: ts => if k' = k then (true, ts) else (false, .keyword k' :: ts)
  | ts => (false, ts)

/-- `item (COMMA item)*`, e.g. /repo/internal/parser/ZserioParser.g4:320, 331, 335, 419; the first argument but one is fuel. -/
def commaList {α : Type} (item : List Token → Option (α × List Token)) : Nat → List Token → Option (List α × List Token)
  | 0, _ => none
  | n + 1, ts => do
    let (a, ts) ← item ts
    match ts with
    | .sym .comma :: ts => do
      let (as, ts) ← commaList item n ts
      return (a :: as, ts)
    | _ => return ([a], ts)

/-- `item*`, e.g. /repo/internal/parser/ZserioParser.g4:16-17, 91-92, 143, 145; the loop goes on if the next token begins an item. -/
def manyItems {α : Type} (begins : List Token → Bool) (item : List Token → Option (α × List Token)) :
    Nat → List Token → Option (List α × List Token)
  | 0, _ => none
  | n + 1, ts =>
    if begins ts then do
      let (a, ts) ← item ts
      let (as, ts) ← manyItems begins item n ts
      return (a :: as, ts)
    else some ([], ts)

/-- A part that is an expression behind a token, if that token is there: /repo/internal/parser/ZserioParser.g4:125-135, 194, 209 -/
def optClause (start : Token) : List Token → Option (Option CExpr × List Token)
  | t :: ts =>
    if t = start then do
      let (e, ts) ← parseExpression ts
      return (some e, ts)
    else some (none, t :: ts)
  | [] => some (none, [])

/-! ## Types -/

/-- /repo/internal/parser/ZserioParser.g4:431-482, without `fixedBitFieldType` -/
def Keyword.builtinWord : Keyword → Option BuiltinWord
  | .int8 => some .int8 | .int16 => some .int16 | .int32 => some .int32 | .int64 => some .int64 | .uint8 => some .uint8
  | .uint16 => some .uint16 | .uint32 => some .uint32 | .uint64 => some .uint64 | .varint => some .varint
  | .varint16 => some .varint16 | .varint32 => some .varint32 | .varint64 => some .varint64 | .varsize => some .varsize
  | .varuint => some .varuint | .varuint16 => some .varuint16 | .varuint32 => some .varuint32 | .varuint64 => some .varuint64
  | .bit => some .bit | .int => some .int | .bool => some .bool | .string => some .string | .float16 => some .float16
  | .float32 => some .float32 | .float64 => some .float64 | .extern => some .extern | .bytes => some .bytes
  | _ => none

/-- The width behind the colon of a `fixedBitFieldType`, /repo/internal/parser/ZserioParser.g4:454-456 -/
def fixedWidth (signed : Bool) : List Token → Option (CBuiltin × List Token)
  | .literal .decimal text :: ts => if h : isDecimalText text = true then some (.fixed signed ⟨text, h⟩, ts) else none
  | _ => none

/-- /repo/internal/parser/ZserioParser.g4:402-412 `builtinType` -/
def builtinType : List Token → Option (CBuiltin × List Token)
  | .keyword .bit :: .sym .colon :: ts => fixedWidth false ts
  | .keyword .int :: .sym .colon :: ts => fixedWidth true ts
  | .keyword k :: ts => k.builtinWord.map fun w => (.word w, ts)
  | _ => none

/-- `(DOT id)*` of /repo/internal/parser/ZserioParser.g4:26, 415 -/
def dotIds : List Token → List Ident × List Token
  | .sym .dot :: .id name :: ts => (name :: (dotIds ts).1, (dotIds ts).2)
  | ts => ([], ts)

mutual
/-- /repo/internal/parser/ZserioParser.g4:393-396 `typeReference`; the first argument is fuel. -/
def typeReference : Nat → List Token → Option (CTypeRef × List Token)
  | 0, _ => none
  | n + 1, .id first :: ts =>
    match (dotIds ts).2 with
    | .sym .lt :: ts' =>
      match templateArguments n ts' with
      | some (args, ts'') => some (.named first (dotIds ts).1 args, ts'')
      | none => some (.named first (dotIds ts).1 [], .sym .lt :: ts')
    | ts' => some (.named first (dotIds ts).1 [], ts')
  | _ + 1, ts => (builtinType ts).map fun r => (.builtin r.1, r.2)

/-- /repo/internal/parser/ZserioParser.g4:334-340 `templateArguments`, behind the `LT`. -/
def templateArguments : Nat → List Token → Option (List CTypeRef × List Token)
  | 0, _ => none
  | n + 1, ts => do
    let (t, ts) ← typeReference n ts
    match ts with
    | .sym .comma :: ts => do
      let (more, ts) ← templateArguments n ts
      return (t :: more, ts)
    | .sym .gt :: ts => return ([t], ts)
    | _ => none
end

/-- /repo/internal/parser/ZserioParser.g4:393-396 `typeReference` -/
def parseTypeRef (ts : List Token) : Option (CTypeRef × List Token) := typeReference (2 * ts.length + 1) ts

/-- The tokens that follow a type and a name and the range of an array: `fieldInitializer`, `fieldOptionalClause`,
`fieldConstraint`, `sqlConstraint`, the body of a declaration or the end, /repo/internal/parser/ZserioParser.g4:60, 103-106,
163, 186, 201, 226, 253 -/
def closesField : List Token → Bool
  | .sym .assign :: _ => true
  | .sym .lbrace :: _ => true
  | .sym .colon :: _ => true
  | .sym .semicolon :: _ => true
  | .keyword .if :: _ => true
  | .keyword .sql :: _ => true
  | _ => false

/-- The tokens that follow a type: a name, `fieldArrayRange?` and one of the above, /repo/internal/parser/ZserioParser.g4:60,
118, 122, 186, 201, 226, 253 -/
def followsType : List Token → Bool
  | .id _ :: .sym .lbracket :: .sym .rbracket :: ts => closesField ts
  | .id _ :: .sym .lbracket :: ts =>
    match parseExpression ts with
    | some (_, .sym .rbracket :: ts) => closesField ts
    | _ => false
  | .id _ :: ts => closesField ts
  | _ => false

/-- /repo/internal/parser/ZserioParser.g4:427-429 `dynamicLengthArgument`, behind the `LT`.  The loop of `expression` ends at a
`GT` only if what follows can follow a type; it goes on if that `GT` can be an operator, inside of brackets or of `? :`.  So the
argument ends at the first `GT` with an expression before it and something that follows a type behind it.  The first argument are
the tokens already passed, from the last to the first. -/
def lengthArgument (passed : List Token) : List Token → Option (CExpr × List Token)
  | [] => none
  | t :: ts =>
    if t = .sym .gt ∧ followsType ts = true then
      match parseExpression passed.reverse with
      | some (e, []) => some (e, ts)
      | _ => lengthArgument (t :: passed) ts
    else lengthArgument (t :: passed) ts

/-- /repo/internal/parser/ZserioParser.g4:422-425 `typeArgument` -/
def typeArgument : List Token → Option (CTypeArg × List Token)
  | .keyword .explicit :: ts => do
    let (name, ts) ← expectId ts
    return (.explicit name, ts)
  | ts => do
    let (e, ts) ← parseExpression ts
    return (.expression e, ts)

/-- `(typeArguments | dynamicLengthArgument)?`, /repo/internal/parser/ZserioParser.g4:399, 418-420 -/
def instantiationArgs : List Token → Option (CArgs × List Token)
  | .sym .lparen :: ts => do
    let (args, ts) ← commaList typeArgument (ts.length + 1) ts
    let ts ← expect .rparen ts
    match args with
    | first :: rest => return (.typeArgs first rest, ts)
    | [] => none
  | .sym .lt :: ts => do
    let (e, ts) ← lengthArgument [] ts
    return (.dynamicLength e, ts)
  | ts => some (.none, ts)

/-- /repo/internal/parser/ZserioParser.g4:398-400 `typeInstantiation` -/
def typeInstantiation (ts : List Token) : Option (CTypeInst × List Token) := do
  let (type, ts) ← parseTypeRef ts
  let (args, ts) ← instantiationArgs ts
  return (⟨type, args⟩, ts)

/-! ## Fields -/

/-- `fieldArrayRange?`, /repo/internal/parser/ZserioParser.g4:118, 121-123 -/
def arrayRange : List Token → Option (Option (Option CExpr) × List Token)
  | .sym .lbracket :: .sym .rbracket :: ts => some (some none, ts)
  | .sym .lbracket :: ts => do
    let (e, ts) ← parseExpression ts
    let ts ← expect .rbracket ts
    return (some (some e), ts)
  | ts => some (none, ts)

/-- /repo/internal/parser/ZserioParser.g4:117-119 `fieldTypeId` -/
def fieldTypeId (ts : List Token) : Option (CFieldTypeId × List Token) := do
  let (packed, ts) := optKeyword .packed ts
  let (implicit, ts) := optKeyword .implicit ts
  let (type, ts) ← typeInstantiation ts
  let (name, ts) ← expectId ts
  let (array, ts) ← arrayRange ts
  return (⟨packed, implicit, type, name, array⟩, ts)

/-- /repo/internal/parser/ZserioParser.g4:100-106: the part of `structureFieldDefinition` behind alignment and offset. -/
def fieldBody (ts : List Token) : Option (CField × List Token) := do
  let (extend, ts) := optKeyword .extend ts
  let (optional, ts) := optKeyword .optional ts
  let (typeId, ts) ← fieldTypeId ts
  let (initializer, ts) ← optClause (.sym .assign) ts
  let (optionalClause, ts) ← optClause (.keyword .if) ts
  let (constraint, ts) ← optClause (.sym .colon) ts
  let ts ← expect .semicolon ts
  return (⟨none, none, extend, optional, typeId, initializer, optionalClause, constraint⟩, ts)

/-- `fieldAlignment?`, /repo/internal/parser/ZserioParser.g4:98, 109-111 -/
def fieldAlignment : List Token → Option (Option CExpr × List Token)
  | .keyword .align :: ts => do
    let ts ← expect .lparen ts
    let (e, ts) ← parseExpression ts
    let ts ← expect .rparen ts
    let ts ← expect .colon ts
    return (some e, ts)
  | ts => some (none, ts)

/-- `fieldOffset` and the rest of the field, /repo/internal/parser/ZserioParser.g4:99-106, 113-115 -/
def offsetBody (ts : List Token) : Option (CField × List Token) := do
  let (e, ts) ← parseExpression ts
  let ts ← expect .colon ts
  let (f, ts) ← fieldBody ts
  return ({ f with offset := some e }, ts)

/-- /repo/internal/parser/ZserioParser.g4:97-107 `structureFieldDefinition` -/
def structureField (ts : List Token) : Option (CField × List Token) := do
  let (alignment, ts) ← fieldAlignment ts
  let (f, ts) ← (offsetBody ts).orElse fun _ => fieldBody ts
  return ({ f with alignment := alignment }, ts)

/-- /repo/internal/parser/ZserioParser.g4:162-164 `choiceFieldDefinition` -/
def choiceField (ts : List Token) : Option (CChoiceField × List Token) := do
  let (typeId, ts) ← fieldTypeId ts
  let (constraint, ts) ← optClause (.sym .colon) ts
  return (⟨typeId, constraint⟩, ts)

/-- /repo/internal/parser/ZserioParser.g4:178-180 `unionFieldDefinition` -/
def unionField (ts : List Token) : Option (CChoiceField × List Token) := do
  let (f, ts) ← choiceField ts
  let ts ← expect .semicolon ts
  return (f, ts)

/-- `choiceFieldDefinition? SEMICOLON`, /repo/internal/parser/ZserioParser.g4:151, 159 -/
def optChoiceField : List Token → Option (Option CChoiceField × List Token)
  | .sym .semicolon :: ts => some (none, ts)
  | ts => do
    let (f, ts) ← unionField ts
    return (some f, ts)

/-- /repo/internal/parser/ZserioParser.g4:154-156 `choiceCase` -/
def choiceCase (ts : List Token) : Option (CExpr × List Token) := do
  let ts ← expectKeyword .case ts
  let (e, ts) ← parseExpression ts
  let ts ← expect .colon ts
  return (e, ts)

/-- Whether the next token is a keyword. -/
def beginsKeyword (k : Keyword) : List Token → Bool
  | .keyword k' :: _ => k' = k
  | _ => false

/-- Whether a member of a structure or union is a field: neither a function nor the end, /repo/internal/parser/ZserioParser.g4:90-93, 171-174. -/
def beginsField : List Token → Bool
  | .keyword .function :: _ => false
  | .sym .rbrace :: _ => false
  | _ => true

/-- /repo/internal/parser/ZserioParser.g4:150-152 `choiceCases` -/
def choiceCases (ts : List Token) : Option (CChoiceCases × List Token) := do
  let (first, ts) ← choiceCase ts
  let (others, ts) ← manyItems (beginsKeyword .case) choiceCase (ts.length + 1) ts
  let (field, ts) ← optChoiceField ts
  return (⟨first, others, field⟩, ts)

/-- `choiceDefault?`, /repo/internal/parser/ZserioParser.g4:144, 158-160 -/
def choiceDefault : List Token → Option (Option (Option CChoiceField) × List Token)
  | .keyword .default :: ts => do
    let ts ← expect .colon ts
    let (f, ts) ← optChoiceField ts
    return (some f, ts)
  | ts => some (none, ts)

/-! ## Declarations -/

/-- /repo/internal/parser/ZserioParser.g4:323-325 `parameterDefinition` -/
def parameter (ts : List Token) : Option (CParam × List Token) := do
  let (type, ts) ← parseTypeRef ts
  let (name, ts) ← expectId ts
  return (⟨type, name⟩, ts)

/-- /repo/internal/parser/ZserioParser.g4:296-314 `functionDefinition` -/
def functionDefinition (ts : List Token) : Option (CFunction × List Token) := do
  let ts ← expectKeyword .function ts
  let (type, ts) ← parseTypeRef ts
  let (name, ts) ← expectId ts
  let ts ← expect .lparen ts
  let ts ← expect .rparen ts
  let ts ← expect .lbrace ts
  let ts ← expectKeyword .return ts
  let (result, ts) ← parseExpression ts
  let ts ← expect .semicolon ts
  let ts ← expect .rbrace ts
  return (⟨type, name, result⟩, ts)

/-- `templateParameters?`, /repo/internal/parser/ZserioParser.g4:330-332 -/
def templateParameters : List Token → Option (List Ident × List Token)
  | .sym .lt :: ts => do
    let (names, ts) ← commaList expectId (ts.length + 1) ts
    let ts ← expect .gt ts
    return (names, ts)
  | ts => some ([], ts)

/-- `typeParameters?`, /repo/internal/parser/ZserioParser.g4:319-321 -/
def typeParameters : List Token → Option (List CParam × List Token)
  | .sym .lparen :: ts => do
    let (params, ts) ← commaList parameter (ts.length + 1) ts
    let ts ← expect .rparen ts
    return (params, ts)
  | ts => some ([], ts)

/-- `id templateParameters? typeParameters?`, /repo/internal/parser/ZserioParser.g4:89, 141, 170 -/
def declHead (ts : List Token) : Option (CHead × List Token) := do
  let (name, ts) ← expectId ts
  let (templateParams, ts) ← templateParameters ts
  let (typeParams, ts) ← typeParameters ts
  return (⟨name, templateParams, typeParams⟩, ts)

/-- `functionDefinition* RBRACE SEMICOLON`, /repo/internal/parser/ZserioParser.g4:92-94, 145-147, 173-175 -/
def functionsEnd (ts : List Token) : Option (List CFunction × List Token) := do
  let (functions, ts) ← manyItems (beginsKeyword .function) functionDefinition (ts.length + 1) ts
  let ts ← expect .rbrace ts
  let ts ← expect .semicolon ts
  return (functions, ts)

/-- `(DEPRECATED | REMOVED)?`, /repo/internal/parser/ZserioParser.g4:194 -/
def enumMark : List Token → Option EnumMark × List Token
  | .keyword .deprecated :: ts => (some .deprecated, ts)
  | .keyword .removed :: ts => (some .removed, ts)
  | ts => (none, ts)

/-- /repo/internal/parser/ZserioParser.g4:193-195 `enumItem` -/
def enumItem (ts : List Token) : Option (CEnumItem × List Token) := do
  let (mark, ts) := enumMark ts
  let (name, ts) ← expectId ts
  let (value, ts) ← optClause (.sym .assign) ts
  return (⟨mark, name, value⟩, ts)

/-- /repo/internal/parser/ZserioParser.g4:208-210 `bitmaskValue` -/
def bitmaskItem (ts : List Token) : Option (CBitmaskValue × List Token) := do
  let (name, ts) ← expectId ts
  let (value, ts) ← optClause (.sym .assign) ts
  return (⟨name, value⟩, ts)

/-- `LBRACE item (COMMA item)* COMMA? RBRACE SEMICOLON`, /repo/internal/parser/ZserioParser.g4:187-190, 202-205, behind the brace;
the first argument but one is fuel. -/
def itemsEnd {α : Type} (item : List Token → Option (α × List Token)) : Nat → List Token → Option (List α × List Token)
  | 0, _ => none
  | n + 1, ts => do
    let (a, ts) ← item ts
    match ts with
    | .sym .comma :: .sym .rbrace :: .sym .semicolon :: ts => return ([a], ts)
    | .sym .rbrace :: .sym .semicolon :: ts => return ([a], ts)
    | .sym .comma :: ts => do
      let (as, ts) ← itemsEnd item n ts
      return (a :: as, ts)
    | _ => none

/-- /repo/internal/parser/ZserioParser.g4:59-61 `constDefinition`, behind the keyword. -/
def constDefinition (ts : List Token) : Option (CDirective × List Token) := do
  let (type, ts) ← typeInstantiation ts
  let (name, ts) ← expectId ts
  let ts ← expect .assign ts
  let (value, ts) ← parseExpression ts
  let ts ← expect .semicolon ts
  return (.const type name value, ts)

/-- `typeReference id SEMICOLON`, /repo/internal/parser/ZserioParser.g4:82, 343 -/
def namedType (ts : List Token) : Option ((CTypeRef × Ident) × List Token) := do
  let (type, ts) ← parseTypeRef ts
  let (name, ts) ← expectId ts
  let ts ← expect .semicolon ts
  return ((type, name), ts)

/-- /repo/internal/parser/ZserioParser.g4:88-95 `structureDeclaration`, behind the keyword. -/
def structureDeclaration (ts : List Token) : Option (CDirective × List Token) := do
  let (head, ts) ← declHead ts
  let ts ← expect .lbrace ts
  let (fields, ts) ← manyItems beginsField structureField (ts.length + 1) ts
  let (functions, ts) ← functionsEnd ts
  return (.structure head fields functions, ts)

/-- /repo/internal/parser/ZserioParser.g4:140-148 `choiceDeclaration`, behind the keyword. -/
def choiceDeclaration (ts : List Token) : Option (CDirective × List Token) := do
  let (head, ts) ← declHead ts
  if head.typeParams.isEmpty then none else
  let ts ← expectKeyword .on ts
  let (selector, ts) ← parseExpression ts
  let ts ← expect .lbrace ts
  let (cases, ts) ← manyItems (beginsKeyword .case) choiceCases (ts.length + 1) ts
  let (dflt, ts) ← choiceDefault ts
  let (functions, ts) ← functionsEnd ts
  return (.choice head selector cases dflt functions, ts)

/-- /repo/internal/parser/ZserioParser.g4:169-176 `unionDeclaration`, behind the keyword. -/
def unionDeclaration (ts : List Token) : Option (CDirective × List Token) := do
  let (head, ts) ← declHead ts
  let ts ← expect .lbrace ts
  let (fields, ts) ← manyItems beginsField unionField (ts.length + 1) ts
  let (functions, ts) ← functionsEnd ts
  return (.union head fields functions, ts)

/-- /repo/internal/parser/ZserioParser.g4:185-191 `enumDeclaration`, behind the keyword. -/
def enumDeclaration (ts : List Token) : Option (CDirective × List Token) := do
  let (type, ts) ← typeInstantiation ts
  let (name, ts) ← expectId ts
  let ts ← expect .lbrace ts
  let (items, ts) ← itemsEnd enumItem (ts.length + 1) ts
  return (.enum type name items, ts)

/-- /repo/internal/parser/ZserioParser.g4:200-206 `bitmaskDeclaration`, behind the keyword. -/
def bitmaskDeclaration (ts : List Token) : Option (CDirective × List Token) := do
  let (type, ts) ← typeInstantiation ts
  let (name, ts) ← expectId ts
  let ts ← expect .lbrace ts
  let (values, ts) ← itemsEnd bitmaskItem (ts.length + 1) ts
  return (.bitmask type name values, ts)

/-! ## Declarations that the visitor does not look at -/

/-- `RBRACE SEMICOLON`, e.g. /repo/internal/parser/ZserioParser.g4:70-71, 221-222 -/
def closeDecl (ts : List Token) : Option (List Token) := do
  let ts ← expect .rbrace ts
  expect .semicolon ts

/-- Whether the body of a declaration goes on. -/
def notClosed : List Token → Bool
  | .sym .rbrace :: _ => false
  | _ => true

/-- /repo/internal/parser/ZserioParser.g4:74-76 `ruleDefinition` -/
def ruleDefinition (ts : List Token) : Option (CExpr × List Token) := do
  let ts ← expectKeyword .rule ts
  let (e, ts) ← parseExpression ts
  let ts ← expect .semicolon ts
  return (e, ts)

/-- /repo/internal/parser/ZserioParser.g4:66-72 `ruleGroupDefinition`, behind the keyword. -/
def ruleGroupDefinition (ts : List Token) : Option (CDirective × List Token) := do
  let (name, ts) ← expectId ts
  let ts ← expect .lbrace ts
  let (rules, ts) ← manyItems (beginsKeyword .rule) ruleDefinition (ts.length + 1) ts
  let ts ← closeDecl ts
  return (.other (.ruleGroup name rules), ts)

/-- `(USING id)?`, /repo/internal/parser/ZserioParser.g4:216 -/
def sqlUsing : List Token → Option (Option Ident × List Token)
  | .keyword .using :: ts => do
    let (name, ts) ← expectId ts
    return (some name, ts)
  | ts => some (none, ts)

/-- /repo/internal/parser/ZserioParser.g4:225-227 `sqlTableFieldDefinition`, 233-235 `sqlConstraint` -/
def sqlTableField (ts : List Token) : Option (CSqlField × List Token) := do
  let (virtual, ts) := optKeyword .sqlVirtual ts
  let (type, ts) ← typeInstantiation ts
  let (name, ts) ← expectId ts
  let (constraint, ts) ← optClause (.keyword .sql) ts
  let ts ← expect .semicolon ts
  return (⟨virtual, type, name, constraint⟩, ts)

/-- Whether a member of a table is a field, /repo/internal/parser/ZserioParser.g4:218-221. -/
def beginsSqlField : List Token → Bool
  | .keyword .sql :: _ => false
  | .keyword .sqlWithoutRowid :: _ => false
  | .sym .rbrace :: _ => false
  | _ => true

/-- `sqlConstraintDefinition?`, /repo/internal/parser/ZserioParser.g4:219, 229-231 -/
def sqlConstraintDefinition : List Token → Option (Option CExpr × List Token)
  | .keyword .sql :: ts => do
    let (e, ts) ← parseExpression ts
    let ts ← expect .semicolon ts
    return (some e, ts)
  | ts => some (none, ts)

/-- `sqlWithoutRowId?`, /repo/internal/parser/ZserioParser.g4:220, 237-239 -/
def sqlWithoutRowId : List Token → Option (Bool × List Token)
  | .keyword .sqlWithoutRowid :: ts => do
    let ts ← expect .semicolon ts
    return (true, ts)
  | ts => some (false, ts)

/-- /repo/internal/parser/ZserioParser.g4:215-223 `sqlTableDeclaration`, behind the keyword. -/
def sqlTableDeclaration (ts : List Token) : Option (CDirective × List Token) := do
  let (name, ts) ← expectId ts
  let (templateParams, ts) ← templateParameters ts
  let (module, ts) ← sqlUsing ts
  let ts ← expect .lbrace ts
  let (fields, ts) ← manyItems beginsSqlField sqlTableField (ts.length + 1) ts
  let (constraint, ts) ← sqlConstraintDefinition ts
  let (withoutRowId, ts) ← sqlWithoutRowId ts
  let ts ← closeDecl ts
  return (.other (.sqlTable name templateParams module fields constraint withoutRowId), ts)

/-- /repo/internal/parser/ZserioParser.g4:252-254 `sqlDatabaseFieldDefinition` -/
def sqlDatabaseField (ts : List Token) : Option (CSqlTableRef × List Token) := do
  let (type, ts) ← typeInstantiation ts
  let (name, ts) ← expectId ts
  let ts ← expect .semicolon ts
  return (⟨type, name⟩, ts)

/-- /repo/internal/parser/ZserioParser.g4:244-250 `sqlDatabaseDefinition`, behind the keyword; there is at least one field. -/
def sqlDatabaseDefinition (ts : List Token) : Option (CDirective × List Token) := do
  let (name, ts) ← expectId ts
  let ts ← expect .lbrace ts
  let (fields, ts) ← manyItems notClosed sqlDatabaseField (ts.length + 1) ts
  if fields.isEmpty then none else
  let ts ← closeDecl ts
  return (.other (.sqlDatabase name fields), ts)

/-- /repo/internal/parser/ZserioParser.g4:267-269 `serviceMethodDefinition` -/
def serviceMethod (ts : List Token) : Option (CMethod × List Token) := do
  let (result, ts) ← parseTypeRef ts
  let (name, ts) ← expectId ts
  let ts ← expect .lparen ts
  let (argument, ts) ← parseTypeRef ts
  let ts ← expect .rparen ts
  let ts ← expect .semicolon ts
  return (⟨result, name, argument⟩, ts)

/-- /repo/internal/parser/ZserioParser.g4:259-265 `serviceDefinition`, behind the keyword. -/
def serviceDefinition (ts : List Token) : Option (CDirective × List Token) := do
  let (name, ts) ← expectId ts
  let ts ← expect .lbrace ts
  let (methods, ts) ← manyItems notClosed serviceMethod (ts.length + 1) ts
  let ts ← closeDecl ts
  return (.other (.service name methods), ts)

/-- `(PUBLISH | SUBSCRIBE)?`, /repo/internal/parser/ZserioParser.g4:287 -/
def topicMode : List Token → Option TopicMode × List Token
  | .keyword .publish :: ts => (some .publish, ts)
  | .keyword .subscribe :: ts => (some .subscribe, ts)
  | ts => (none, ts)

/-- /repo/internal/parser/ZserioParser.g4:282-291 `pubsubMessageDefinition`, `topicDefinition` -/
def pubsubMessage (ts : List Token) : Option (CMessage × List Token) := do
  let (mode, ts) := topicMode ts
  let ts ← expectKeyword .topic ts
  let ts ← expect .lparen ts
  let (topic, ts) ← parseExpression ts
  let ts ← expect .rparen ts
  let ((type, name), ts) ← namedType ts
  return (⟨mode, topic, type, name⟩, ts)

/-- /repo/internal/parser/ZserioParser.g4:274-280 `pubsubDefinition`, behind the keyword. -/
def pubsubDefinition (ts : List Token) : Option (CDirective × List Token) := do
  let (name, ts) ← expectId ts
  let ts ← expect .lbrace ts
  let (messages, ts) ← manyItems notClosed pubsubMessage (ts.length + 1) ts
  let ts ← closeDecl ts
  return (.other (.pubsub name messages), ts)

/-- /repo/internal/parser/ZserioParser.g4:33-57, 81-83, 342-344 `languageDirective`, `typeDeclaration`, `symbolDefinition`,
`subtypeDeclaration`, `instantiateDeclaration` -/
def languageDirective : List Token → Option (CDirective × List Token)
  | .keyword .const :: ts => constDefinition ts
  | .keyword .subtype :: ts => (namedType ts).map fun r => (.subtype r.1.1 r.1.2, r.2)
  | .keyword .instantiate :: ts => (namedType ts).map fun r => (.instantiate r.1.1 r.1.2, r.2)
  | .keyword .struct :: ts => structureDeclaration ts
  | .keyword .choice :: ts => choiceDeclaration ts
  | .keyword .union :: ts => unionDeclaration ts
  | .keyword .enum :: ts => enumDeclaration ts
  | .keyword .bitmask :: ts => bitmaskDeclaration ts
  | .keyword .sqlTable :: ts => sqlTableDeclaration ts
  | .keyword .sqlDatabase :: ts => sqlDatabaseDefinition ts
  | .keyword .service :: ts => serviceDefinition ts
  | .keyword .pubsub :: ts => pubsubDefinition ts
  | .keyword .ruleGroup :: ts => ruleGroupDefinition ts
  | _ => none

/-! ## Packages -/

/-- `compatibilityVersionDirective?`, /repo/internal/parser/ZserioParser.g4:21-23 -/
def compatibilityVersion : List Token → Option (Option (List Char) × List Token)
  | .keyword .compatVersion :: .sym .lparen :: .literal .string text :: .sym .rparen :: .sym .semicolon :: ts =>
    some (some text, ts)
  | .keyword .compatVersion :: _ => none
  | ts => some (none, ts)

/-- `packageNameDefinition?`, /repo/internal/parser/ZserioParser.g4:25-27 -/
def packageName : List Token → Option (Option (Ident × List Ident) × List Token)
  | .keyword .package :: ts => do
    let (first, ts) ← expectId ts
    let (rest, ts) := dotIds ts
    let ts ← expect .semicolon ts
    return (some (first, rest), ts)
  | ts => some (none, ts)

/-- `id DOT (id DOT)* (id | MULTIPLY)` without the first two, /repo/internal/parser/ZserioParser.g4:30 -/
def importPath : List Token → Option ((List Ident × Option Ident) × List Token)
  | .sym .multiply :: ts => some (([], none), ts)
  | .id name :: .sym .dot :: ts => do
    let ((middle, last), ts) ← importPath ts
    return ((name :: middle, last), ts)
  | .id name :: ts => some (([], some name), ts)
  | _ => none

/-- /repo/internal/parser/ZserioParser.g4:29-31 `importDeclaration` -/
def importDeclaration (ts : List Token) : Option (CImport × List Token) := do
  let ts ← expectKeyword .import ts
  let (first, ts) ← expectId ts
  let ts ← expect .dot ts
  let ((middle, last), ts) ← importPath ts
  let ts ← expect .semicolon ts
  return (⟨first, middle, last⟩, ts)

/-- /repo/internal/parser/ZserioParser.g4:13-19 `packageDeclaration`; it reads everything. -/
def parsePackage (ts : List Token) : Option CPackage := do
  let (compatibility, ts) ← compatibilityVersion ts
  let (name, ts) ← packageName ts
  let (imports, ts) ← manyItems (beginsKeyword .import) importDeclaration (ts.length + 1) ts
  let (directives, ts) ← manyItems (fun ts => !ts.isEmpty) languageDirective (ts.length + 1) ts
  if ts.isEmpty then return ⟨compatibility, name, imports, directives⟩ else none

end Verif
