import Verif.Spec

/-!
# From the parse tree to the syntax tree

Source: /repo/internal/visitor/visitor.go (the visitor) and /repo/internal/parser/ZserioParser.g4 (the grammar, which fixes the
shape of the parse trees), /repo/internal/ast/*.go (the syntax tree), /repo/internal/model/model.go:90-103 and
/repo/internal/ast/package.go:61-104 (what becomes of a package).

Parse trees have one constructor per alternative of the grammar; what ANTLR does with text that is not in the grammar is not
modelled.  Comments are left out.  A Go panic is `none`: the visitor returns errors as results, and every caller turns them into
a panic by a type assertion.  Names are lists of characters.
-/

namespace Verif

/-! ## Tokens -/

/-- /repo/internal/parser/ZserioLexer.g4 `ID` -/
def isIdStart (c : Char) : Bool := ('a' ≤ c && c ≤ 'z') || ('A' ≤ c && c ≤ 'Z') || c == '_'

/-- /repo/internal/parser/ZserioLexer.g4 `ID` -/
def isIdChar (c : Char) : Bool := isIdStart c || ('0' ≤ c && c ≤ '9')

/-- The texts of the token `ID`, /repo/internal/parser/ZserioLexer.g4:154. -/
def isIdText : List Char → Bool
  | [] => false
  | c :: cs => isIdStart c && cs.all isIdChar

/-- An identifier, /repo/internal/parser/ZserioParser.g4:386-388 `id`. -/
structure Ident where
  text : List Char
  ok : isIdText text = true
deriving DecidableEq

/-- The token types that end up in `ast.Expression.Type`, /repo/internal/parser/ZserioLexer.g4; `unevaluatable` is
`parser.UnevaluatableExpressionType`. -/
inductive Tok where
  | lparen | rparen | lbracket | dot | isset | lengthof | valueof | numbits
  | plus | minus | bang | tilde | multiply | divide | modulo | lshift | rshift
  | lt | le | gt | ge | eq | ne | and | xor | or | logicalAnd | logicalOr | questionmark
  | binaryLiteral | octalLiteral | decimalLiteral | hexLiteral | boolLiteral | stringLiteral | floatLiteral | doubleLiteral
  | index | id | unevaluatable
deriving DecidableEq

/-- The texts of the tokens that always have the same one, /repo/internal/parser/ZserioLexer.g4. -/
def Tok.text : Tok → List Char
  | .lparen => "(".toList | .rparen => ")".toList | .lbracket => "[".toList | .dot => ".".toList
  | .isset => "isset".toList | .lengthof => "lengthof".toList | .valueof => "valueof".toList | .numbits => "numbits".toList
  | .plus => "+".toList | .minus => "-".toList | .bang => "!".toList | .tilde => "~".toList
  | .multiply => "*".toList | .divide => "/".toList | .modulo => "%".toList | .lshift => "<<".toList
  | .lt => "<".toList | .le => "<=".toList | .gt => ">".toList | .ge => ">=".toList | .eq => "==".toList | .ne => "!=".toList
  | .and => "&".toList | .xor => "^".toList | .or => "|".toList | .logicalAnd => "&&".toList | .logicalOr => "||".toList
  | .questionmark => "?".toList | .index => "@index".toList
  | _ => []

/-! ## Expressions -/

/-- /repo/internal/parser/ZserioParser.g4 `literal` -/
inductive TokenKind where
  | binary | octal | decimal | hexadecimal | bool | string | float | double
deriving DecidableEq

/-- The operators of `unaryExpression`, /repo/internal/parser/ZserioParser.g4:358. -/
inductive UnaryOp where
  | plus | minus | bang | tilde
deriving DecidableEq

/-- The operators of `multiplicativeExpression`, /repo/internal/parser/ZserioParser.g4:359. -/
inductive MulOp where
  | multiply | divide | modulo
deriving DecidableEq

/-- The operators of `additiveExpression`, /repo/internal/parser/ZserioParser.g4:360. -/
inductive AddOp where
  | plus | minus
deriving DecidableEq

/-- The operators of `shiftExpression`, /repo/internal/parser/ZserioParser.g4:361.  `right` is `GT GT`: the lexer has no token
for it. -/
inductive ShiftOp where
  | left | right
deriving DecidableEq

/-- The operators of `relationalExpression`, /repo/internal/parser/ZserioParser.g4:362. -/
inductive RelOp where
  | lt | le | gt | ge
deriving DecidableEq

/-- The operators of `equalityExpression`, /repo/internal/parser/ZserioParser.g4:363. -/
inductive EqOp where
  | eq | ne
deriving DecidableEq

/-- /repo/internal/parser/ZserioParser.g4 `expression` -/
inductive CExpr where
  | parenthesized (e : CExpr)
  | functionCall (e : CExpr)
  | array (e i : CExpr)
  | dot (e : CExpr) (field : Ident)
  | isSet (a b : CExpr)
  | lengthof (e : CExpr)
  | valueof (e : CExpr)
  | numbits (e : CExpr)
  | unary (op : UnaryOp) (e : CExpr)
  | multiplicative (op : MulOp) (a b : CExpr)
  | additive (op : AddOp) (a b : CExpr)
  | shift (op : ShiftOp) (a b : CExpr)
  | relational (op : RelOp) (a b : CExpr)
  | equality (op : EqOp) (a b : CExpr)
  | bitwiseAnd (a b : CExpr)
  | bitwiseXor (a b : CExpr)
  | bitwiseOr (a b : CExpr)
  | logicalAnd (a b : CExpr)
  | logicalOr (a b : CExpr)
  | ternary (a b c : CExpr)
  | literal (kind : TokenKind) (text : List Char)
  | index
  | identifier (name : Ident)
deriving DecidableEq

/-- /repo/internal/ast/expression.go `Expression`: type, text and as many operands as are not nil. -/
inductive AExpr where
  | leaf (type : Tok) (text : List Char)
  | one (type : Tok) (text : List Char) (a : AExpr)
  | two (type : Tok) (text : List Char) (a b : AExpr)
  | three (type : Tok) (text : List Char) (a b c : AExpr)
deriving DecidableEq

/-- Its token, /repo/internal/parser/ZserioLexer.g4. -/
def TokenKind.tok : TokenKind → Tok
  | .binary => .binaryLiteral | .octal => .octalLiteral | .decimal => .decimalLiteral | .hexadecimal => .hexLiteral
  | .bool => .boolLiteral | .string => .stringLiteral | .float => .floatLiteral | .double => .doubleLiteral

/-- Its token, /repo/internal/parser/ZserioLexer.g4. -/
def UnaryOp.tok : UnaryOp → Tok
  | .plus => .plus | .minus => .minus | .bang => .bang | .tilde => .tilde

/-- Its token, /repo/internal/parser/ZserioLexer.g4. -/
def MulOp.tok : MulOp → Tok
  | .multiply => .multiply | .divide => .divide | .modulo => .modulo

/-- Its token, /repo/internal/parser/ZserioLexer.g4. -/
def AddOp.tok : AddOp → Tok
  | .plus => .plus | .minus => .minus

/-- The token labelled `operator`, /repo/internal/parser/ZserioParser.g4:361. -/
def ShiftOp.tok : ShiftOp → Tok
  | .left => .lshift | .right => .gt

/-- Its token, /repo/internal/parser/ZserioLexer.g4. -/
def RelOp.tok : RelOp → Tok
  | .lt => .lt | .le => .le | .gt => .gt | .ge => .ge

/-- Its token, /repo/internal/parser/ZserioLexer.g4. -/
def EqOp.tok : EqOp → Tok
  | .eq => .eq | .ne => .ne

/-- Most visitor methods for expressions with one operand, /repo/internal/visitor/visitor.go:418-494. -/
def visitOne (op : Tok) (a : AExpr) : AExpr := .one op op.text a

/-- Most visitor methods for expressions with two operands, /repo/internal/visitor/visitor.go:434-584. -/
def visitTwo (op : Tok) (a b : AExpr) : AExpr := .two op op.text a b

/-- The visitor methods for expressions, /repo/internal/visitor/visitor.go:418-616. -/
def visitExpr : CExpr → AExpr
  | .parenthesized e => visitOne .lparen (visitExpr e)
  | .functionCall e => visitOne .rparen (visitExpr e)
  | .array e i => visitTwo .lbracket (visitExpr e) (visitExpr i)
  | .dot e field => visitTwo .dot (visitExpr e) (.leaf .unevaluatable field.text)
  | .isSet a b => visitTwo .isset (visitExpr a) (visitExpr b)
  | .lengthof e => visitOne .lengthof (visitExpr e)
  | .valueof e => visitOne .valueof (visitExpr e)
  | .numbits e => visitOne .numbits (visitExpr e)
  | .unary op e => visitOne op.tok (visitExpr e)
  | .multiplicative op a b => visitTwo op.tok (visitExpr a) (visitExpr b)
  | .additive op a b => visitTwo op.tok (visitExpr a) (visitExpr b)
  | .shift op a b =>
    -- visitor.go:514-528: the text stays `>`
    .two (if op.tok = .gt then .rshift else op.tok) op.tok.text (visitExpr a) (visitExpr b)
  | .relational op a b => visitTwo op.tok (visitExpr a) (visitExpr b)
  | .equality op a b => visitTwo op.tok (visitExpr a) (visitExpr b)
  | .bitwiseAnd a b => visitTwo .and (visitExpr a) (visitExpr b)
  | .bitwiseXor a b => visitTwo .xor (visitExpr a) (visitExpr b)
  | .bitwiseOr a b => visitTwo .or (visitExpr a) (visitExpr b)
  | .logicalAnd a b => visitTwo .logicalAnd (visitExpr a) (visitExpr b)
  | .logicalOr a b => visitTwo .logicalOr (visitExpr a) (visitExpr b)
  | .ternary a b c => .three .questionmark Tok.questionmark.text (visitExpr a) (visitExpr b) (visitExpr c)
  | .literal kind text => .leaf kind.tok text
  | .index => .leaf .index Tok.index.text
  | .identifier name => .leaf .id name.text

/-! ## Types -/

/-- The builtin types that are one keyword: `intType`, `varintType`, `dynamicBitFieldType`, `boolType`, `stringType`,
`floatType`, `externType`, `bytesType` of /repo/internal/parser/ZserioParser.g4. -/
inductive BuiltinWord where
  | int8 | int16 | int32 | int64 | uint8 | uint16 | uint32 | uint64
  | varint | varint16 | varint32 | varint64 | varsize | varuint | varuint16 | varuint32 | varuint64
  | bit | int | bool | string | float16 | float32 | float64 | extern | bytes
deriving DecidableEq

/-- Its text, /repo/internal/parser/ZserioLexer.g4:39-107. -/
def BuiltinWord.text : BuiltinWord → List Char
  | .int8 => "int8".toList | .int16 => "int16".toList | .int32 => "int32".toList | .int64 => "int64".toList
  | .uint8 => "uint8".toList | .uint16 => "uint16".toList | .uint32 => "uint32".toList | .uint64 => "uint64".toList
  | .varint => "varint".toList | .varint16 => "varint16".toList | .varint32 => "varint32".toList
  | .varint64 => "varint64".toList | .varsize => "varsize".toList | .varuint => "varuint".toList
  | .varuint16 => "varuint16".toList | .varuint32 => "varuint32".toList | .varuint64 => "varuint64".toList
  | .bit => "bit".toList | .int => "int".toList | .bool => "bool".toList | .string => "string".toList
  | .float16 => "float16".toList | .float32 => "float32".toList | .float64 => "float64".toList
  | .extern => "extern".toList | .bytes => "bytes".toList

/-- /repo/internal/parser/ZserioLexer.g4 `DECIMAL_LITERAL` -/
def isDecimalText : List Char → Bool
  | [] => false
  | ['0'] => true
  | c :: cs => ('1' ≤ c && c ≤ '9') && cs.all Char.isDigit

/-- A decimal literal, /repo/internal/parser/ZserioLexer.g4:148-151. -/
structure DecimalText where
  text : List Char
  ok : isDecimalText text = true
deriving DecidableEq

/-- /repo/internal/parser/ZserioParser.g4 `builtinType`; `fixed` is `fixedBitFieldType`. -/
inductive CBuiltin where
  | word (w : BuiltinWord)
  | fixed (signed : Bool) (width : DecimalText)
deriving DecidableEq

/-- /repo/internal/parser/ZserioParser.g4 `typeReference`: a builtin type, or a qualified name with template arguments (none
written is the empty list). -/
inductive CTypeRef where
  | builtin (b : CBuiltin)
  | named (first : Ident) (rest : List Ident) (templateArgs : List CTypeRef)

/-- /repo/internal/ast/type_reference.go:3-19 `TypeReference` -/
inductive ATypeRef where
  | mk (isBuiltin : Bool) (pkg name : List Char) (bits : Nat) (templateArgs : List ATypeRef) (typeArgs : List AExpr)
      (length : Option AExpr)

/-- The value of a text of decimal digits, part of `strconv.ParseUint` (used at /repo/internal/visitor/visitor.go:217, 648). -/
def digitsValue (text : List Char) : Nat := text.foldl (fun v c => 10 * v + (c.toNat - '0'.toNat)) 0

/-- `strconv.ParseUint(text, 10, 8)` (/repo/internal/visitor/visitor.go:217, 648): the value and whether there was no error.  Too large numbers come back as the largest one
with an error. -/
def parseUint8 (text : List Char) : Nat × Bool :=
  if text ≠ [] ∧ text.all Char.isDigit = true then
    if digitsValue text ≤ 255 then (digitsValue text, true) else (255, false)
  else (0, false)

/-- `t.GetText()` for a builtin type, /repo/internal/visitor/visitor.go:645 -/
def CBuiltin.text : CBuiltin → List Char
  | .word w => w.text
  | .fixed signed width => (if signed then "int".toList else "bit".toList) ++ ':' :: width.text

/-- /repo/internal/visitor/visitor.go:642-662: `VisitTypeReference` for builtin types, on the text. -/
def visitBuiltinText (text : List Char) : ATypeRef :=
  let name := text.takeWhile (· ≠ ':')
  match text.dropWhile (· ≠ ':') with
  | [] => .mk true [] text 0 [] [] none
  | _ :: digits =>
    let bits := (parseUint8 digits).1
    if bits = 8 ∨ bits = 16 ∨ bits = 32 ∨ bits = 64 then
      if name = "bit".toList then .mk true [] ("uint".toList ++ Nat.toDigits 10 bits) 0 [] [] none
      else if name = "uint".toList ∨ name = "int".toList then .mk true [] (name ++ Nat.toDigits 10 bits) 0 [] [] none
      else .mk true [] name bits [] [] none
    else .mk true [] name bits [] [] none

/-- `ctx.GetText()` for a qualified name, /repo/internal/visitor/visitor.go:743-745 -/
def qualifiedText (first : Ident) : List Ident → List Char
  | [] => first.text
  | next :: rest => first.text ++ '.' :: qualifiedText next rest

/-- /repo/internal/visitor/visitor.go:669-674: package and name, split at the last dot. -/
def splitName (text : List Char) : List Char × List Char :=
  let name := (text.reverse.takeWhile (· ≠ '.')).reverse
  match text.reverse.dropWhile (· ≠ '.') with
  | [] => ([], text)
  | _ :: before => (before.reverse, name)

mutual
/-- /repo/internal/visitor/visitor.go:641-681 `VisitTypeReference` -/
def visitTypeRef : CTypeRef → ATypeRef
  | .builtin b => visitBuiltinText b.text
  | .named first rest templateArgs =>
    let split := splitName (qualifiedText first rest)
    .mk false split.1 split.2 0 (visitTypeRefs templateArgs) [] none

/-- /repo/internal/visitor/visitor.go:718-728 `VisitTemplateArguments` -/
def visitTypeRefs : List CTypeRef → List ATypeRef
  | [] => []
  | t :: ts => visitTypeRef t :: visitTypeRefs ts
end

/-- /repo/internal/parser/ZserioParser.g4 `typeArgument` -/
inductive CTypeArg where
  | explicit (name : Ident)
  | expression (e : CExpr)
deriving DecidableEq

/-- What may follow a type reference in `typeInstantiation`, /repo/internal/parser/ZserioParser.g4:398-400 -/
inductive CArgs where
  | none
  | typeArgs (first : CTypeArg) (rest : List CTypeArg)
  | dynamicLength (e : CExpr)
deriving DecidableEq

/-- /repo/internal/parser/ZserioParser.g4 `typeInstantiation` -/
structure CTypeInst where
  type : CTypeRef
  args : CArgs

/-- /repo/internal/visitor/visitor.go:706-716 `VisitTypeArgument` -/
def visitTypeArg : CTypeArg → AExpr
  | .explicit name => .leaf .id name.text
  | .expression e => visitExpr e

/-- /repo/internal/visitor/visitor.go:683-704 `VisitTypeInstantiation` -/
def visitTypeInst (t : CTypeInst) : ATypeRef :=
  match visitTypeRef t.type with
  | .mk b p n bits targs args length =>
    match t.args with
    | .none => .mk b p n bits targs args length
    | .typeArgs first rest => .mk b p n bits targs ((first :: rest).map visitTypeArg) length
    | .dynamicLength e => .mk b p n bits targs args (some (visitExpr e))

/-! ## Fields -/

/-- /repo/internal/parser/ZserioParser.g4 `fieldTypeId`; `array` is the range, if there is one. -/
structure CFieldTypeId where
  packed : Bool
  implicit : Bool
  type : CTypeInst
  name : Ident
  array : Option (Option CExpr)

/-- /repo/internal/parser/ZserioParser.g4 `structureFieldDefinition` -/
structure CField where
  alignment : Option CExpr
  offset : Option CExpr
  extend : Bool
  optional : Bool
  typeId : CFieldTypeId
  initializer : Option CExpr
  optionalClause : Option CExpr
  constraint : Option CExpr

/-- /repo/internal/ast/field.go:3-6 `Array` -/
structure AArray where
  packed : Bool
  length : Option AExpr
deriving DecidableEq

/-- /repo/internal/ast/field.go:8-32 `Field`, without the comment and the name for JSON, which is set later. -/
structure AField where
  name : List Char
  optional : Bool
  alignment : Nat
  type : ATypeRef
  initializer : Option AExpr
  constraint : Option AExpr
  optionalClause : Option AExpr
  array : Option AArray

/-- /repo/internal/visitor/visitor.go:618-639 `VisitFieldTypeId`; the error for implicit arrays makes every caller panic. -/
def visitFieldTypeId (f : CFieldTypeId) : Option AField :=
  let field : AField := ⟨f.name.text, false, 0, visitTypeInst f.type, none, none, none, none⟩
  match f.array with
  | none => some field
  | some length =>
    if f.implicit then none
    else some { field with array := some ⟨f.packed, length.map visitExpr⟩ }

/-- /repo/internal/visitor/visitor.go:209-226 `VisitFieldAlignment` -/
def visitAlignment (e : CExpr) : Option Nat :=
  match visitExpr e with
  | .leaf .decimalLiteral text =>
    match parseUint8 text with
    | (value, true) => some value
    | (_, false) => none
  | _ => none

/-- /repo/internal/visitor/visitor.go:184-207 `VisitStructureFieldDefinition` -/
def visitField (f : CField) : Option AField := do
  let field ← visitFieldTypeId f.typeId
  let alignment ← match f.alignment with
    | none => some 0
    | some e => visitAlignment e
  return { field with
    optional := f.optional
    alignment := alignment
    initializer := f.initializer.map visitExpr
    optionalClause := f.optionalClause.map visitExpr
    constraint := f.constraint.map visitExpr }

/-- /repo/internal/parser/ZserioParser.g4 `choiceFieldDefinition` -/
structure CChoiceField where
  typeId : CFieldTypeId
  constraint : Option CExpr

/-- /repo/internal/visitor/visitor.go:296-298 `VisitChoiceFieldDefinition` -/
def visitChoiceField (f : CChoiceField) : Option AField := visitFieldTypeId f.typeId

/-! ## Declarations -/

/-- /repo/internal/parser/ZserioParser.g4 `parameterDefinition` -/
structure CParam where
  type : CTypeRef
  name : Ident

/-- /repo/internal/ast/model.go `Parameter` -/
structure AParam where
  name : List Char
  type : ATypeRef

/-- /repo/internal/visitor/visitor.go:240-245 `VisitParameterDefinition` -/
def visitParam (p : CParam) : AParam := ⟨p.name.text, visitTypeRef p.type⟩

/-- /repo/internal/parser/ZserioParser.g4 `functionDefinition` -/
structure CFunction where
  type : CTypeRef
  name : Ident
  result : CExpr

/-- /repo/internal/ast/model.go `Function` -/
structure AFunction where
  name : List Char
  returnType : ATypeRef
  result : AExpr

/-- /repo/internal/visitor/visitor.go:251-258 `VisitFunctionDefinition` -/
def visitFunction (f : CFunction) : AFunction := ⟨f.name.text, visitTypeRef f.type, visitExpr f.result⟩

/-- Name, template and type parameters of a declaration, /repo/internal/parser/ZserioParser.g4:88-90, 140-142, 169-171; none written is
the empty list. -/
structure CHead where
  name : Ident
  templateParams : List Ident
  typeParams : List CParam

/-- /repo/internal/parser/ZserioParser.g4 `choiceCases`; there is at least one case. -/
structure CChoiceCases where
  first : CExpr
  others : List CExpr
  field : Option CChoiceField

/-- /repo/internal/ast/choice.go:14-18 `ChoiceCase` -/
structure AChoiceCase where
  conditions : List AExpr
  field : Option AField

/-- An optional field, /repo/internal/visitor/visitor.go:282-284, 290-292 -/
def visitOptionField : Option CChoiceField → Option (Option AField)
  | none => some none
  | some f => (visitChoiceField f).map some

/-- /repo/internal/visitor/visitor.go:275-286 `VisitChoiceCases` -/
def visitChoiceCases (c : CChoiceCases) : Option AChoiceCase :=
  (visitOptionField c.field).map fun f => ⟨(c.first :: c.others).map visitExpr, f⟩

/-- /repo/internal/visitor/visitor.go:288-294 `VisitChoiceDefault`, for a choice that may have none. -/
def visitChoiceDefault : Option (Option CChoiceField) → Option (Option AChoiceCase)
  | none => some none
  | some f => (visitOptionField f).map fun f => some ⟨[], f⟩

/-- The marks of an enum item, /repo/internal/parser/ZserioParser.g4:193-195 -/
inductive EnumMark where
  | deprecated | removed
deriving DecidableEq

/-- /repo/internal/parser/ZserioParser.g4 `enumItem` -/
structure CEnumItem where
  mark : Option EnumMark
  name : Ident
  value : Option CExpr

/-- /repo/internal/parser/ZserioParser.g4 `bitmaskValue` -/
structure CBitmaskValue where
  name : Ident
  value : Option CExpr

/-- /repo/internal/ast/enum.go `EnumItem`, /repo/internal/ast/bitmask.go `BitmaskValue`: name and expression. -/
structure AItem where
  name : List Char
  value : Option AExpr

/-- /repo/internal/visitor/visitor.go:370-383 `VisitEnumItem` -/
def visitEnumItem (i : CEnumItem) : AItem := ⟨i.name.text, i.value.map visitExpr⟩

/-- /repo/internal/visitor/visitor.go:405-416 `VisitBitmaskValue` -/
def visitBitmaskValue (i : CBitmaskValue) : AItem := ⟨i.name.text, i.value.map visitExpr⟩

/-- /repo/internal/parser/ZserioParser.g4:225-227 `sqlTableFieldDefinition` -/
structure CSqlField where
  virtual : Bool
  type : CTypeInst
  name : Ident
  constraint : Option CExpr

/-- /repo/internal/parser/ZserioParser.g4:252-254 `sqlDatabaseFieldDefinition` -/
structure CSqlTableRef where
  type : CTypeInst
  name : Ident

/-- /repo/internal/parser/ZserioParser.g4:267-269 `serviceMethodDefinition` -/
structure CMethod where
  result : CTypeRef
  name : Ident
  argument : CTypeRef

/-- `PUBLISH | SUBSCRIBE`, /repo/internal/parser/ZserioParser.g4:287 -/
inductive TopicMode where
  | publish | subscribe
deriving DecidableEq

/-- /repo/internal/parser/ZserioParser.g4:282-291 `pubsubMessageDefinition`, `topicDefinition` -/
structure CMessage where
  mode : Option TopicMode
  topic : CExpr
  type : CTypeRef
  name : Ident

/-- The declarations that have no method in the visitor, /repo/internal/parser/ZserioParser.g4:66-76, 215-291 -/
inductive COther where
  | sqlTable (name : Ident) (templateParams : List Ident) (module : Option Ident) (fields : List CSqlField) (constraint : Option CExpr)
      (withoutRowId : Bool)
  | sqlDatabase (name : Ident) (fields : List CSqlTableRef)
  | service (name : Ident) (methods : List CMethod)
  | pubsub (name : Ident) (messages : List CMessage)
  | ruleGroup (name : Ident) (rules : List CExpr)

/-- The name of such a declaration. -/
def COther.name : COther → Ident
  | .sqlTable n .. | .sqlDatabase n _ | .service n _ | .pubsub n _ | .ruleGroup n _ => n

/-- /repo/internal/parser/ZserioParser.g4:33-57 `languageDirective`, `typeDeclaration`, `symbolDefinition` -/
inductive CDirective where
  | const (type : CTypeInst) (name : Ident) (value : CExpr)
  | subtype (type : CTypeRef) (name : Ident)
  | structure (head : CHead) (fields : List CField) (functions : List CFunction)
  | choice (head : CHead) (selector : CExpr) (cases : List CChoiceCases) (default : Option (Option CChoiceField))
      (functions : List CFunction)
  | union (head : CHead) (fields : List CChoiceField) (functions : List CFunction)
  | enum (type : CTypeInst) (name : Ident) (items : List CEnumItem)
  | bitmask (type : CTypeInst) (name : Ident) (values : List CBitmaskValue)
  | instantiate (type : CTypeRef) (name : Ident)
  | other (decl : COther)

/-- The maps of /repo/internal/ast/package.go:15-22. -/
inductive DeclKind where
  | const | subtype | instantiate | struct | enum | union | bitmask | choice
deriving DecidableEq

/-- What the maps of /repo/internal/ast/package.go:9-27 hold: `Const`, `Subtype`, `InstantiateType`, `Struct`, `Enum`, `Union`, `BitmaskType`, `Choice`. -/
inductive ADecl where
  | const (name : List Char) (type : ATypeRef) (value : AExpr)
  | subtype (name : List Char) (type : ATypeRef)
  | instantiate (name : List Char) (type : ATypeRef)
  | struct (name : List Char) (templateParams : List (List Char)) (typeParams : List AParam) (fields : List AField)
      (functions : List AFunction)
  | enum (name : List Char) (type : ATypeRef) (items : List AItem)
  | union (name : List Char) (templateParams : List (List Char)) (typeParams : List AParam) (fields : List AField)
      (functions : List AFunction)
  | bitmask (name : List Char) (type : ATypeRef) (values : List AItem)
  | choice (name : List Char) (templateParams : List (List Char)) (typeParams : List AParam) (selector : AExpr)
      (cases : List AChoiceCase) (default : Option AChoiceCase) (functions : List AFunction)

/-- The case of the type switch of /repo/internal/visitor/visitor.go:59-77. -/
def ADecl.kind : ADecl → DeclKind
  | .const .. => .const | .subtype .. => .subtype | .instantiate .. => .instantiate | .struct .. => .struct
  | .enum .. => .enum | .union .. => .union | .bitmask .. => .bitmask | .choice .. => .choice

/-- `n.Name` in /repo/internal/visitor/visitor.go:59-77. -/
def ADecl.name : ADecl → List Char
  | .const n _ _ => n | .subtype n _ => n | .instantiate n _ => n | .struct n _ _ _ _ => n
  | .enum n _ _ => n | .union n _ _ _ _ => n | .bitmask n _ _ => n | .choice n _ _ _ _ _ _ => n

/-- The loops of the form `for _, c := range ctx.AllX() { xs = append(xs, v.Visit(c)) }`, as in
/repo/internal/visitor/visitor.go:173-175, failing if one visit does. -/
def visitAll {α β : Type} (f : α → Option β) : List α → Option (List β)
  | [] => some []
  | a :: as => do
    let b ← f a
    let bs ← visitAll f as
    return b :: bs

/-- The visitor methods for declarations, /repo/internal/visitor/visitor.go:142-182, 300-368, 385-403.  The inner `none` is the
nil that comes back for declarations without a visitor method (the default method of ANTLR). -/
def visitDirective : CDirective → Option (Option ADecl)
  | .const type name value => some (some (.const name.text (visitTypeInst type) (visitExpr value)))
  | .subtype type name => some (some (.subtype name.text (visitTypeRef type)))
  | .structure head fields functions => do
    let fields ← visitAll visitField fields
    return some (.struct head.name.text (head.templateParams.map Ident.text) (head.typeParams.map visitParam) fields
      (functions.map visitFunction))
  | .choice head selector cases default functions => do
    let cases ← visitAll visitChoiceCases cases
    let default ← visitChoiceDefault default
    return some (.choice head.name.text (head.templateParams.map Ident.text) (head.typeParams.map visitParam)
      (visitExpr selector) cases default (functions.map visitFunction))
  | .union head fields functions => do
    let fields ← visitAll visitChoiceField fields
    return some (.union head.name.text (head.templateParams.map Ident.text) (head.typeParams.map visitParam) fields
      (functions.map visitFunction))
  | .enum type name items => some (some (.enum name.text (visitTypeInst type) (items.map visitEnumItem)))
  | .bitmask type name values => some (some (.bitmask name.text (visitTypeInst type) (values.map visitBitmaskValue)))
  | .instantiate type name => some (some (.instantiate name.text (visitTypeRef type)))
  | .other _ => some none

/-! ## Packages -/

/-- /repo/internal/parser/ZserioParser.g4 `importDeclaration`; `last` is the name at the end, or nothing for the star. -/
structure CImport where
  first : Ident
  middle : List Ident
  last : Option Ident

/-- The texts of the children of an import: `import`, the names with a dot after each, the last name or `*`, and `;`,
/repo/internal/parser/ZserioParser.g4:29-31. -/
def CImport.children (i : CImport) : List (List Char) :=
  "import".toList :: ((i.first :: i.middle).flatMap fun n => [n.text, ['.']]) ++
    [(match i.last with | some n => n.text | none => ['*']), [';']]

/-- /repo/internal/visitor/visitor.go:110-125 `VisitImportDeclaration`: package and type. -/
def visitImport (i : CImport) : List Char × List Char :=
  let parts := (i.children.drop 1).take (i.children.length - 3)
  let symbol := match i.last with
    | none => ['*']
    | some _ => parts.getLastD []
  (parts.dropLast.flatten, symbol)

/-- /repo/internal/parser/ZserioParser.g4 `packageDeclaration`; the package name may be missing. -/
structure CPackage where
  compatibility : Option (List Char)
  name : Option (Ident × List Ident)
  imports : List CImport
  directives : List CDirective

/-- /repo/internal/ast/package.go:9-27 `Package`; the eight maps are one list, in which a name occurs once per kind. -/
structure APackage where
  name : List Char
  imports : List (List Char × List Char)
  decls : List ADecl

/-- `pkg.Structs[n.Name] = n` and the like, /repo/internal/visitor/visitor.go:58-78. -/
def putDecl (decls : List ADecl) (d : ADecl) : List ADecl :=
  decls.filter (fun e => !(e.kind == d.kind && e.name == d.name)) ++ [d]

/-- `pkg.Structs[name]` and the like, as in /repo/internal/ast/package.go:63-104. -/
def APackage.get (p : APackage) (kind : DeclKind) (name : List Char) : Option ADecl :=
  p.decls.find? fun e => e.kind == kind && e.name == name

/-- The loop of /repo/internal/visitor/visitor.go:57-78. -/
def visitDirectives : List ADecl → List CDirective → Option (List ADecl)
  | decls, [] => some decls
  | decls, d :: ds => do
    match ← visitDirective d with
    | none => visitDirectives decls ds
    | some a => visitDirectives (putDecl decls a) ds

/-- /repo/internal/visitor/visitor.go:47-80 `VisitPackageDeclaration` with 82-91 `VisitPackageNameDefinition`; a missing name
is a panic (a type assertion on nil). -/
def visitPackage (p : CPackage) : Option APackage := do
  let (first, rest) ← p.name
  let decls ← visitDirectives [] p.directives
  return ⟨qualifiedText first rest, p.imports.map visitImport, decls⟩

/-- `m.Packages[pkg.Name] = pkg`, /repo/internal/model/model.go:101. -/
def putPackage (m : List APackage) (p : APackage) : List APackage :=
  m.filter (fun q => !(q.name == p.name)) ++ [p]

/-- /repo/internal/model/model.go:24-38, 90-103: the packages after all files have been parsed. -/
def loadPackages : List APackage → List CPackage → Option (List APackage)
  | m, [] => some m
  | m, c :: cs => do
    let p ← visitPackage c
    loadPackages (putPackage m p) cs

/-- `m.Packages[name]`, as in /repo/internal/model/transform.go -/
def getPackage (m : List APackage) (name : List Char) : Option APackage := m.find? fun p => p.name == name

/-- The order in which /repo/internal/ast/package.go:63-104 `CollectSymbols` enters the maps into `TypeScope`. -/
def scopeOrder : List DeclKind := [.subtype, .instantiate, .const, .struct, .enum, .union, .bitmask, .choice]

/-- `LocalSymbols.TypeScope[name]` after `CollectSymbols`, /repo/internal/ast/package.go:63-104: the last map that has the name wins. -/
def APackage.typeScope (p : APackage) (name : List Char) : Option ADecl :=
  scopeOrder.foldl (fun found kind => match p.get kind name with | some d => some d | none => found) none

end Verif
