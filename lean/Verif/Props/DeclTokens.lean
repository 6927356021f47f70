import Verif.DeclParser
import Verif.Props.Parser

/-!
# What is written for declarations

The specification for C85: the tokens of each part of a package, as /repo/internal/parser/ZserioParser.g4 derives them, and which
trees can be told from all others by their tokens.
-/

namespace Verif

/-! ## Tokens -/

/-- Things with a comma before each of them. -/
def afterCommas {α : Type} (tok : α → List Token) (as : List α) : List Token := as.flatMap fun a => .sym .comma :: tok a

/-- An expression behind a token, or nothing. -/
def clauseTokens (start : Token) : Option CExpr → List Token
  | some e => start :: e.tokens
  | none => []

/-- A keyword that may be missing. -/
def flagTokens (k : Keyword) (b : Bool) : List Token := if b then [.keyword k] else []

/-- The keyword of a builtin type. -/
def BuiltinWord.keyword : BuiltinWord → Keyword
  | .int8 => .int8 | .int16 => .int16 | .int32 => .int32 | .int64 => .int64 | .uint8 => .uint8 | .uint16 => .uint16
  | .uint32 => .uint32 | .uint64 => .uint64 | .varint => .varint | .varint16 => .varint16 | .varint32 => .varint32
  | .varint64 => .varint64 | .varsize => .varsize | .varuint => .varuint | .varuint16 => .varuint16
  | .varuint32 => .varuint32 | .varuint64 => .varuint64 | .bit => .bit | .int => .int | .bool => .bool | .string => .string
  | .float16 => .float16 | .float32 => .float32 | .float64 => .float64 | .extern => .extern | .bytes => .bytes

/-- `uint8`, `bit:5`, … -/
def CBuiltin.tokens : CBuiltin → List Token
  | .word w => [.keyword w.keyword]
  | .fixed signed width => [.keyword (if signed then .int else .bit), .sym .colon, .literal .decimal width.text]

/-- Names with a dot before each of them. -/
def dotTokens (names : List Ident) : List Token := names.flatMap fun n => [.sym .dot, .id n]

mutual
/-- `a.b.T<A, B>` -/
def CTypeRef.tokens : CTypeRef → List Token
  | .builtin b => b.tokens
  | .named first rest [] => .id first :: dotTokens rest
  | .named first rest (t :: ts) =>
    .id first :: (dotTokens rest ++ .sym .lt :: (t.tokens ++ (moreTypeTokens ts ++ [.sym .gt])))

/-- Types with a comma before each of them. -/
def moreTypeTokens : List CTypeRef → List Token
  | [] => []
  | t :: ts => .sym .comma :: (t.tokens ++ moreTypeTokens ts)
end

/-- `explicit x` or an expression -/
def CTypeArg.tokens : CTypeArg → List Token
  | .explicit name => [.keyword .explicit, .id name]
  | .expression e => e.tokens

/-- `(a, b)` or `<n>` or nothing -/
def CArgs.tokens : CArgs → List Token
  | .none => []
  | .typeArgs first rest => .sym .lparen :: (first.tokens ++ (afterCommas CTypeArg.tokens rest ++ [.sym .rparen]))
  | .dynamicLength e => .sym .lt :: (e.tokens ++ [.sym .gt])

/-- A type with arguments. -/
def CTypeInst.tokens (t : CTypeInst) : List Token := t.type.tokens ++ t.args.tokens

/-- `[n]` or `[]` or nothing -/
def rangeTokens : Option (Option CExpr) → List Token
  | none => []
  | some none => [.sym .lbracket, .sym .rbracket]
  | some (some e) => .sym .lbracket :: (e.tokens ++ [.sym .rbracket])

/-- `packed implicit T(a) name[n]` -/
def CFieldTypeId.tokens (f : CFieldTypeId) : List Token :=
  flagTokens .packed f.packed ++ (flagTokens .implicit f.implicit ++ (f.type.tokens ++ .id f.name :: rangeTokens f.array))

/-- `align(n):` or nothing -/
def alignmentTokens : Option CExpr → List Token
  | some e => .keyword .align :: .sym .lparen :: (e.tokens ++ [.sym .rparen, .sym .colon])
  | none => []

/-- `offset:` or nothing -/
def offsetTokens : Option CExpr → List Token
  | some e => e.tokens ++ [.sym .colon]
  | none => []

/-- A field of a structure behind alignment and offset. -/
def CField.bodyTokens (f : CField) : List Token :=
  flagTokens .extend f.extend ++ (flagTokens .optional f.optional ++ (f.typeId.tokens ++
    (clauseTokens (.sym .assign) f.initializer ++ (clauseTokens (.keyword .if) f.optionalClause ++
      (clauseTokens (.sym .colon) f.constraint ++ [.sym .semicolon])))))

/-- `align(8): offset: optional T name[n] = i if c : d;` -/
def CField.tokens (f : CField) : List Token := alignmentTokens f.alignment ++ (offsetTokens f.offset ++ f.bodyTokens)

/-- A field of a choice or union. -/
def CChoiceField.tokens (f : CChoiceField) : List Token := f.typeId.tokens ++ clauseTokens (.sym .colon) f.constraint

/-- A field or nothing, and the semicolon. -/
def optFieldTokens : Option CChoiceField → List Token
  | some f => f.tokens ++ [.sym .semicolon]
  | none => [.sym .semicolon]

/-- `case e:` -/
def caseTokens (e : CExpr) : List Token := .keyword .case :: (e.tokens ++ [.sym .colon])

/-- `case a: case b: T name;` -/
def CChoiceCases.tokens (c : CChoiceCases) : List Token := (c.first :: c.others).flatMap caseTokens ++ optFieldTokens c.field

/-- `default: T name;` or nothing -/
def defaultTokens : Option (Option CChoiceField) → List Token
  | some f => .keyword .default :: .sym .colon :: optFieldTokens f
  | none => []

/-- `T name` -/
def CParam.tokens (p : CParam) : List Token := p.type.tokens ++ [.id p.name]

/-- `function T name() { return e; }` -/
def CFunction.tokens (f : CFunction) : List Token :=
  .keyword .function :: (f.type.tokens ++ [.id f.name, .sym .lparen, .sym .rparen, .sym .lbrace, .keyword .return] ++
    f.result.tokens ++ [.sym .semicolon, .sym .rbrace])

/-- `<A, B>` or nothing -/
def templateParamTokens : List Ident → List Token
  | [] => []
  | n :: ns => .sym .lt :: .id n :: (afterCommas (fun n => [.id n]) ns ++ [.sym .gt])

/-- `(T a, U b)` or nothing -/
def typeParamTokens : List CParam → List Token
  | [] => []
  | p :: ps => .sym .lparen :: (p.tokens ++ (afterCommas CParam.tokens ps ++ [.sym .rparen]))

/-- `Name<A>(T a)` -/
def CHead.tokens (h : CHead) : List Token := .id h.name :: (templateParamTokens h.templateParams ++ typeParamTokens h.typeParams)

/-- `@deprecated`, `@removed` or nothing -/
def markTokens : Option EnumMark → List Token
  | some .deprecated => [.keyword .deprecated]
  | some .removed => [.keyword .removed]
  | none => []

/-- `@deprecated NAME = e` -/
def CEnumItem.tokens (i : CEnumItem) : List Token :=
  markTokens i.mark ++ .id i.name :: clauseTokens (.sym .assign) i.value

/-- `NAME = e` -/
def CBitmaskValue.tokens (i : CBitmaskValue) : List Token := .id i.name :: clauseTokens (.sym .assign) i.value

/-- `{ A, B };` or `{ A, B, };` -/
inductive ItemsWritten {α : Type} (tok : α → List Token) : List α → List Token → Prop
  | plain (a : α) (as : List α) :
    ItemsWritten tok (a :: as) (.sym .lbrace :: (tok a ++ (afterCommas tok as ++ [.sym .rbrace, .sym .semicolon])))
  | comma (a : α) (as : List α) :
    ItemsWritten tok (a :: as) (.sym .lbrace :: (tok a ++ (afterCommas tok as ++ [.sym .comma, .sym .rbrace, .sym .semicolon])))

/-- The functions and the end of a declaration. -/
def endTokens (functions : List CFunction) : List Token :=
  functions.flatMap CFunction.tokens ++ [.sym .rbrace, .sym .semicolon]

/-- `sql_virtual T a sql "...";` -/
def CSqlField.tokens (f : CSqlField) : List Token :=
  flagTokens .sqlVirtual f.virtual ++ (f.type.tokens ++ .id f.name :: (clauseTokens (.keyword .sql) f.constraint ++ [.sym .semicolon]))

/-- `T a;` -/
def CSqlTableRef.tokens (f : CSqlTableRef) : List Token := f.type.tokens ++ [.id f.name, .sym .semicolon]

/-- `R f(A);` -/
def CMethod.tokens (m : CMethod) : List Token :=
  m.result.tokens ++ .id m.name :: .sym .lparen :: (m.argument.tokens ++ [.sym .rparen, .sym .semicolon])

/-- `publish`, `subscribe` or nothing -/
def modeTokens : Option TopicMode → List Token
  | some .publish => [.keyword .publish]
  | some .subscribe => [.keyword .subscribe]
  | none => []

/-- `publish topic("a/b") T a;` -/
def CMessage.tokens (m : CMessage) : List Token :=
  modeTokens m.mode ++ .keyword .topic :: .sym .lparen :: (m.topic.tokens ++ .sym .rparen :: (m.type.tokens ++ [.id m.name, .sym .semicolon]))

/-- `using m` or nothing -/
def usingTokens : Option Ident → List Token
  | some n => [.keyword .using, .id n]
  | none => []

/-- `sql "...";` or nothing -/
def tableConstraintTokens : Option CExpr → List Token
  | some e => .keyword .sql :: (e.tokens ++ [.sym .semicolon])
  | none => []

/-- `sql_table T<P> using m { ... sql "..."; sql_without_rowid; };`, `sql_database D { ... };`, `service S { ... };`, `pubsub P { ... };`,
`rule_group G { rule "..."; };` -/
def COther.tokens : COther → List Token
  | .sqlTable name params module fields constraint withoutRowId =>
    .keyword .sqlTable :: .id name :: (templateParamTokens params ++ (usingTokens module ++ .sym .lbrace :: (fields.flatMap CSqlField.tokens ++
      (tableConstraintTokens constraint ++ ((if withoutRowId then [.keyword .sqlWithoutRowid, .sym .semicolon] else []) ++ [.sym .rbrace, .sym .semicolon])))))
  | .sqlDatabase name fields =>
    .keyword .sqlDatabase :: .id name :: .sym .lbrace :: (fields.flatMap CSqlTableRef.tokens ++ [.sym .rbrace, .sym .semicolon])
  | .service name methods => .keyword .service :: .id name :: .sym .lbrace :: (methods.flatMap CMethod.tokens ++ [.sym .rbrace, .sym .semicolon])
  | .pubsub name messages => .keyword .pubsub :: .id name :: .sym .lbrace :: (messages.flatMap CMessage.tokens ++ [.sym .rbrace, .sym .semicolon])
  | .ruleGroup name rules => .keyword .ruleGroup :: .id name :: .sym .lbrace ::
      (rules.flatMap (fun e => .keyword .rule :: (e.tokens ++ [.sym .semicolon])) ++ [.sym .rbrace, .sym .semicolon])

/-- A database has a table, /repo/internal/parser/ZserioParser.g4:244-250; the other declarations may be empty. -/
def COther.Complete : COther → Prop
  | .sqlDatabase _ fields => fields ≠ []
  | _ => True

/-- A declaration can be written with these tokens: there is a choice only with the last comma of an enum or bitmask. -/
inductive DirectiveWritten : CDirective → List Token → Prop
  | const (type : CTypeInst) (name : Ident) (value : CExpr) :
    DirectiveWritten (.const type name value) (.keyword .const :: (type.tokens ++ .id name :: .sym .assign :: (value.tokens ++ [.sym .semicolon])))
  | subtype (type : CTypeRef) (name : Ident) :
    DirectiveWritten (.subtype type name) (.keyword .subtype :: (type.tokens ++ [.id name, .sym .semicolon]))
  | instantiate (type : CTypeRef) (name : Ident) :
    DirectiveWritten (.instantiate type name) (.keyword .instantiate :: (type.tokens ++ [.id name, .sym .semicolon]))
  | structure (head : CHead) (fields : List CField) (functions : List CFunction) :
    DirectiveWritten (.structure head fields functions)
      (.keyword .struct :: (head.tokens ++ .sym .lbrace :: (fields.flatMap CField.tokens ++ endTokens functions)))
  | union (head : CHead) (fields : List CChoiceField) (functions : List CFunction) :
    DirectiveWritten (.union head fields functions)
      (.keyword .union :: (head.tokens ++ .sym .lbrace :: (fields.flatMap (fun f => f.tokens ++ [.sym .semicolon]) ++ endTokens functions)))
  | choice (head : CHead) (selector : CExpr) (cases : List CChoiceCases) (dflt : Option (Option CChoiceField))
      (functions : List CFunction) (hp : head.typeParams ≠ []) :
    DirectiveWritten (.choice head selector cases dflt functions)
      (.keyword .choice :: (head.tokens ++ .keyword .on :: (selector.tokens ++ .sym .lbrace ::
        (cases.flatMap CChoiceCases.tokens ++ (defaultTokens dflt ++ endTokens functions)))))
  | enum (type : CTypeInst) (name : Ident) (items : List CEnumItem) (ts : List Token) (h : ItemsWritten CEnumItem.tokens items ts) :
    DirectiveWritten (.enum type name items) (.keyword .enum :: (type.tokens ++ .id name :: ts))
  | bitmask (type : CTypeInst) (name : Ident) (values : List CBitmaskValue) (ts : List Token)
      (h : ItemsWritten CBitmaskValue.tokens values ts) :
    DirectiveWritten (.bitmask type name values) (.keyword .bitmask :: (type.tokens ++ .id name :: ts))
  | other (d : COther) (hd : d.Complete) : DirectiveWritten (.other d) d.tokens

/-- `import a.b.*;`, `import a.b.C;` -/
def CImport.tokens (i : CImport) : List Token :=
  .keyword .import :: .id i.first :: .sym .dot :: (i.middle.flatMap (fun n => [.id n, .sym .dot]) ++
    [(match i.last with | some n => .id n | none => .sym .multiply), .sym .semicolon])

/-- `zserio_compatibility_version("2.4.2");` or nothing -/
def compatibilityTokens : Option (List Char) → List Token
  | some text => [.keyword .compatVersion, .sym .lparen, .literal .string text, .sym .rparen, .sym .semicolon]
  | none => []

/-- `package a.b;` or nothing -/
def packageNameTokens : Option (Ident × List Ident) → List Token
  | some (first, rest) => .keyword .package :: .id first :: (dotTokens rest ++ [.sym .semicolon])
  | none => []

/-- A package can be written with these tokens. -/
def PackageWritten (p : CPackage) (ts : List Token) : Prop :=
  ∃ tss, List.Forall₂ DirectiveWritten p.directives tss ∧
    ts = compatibilityTokens p.compatibility ++ (packageNameTokens p.name ++ (p.imports.flatMap CImport.tokens ++ tss.flatten))

/-! ## Which trees are read -/

/-- An optional expression is grouped by the strength of its operators. -/
def OptGrouped : Option CExpr → Prop
  | some e => e.Grouped
  | none => True

/-- The expressions of arguments are grouped. -/
def CTypeArg.Grouped : CTypeArg → Prop
  | .explicit _ => True
  | .expression e => e.Grouped

/-- The expressions of arguments are grouped.  Lengths (`bit<n>`) are given to builtin types only: behind a name, `<n>` can be
template arguments. -/
def CTypeInst.Readable (t : CTypeInst) : Prop :=
  match t.args with
  | .none => True
  | .typeArgs first rest => ∀ a ∈ first :: rest, a.Grouped
  | .dynamicLength e => e.Grouped ∧ ∃ b, t.type = .builtin b

/-- Type and range of a field. -/
def CFieldTypeId.Readable (f : CFieldTypeId) : Prop := f.type.Readable ∧ ∀ e, f.array = some (some e) → e.Grouped

/-- All expressions of a field are grouped, and a field without an offset cannot be taken for one with an offset:
`A<B> c : D<E> f;` can be a field `c` with the constraint `(D < E) > f`, or a field `f` with the offset `(A < B) > c`. -/
def CField.Readable (f : CField) : Prop :=
  OptGrouped f.alignment ∧ OptGrouped f.offset ∧ f.typeId.Readable ∧ OptGrouped f.initializer ∧ OptGrouped f.optionalClause ∧
    OptGrouped f.constraint ∧
    (f.offset = none → ∀ (e : CExpr) (g : CField), f.bodyTokens ≠ e.tokens ++ .sym .colon :: g.bodyTokens)

/-- A field of a choice or union. -/
def CChoiceField.Readable (f : CChoiceField) : Prop := f.typeId.Readable ∧ OptGrouped f.constraint

/-- The cases of a choice. -/
def CChoiceCases.Readable (c : CChoiceCases) : Prop := (∀ e ∈ c.first :: c.others, e.Grouped) ∧ ∀ f, c.field = some f → f.Readable

/-- All expressions of a declaration are grouped; choices have parameters. -/
def CDirective.Readable : CDirective → Prop
  | .const type _ value => type.Readable ∧ value.Grouped
  | .subtype .. => True
  | .instantiate .. => True
  | .structure _ fields functions => (∀ f ∈ fields, f.Readable) ∧ ∀ f ∈ functions, f.result.Grouped
  | .choice head selector cases dflt functions =>
    head.typeParams ≠ [] ∧ selector.Grouped ∧ (∀ c ∈ cases, c.Readable) ∧ (∀ f, dflt = some (some f) → f.Readable) ∧
      ∀ f ∈ functions, f.result.Grouped
  | .union _ fields functions => (∀ f ∈ fields, f.Readable) ∧ ∀ f ∈ functions, f.result.Grouped
  | .enum type _ items => type.Readable ∧ ∀ i ∈ items, OptGrouped i.value
  | .bitmask type _ values => type.Readable ∧ ∀ i ∈ values, OptGrouped i.value
  | .other (.sqlTable _ _ _ fields constraint _) => (∀ f ∈ fields, f.type.Readable ∧ OptGrouped f.constraint) ∧ OptGrouped constraint
  | .other (.sqlDatabase _ fields) => fields ≠ [] ∧ ∀ f ∈ fields, f.type.Readable
  | .other (.service ..) => True
  | .other (.pubsub _ messages) => ∀ m ∈ messages, m.topic.Grouped
  | .other (.ruleGroup _ rules) => ∀ e ∈ rules, e.Grouped

end Verif
