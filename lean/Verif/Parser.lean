import Verif.FrontEnd

/-!
# From tokens to the parse tree of an expression

Source: /repo/internal/parser/ZserioParser.g4:347-388 and the method ANTLR made of it,
/repo/internal/parser/zserio_parser.go:12825-13455 `expression(_p int)`.

Tokens on other channels than the default one (comments) do not reach the parser and are left out.  The method first parses what
an expression can begin with and then goes round a loop that appends operators, as long as the predicate
`Precpred(ctx, level)` (antlr: `level ≥ _p`) of the operator holds.  Whether the loop goes on is decided by ANTLR's
`AdaptivePredict`; here it goes on whenever the next tokens begin an operator whose predicate holds.  That is what ANTLR does
wherever no operator can follow the expression; the one place where one can, `bit<…>`, is in `Verif/DeclParser`.  Syntax errors (and
running out of fuel) are `none`.
-/

namespace Verif

/-! ## Tokens -/

/-- The operators of /repo/internal/parser/ZserioLexer.g4:6-36. -/
inductive Punct where
  | and | assign | bang | colon | comma | divide | dot | eq | ge | gt | lbrace | lbracket | le | logicalAnd | logicalOr
  | lparen | lshift | lt | minus | modulo | multiply | ne | or | plus | questionmark | rbrace | rbracket | rparen
  | semicolon | tilde | xor
deriving DecidableEq

/-- The keywords of /repo/internal/parser/ZserioLexer.g4:39-107, in their order. -/
inductive Keyword where
  | align | bit | bool | bitmask | bytes | case | choice | const | default | deprecated | enum | explicit | extend | extern
  | float16 | float32 | float64 | function | if | implicit | import | index | instantiate | int | int16 | int32 | int64 | int8
  | isset | lengthof | numbits | on | optional | package | packed | pubsub | publish | removed | return | rule | ruleGroup
  | service | sql | sqlDatabase | sqlTable | sqlVirtual | sqlWithoutRowid | string | struct | subscribe | subtype | topic
  | uint16 | uint32 | uint64 | uint8 | union | using | valueof | varint | varint16 | varint32 | varint64 | varsize | varuint
  | varuint16 | varuint32 | varuint64 | compatVersion
deriving DecidableEq

/-- The tokens of /repo/internal/parser/ZserioLexer.g4 on the default channel, with their texts where these are not fixed. -/
inductive Token where
  | sym (s : Punct)
  | keyword (k : Keyword)
  | literal (kind : TokenKind) (text : List Char)
  | id (name : Ident)
  | invalidString (text : List Char)
  | invalidToken (text : List Char)
deriving DecidableEq

/-! ## Operators -/

/-- The operators with two operands, /repo/internal/parser/ZserioParser.g4:359-368. -/
inductive BinOp where
  | mul (op : MulOp) | add (op : AddOp) | shift (op : ShiftOp) | rel (op : RelOp) | eq (op : EqOp)
  | bitAnd | bitXor | bitOr | logAnd | logOr
deriving DecidableEq

/-- What the loop of `expression` can append, /repo/internal/parser/zserio_parser.go:13071-13447. -/
inductive Cont where
  | binary (op : BinOp) | ternary | call | index | dot
deriving DecidableEq

/-- The argument of `Precpred`, /repo/internal/parser/zserio_parser.go:13077, 13109, 13141, 13187, 13219, 13251, 13272, 13293,
13314, 13335. -/
def BinOp.level : BinOp → Nat
  | .mul _ => 14 | .add _ => 13 | .shift _ => 12 | .rel _ => 11 | .eq _ => 10
  | .bitAnd => 9 | .bitXor => 8 | .bitOr => 7 | .logAnd => 6 | .logOr => 5

/-- The argument of `p.expression` for the second operand, /repo/internal/parser/zserio_parser.go:13100, 13132, 13178, 13210,
13242, 13263, 13284, 13305, 13326, 13347. -/
def BinOp.right : BinOp → Nat
  | .mul _ => 15 | .add _ => 14 | .shift _ => 13 | .rel _ => 12 | .eq _ => 11
  | .bitAnd => 10 | .bitXor => 9 | .bitOr => 8 | .logAnd => 7 | .logOr => 6

/-- The argument of `Precpred`, also /repo/internal/parser/zserio_parser.go:13356, 13385, 13406, 13431. -/
def Cont.level : Cont → Nat
  | .binary op => op.level | .ternary => 4 | .call => 22 | .index => 21 | .dot => 20

/-- The context object made, /repo/internal/parser/zserio_parser.go:13073, 13105, 13137, 13183, … -/
def BinOp.build : BinOp → CExpr → CExpr → CExpr
  | .mul op => .multiplicative op | .add op => .additive op | .shift op => .shift op | .rel op => .relational op
  | .eq op => .equality op | .bitAnd => .bitwiseAnd | .bitXor => .bitwiseXor | .bitOr => .bitwiseOr
  | .logAnd => .logicalAnd | .logOr => .logicalOr

/-- `AdaptivePredict` for decision 61, /repo/internal/parser/zserio_parser.go:13071: which alternative the next tokens begin, and
what is behind its operator.  Two `GT` are a shift: as an operand does not begin with `GT`, they cannot be anything else. -/
def nextCont : List Token → Option (Cont × List Token)
  | .sym .multiply :: ts => some (.binary (.mul .multiply), ts)
  | .sym .divide :: ts => some (.binary (.mul .divide), ts)
  | .sym .modulo :: ts => some (.binary (.mul .modulo), ts)
  | .sym .plus :: ts => some (.binary (.add .plus), ts)
  | .sym .minus :: ts => some (.binary (.add .minus), ts)
  | .sym .lshift :: ts => some (.binary (.shift .left), ts)
  | .sym .gt :: .sym .gt :: ts => some (.binary (.shift .right), ts)
  | .sym .gt :: ts => some (.binary (.rel .gt), ts)
  | .sym .lt :: ts => some (.binary (.rel .lt), ts)
  | .sym .le :: ts => some (.binary (.rel .le), ts)
  | .sym .ge :: ts => some (.binary (.rel .ge), ts)
  | .sym .eq :: ts => some (.binary (.eq .eq), ts)
  | .sym .ne :: ts => some (.binary (.eq .ne), ts)
  | .sym .and :: ts => some (.binary .bitAnd, ts)
  | .sym .xor :: ts => some (.binary .bitXor, ts)
  | .sym .or :: ts => some (.binary .bitOr, ts)
  | .sym .logicalAnd :: ts => some (.binary .logAnd, ts)
  | .sym .logicalOr :: ts => some (.binary .logOr, ts)
  | .sym .questionmark :: ts => some (.ternary, ts)
  | .sym .lparen :: ts => some (.call, ts)
  | .sym .lbracket :: ts => some (.index, ts)
  | .sym .dot :: ts => some (.dot, ts)
  | _ => none

/-- `p.Match(type)`, e.g. /repo/internal/parser/zserio_parser.go:13372 -/
def expect (s : Punct) : List Token → Option (List Token)
  | .sym s' :: ts => if s' = s then some ts else none
  | _ => none

/-- `p.Id()`, /repo/internal/parser/ZserioParser.g4:386-388 -/
def expectId : List Token → Option (Ident × List Token)
  | .id name :: ts => some (name, ts)
  | _ => none

mutual
/-- /repo/internal/parser/zserio_parser.go:12829-13455 `expression`; the first argument is fuel. -/
def expression : Nat → Nat → List Token → Option (CExpr × List Token)
  | 0, _, _ => none
  | n + 1, p, ts => do
    let (e, ts) ← primary n ts
    expressionLoop n p e ts

/-- What an expression begins with, /repo/internal/parser/zserio_parser.go:12865-13057. -/
def primary : Nat → List Token → Option (CExpr × List Token)
  | 0, _ => none
  | n + 1, .sym .lparen :: ts => do
    let (e, ts) ← expression n 0 ts
    let ts ← expect .rparen ts
    return (.parenthesized e, ts)
  | n + 1, .keyword .isset :: ts => do
    let ts ← expect .lparen ts
    let (a, ts) ← expression n 0 ts
    let ts ← expect .comma ts
    let (b, ts) ← expression n 0 ts
    let ts ← expect .rparen ts
    return (.isSet a b, ts)
  | n + 1, .keyword .lengthof :: ts => do
    let ts ← expect .lparen ts
    let (e, ts) ← expression n 0 ts
    let ts ← expect .rparen ts
    return (.lengthof e, ts)
  | n + 1, .keyword .valueof :: ts => do
    let ts ← expect .lparen ts
    let (e, ts) ← expression n 0 ts
    let ts ← expect .rparen ts
    return (.valueof e, ts)
  | n + 1, .keyword .numbits :: ts => do
    let ts ← expect .lparen ts
    let (e, ts) ← expression n 0 ts
    let ts ← expect .rparen ts
    return (.numbits e, ts)
  | n + 1, .sym .plus :: ts => do
    let (e, ts) ← expression n 15 ts
    return (.unary .plus e, ts)
  | n + 1, .sym .minus :: ts => do
    let (e, ts) ← expression n 15 ts
    return (.unary .minus e, ts)
  | n + 1, .sym .bang :: ts => do
    let (e, ts) ← expression n 15 ts
    return (.unary .bang e, ts)
  | n + 1, .sym .tilde :: ts => do
    let (e, ts) ← expression n 15 ts
    return (.unary .tilde e, ts)
  | _ + 1, .literal kind text :: ts => some (.literal kind text, ts)
  | _ + 1, .keyword .index :: ts => some (.index, ts)
  | _ + 1, .id name :: ts => some (.identifier name, ts)
  | _ + 1, _ => none

/-- The loop, /repo/internal/parser/zserio_parser.go:13060-13452. -/
def expressionLoop : Nat → Nat → CExpr → List Token → Option (CExpr × List Token)
  | 0, _, _, _ => none
  | n + 1, p, e, ts =>
    match nextCont ts with
    | none => some (e, ts)
    | some (c, rest) =>
      if p ≤ c.level then
        match c with
        | .binary op => do
          let (b, ts) ← expression n op.right rest
          expressionLoop n p (op.build e b) ts
        | .ternary => do
          let (b, ts) ← expression n 0 rest
          let ts ← expect .colon ts
          let (c, ts) ← expression n 4 ts
          expressionLoop n p (.ternary e b c) ts
        | .call => do
          let ts ← expect .rparen rest
          expressionLoop n p (.functionCall e) ts
        | .index => do
          let (i, ts) ← expression n 0 rest
          let ts ← expect .rbracket ts
          expressionLoop n p (.array e i) ts
        | .dot => do
          let (name, ts) ← expectId rest
          expressionLoop n p (.dot e name) ts
      else some (e, ts)
end

/-- /repo/internal/parser/zserio_parser.go:12825-12827 `Expression`: the expression that begins the tokens, and what is behind it. -/
def parseExpression (ts : List Token) : Option (CExpr × List Token) := expression (3 * ts.length + 1) 0 ts

end Verif
