import Verif.Parser

/-!
# From text to tokens

Source: /repo/internal/parser/ZserioLexer.g4, from which ANTLR generates /repo/internal/parser/zserio_lexer.go.

A rule of the grammar is the set of the texts it matches.  ANTLR takes the longest text that some rule matches, and the first of
the rules that match it; a rule with `.*?` matches only the shortest of the texts that begin alike.  Texts on the channels `DOC`
and `HIDDEN` and skipped texts do not reach the parser and are left out.  Text in which no rule matches (an error is logged) is
`none`.
-/

namespace Verif

/-- /repo/internal/parser/ZserioLexer.g4:6-36 -/
def Punct.text : Punct → List Char
  | .and => ['&'] | .assign => ['='] | .bang => ['!'] | .colon => [':'] | .comma => [','] | .divide => ['/'] | .dot => ['.']
  | .eq => ['=', '='] | .ge => ['>', '='] | .gt => ['>'] | .lbrace => ['{'] | .lbracket => ['['] | .le => ['<', '=']
  | .logicalAnd => ['&', '&'] | .logicalOr => ['|', '|'] | .lparen => ['('] | .lshift => ['<', '<'] | .lt => ['<']
  | .minus => ['-'] | .modulo => ['%'] | .multiply => ['*'] | .ne => ['!', '='] | .or => ['|'] | .plus => ['+']
  | .questionmark => ['?'] | .rbrace => ['}'] | .rbracket => [']'] | .rparen => [')'] | .semicolon => [';'] | .tilde => ['~']
  | .xor => ['^']

/-- /repo/internal/parser/ZserioLexer.g4:39-107 -/
def Keyword.text : Keyword → List Char
  | .align => "align".toList | .bit => "bit".toList | .bool => "bool".toList | .bitmask => "bitmask".toList
  | .bytes => "bytes".toList | .case => "case".toList | .choice => "choice".toList | .const => "const".toList
  | .default => "default".toList | .deprecated => "@deprecated".toList | .enum => "enum".toList
  | .explicit => "explicit".toList | .extend => "extend".toList | .extern => "extern".toList
  | .float16 => "float16".toList | .float32 => "float32".toList | .float64 => "float64".toList
  | .function => "function".toList | .if => "if".toList | .implicit => "implicit".toList | .import => "import".toList
  | .index => "@index".toList | .instantiate => "instantiate".toList | .int => "int".toList | .int16 => "int16".toList
  | .int32 => "int32".toList | .int64 => "int64".toList | .int8 => "int8".toList | .isset => "isset".toList
  | .lengthof => "lengthof".toList | .numbits => "numbits".toList | .on => "on".toList | .optional => "optional".toList
  | .package => "package".toList | .packed => "packed".toList | .pubsub => "pubsub".toList | .publish => "publish".toList
  | .removed => "@removed".toList | .return => "return".toList | .rule => "rule".toList | .ruleGroup => "rule_group".toList
  | .service => "service".toList | .sql => "sql".toList | .sqlDatabase => "sql_database".toList
  | .sqlTable => "sql_table".toList | .sqlVirtual => "sql_virtual".toList | .sqlWithoutRowid => "sql_without_rowid".toList
  | .string => "string".toList | .struct => "struct".toList | .subscribe => "subscribe".toList | .subtype => "subtype".toList
  | .topic => "topic".toList | .uint16 => "uint16".toList | .uint32 => "uint32".toList | .uint64 => "uint64".toList
  | .uint8 => "uint8".toList | .union => "union".toList | .using => "using".toList | .valueof => "valueof".toList
  | .varint => "varint".toList | .varint16 => "varint16".toList | .varint32 => "varint32".toList
  | .varint64 => "varint64".toList | .varsize => "varsize".toList | .varuint => "varuint".toList
  | .varuint16 => "varuint16".toList | .varuint32 => "varuint32".toList | .varuint64 => "varuint64".toList
  | .compatVersion => "zserio_compatibility_version".toList

/-- The operators in the order of /repo/internal/parser/ZserioLexer.g4:6-36. -/
def allSyms : List Punct :=
  [.and, .assign, .bang, .colon, .comma, .divide, .dot, .eq, .ge, .gt, .lbrace, .lbracket, .le, .logicalAnd, .logicalOr,
    .lparen, .lshift, .lt, .minus, .modulo, .multiply, .ne, .or, .plus, .questionmark, .rbrace, .rbracket, .rparen,
    .semicolon, .tilde, .xor]

/-- The keywords in the order of /repo/internal/parser/ZserioLexer.g4:39-107. -/
def allKeywords : List Keyword :=
  [.align, .bit, .bool, .bitmask, .bytes, .case, .choice, .const, .default, .deprecated, .enum, .explicit, .extend, .extern,
    .float16, .float32, .float64, .function, .if, .implicit, .import, .index, .instantiate, .int, .int16, .int32, .int64,
    .int8, .isset, .lengthof, .numbits, .on, .optional, .package, .packed, .pubsub, .publish, .removed, .return, .rule,
    .ruleGroup, .service, .sql, .sqlDatabase, .sqlTable, .sqlVirtual, .sqlWithoutRowid, .string, .struct, .subscribe,
    .subtype, .topic, .uint16, .uint32, .uint64, .uint8, .union, .using, .valueof, .varint, .varint16, .varint32, .varint64,
    .varsize, .varuint, .varuint16, .varuint32, .varuint64, .compatVersion]

/-- `[\r\n\f]`, the ends of lines, /repo/internal/parser/ZserioLexer.g4:116, 122 -/
def isLineEnd (c : Char) : Bool := c == '\r' || c == '\n' || c == '\x0c'

/-- `WS`, /repo/internal/parser/ZserioLexer.g4:110 -/
def isBlank (c : Char) : Bool := isLineEnd c || c == '\t' || c == ' '

/-- `WS` as a rule: one such character. -/
def isSpaceText : List Char → Bool
  | [c] => isBlank c
  | _ => false

/-- `.*? '*/'`: the first `*/` is at the end, /repo/internal/parser/ZserioLexer.g4:113-115. -/
def endsAtClose : List Char → Bool
  | [] => false
  | '*' :: '/' :: rest => rest.isEmpty
  | _ :: rest => endsAtClose rest

/-- `DOC_COMMENT`, /repo/internal/parser/ZserioLexer.g4:113 -/
def isDocComment : List Char → Bool
  | '/' :: '*' :: '*' :: rest => endsAtClose rest
  | _ => false

/-- `MARKDOWN_COMMENT`, /repo/internal/parser/ZserioLexer.g4:114; the `'!'?` is part of what `.*?` matches as well. -/
def isMarkdownComment : List Char → Bool
  | '/' :: '*' :: '!' :: rest => endsAtClose rest
  | _ => false

/-- `BLOCK_COMMENT`, /repo/internal/parser/ZserioLexer.g4:115 -/
def isBlockComment : List Char → Bool
  | '/' :: '*' :: rest => endsAtClose rest
  | _ => false

/-- `LINE_COMMENT`, /repo/internal/parser/ZserioLexer.g4:116 -/
def isLineComment : List Char → Bool
  | '/' :: '/' :: rest => rest.all (fun c => !isLineEnd c)
  | _ => false

/-- `OCTAL_DIGIT`, /repo/internal/parser/ZserioLexer.g4:132 -/
def isOctDigit (c : Char) : Bool := '0' ≤ c && c ≤ '7'

/-- `HEX_DIGIT`, /repo/internal/parser/ZserioLexer.g4:136 -/
def isHexDig (c : Char) : Bool := c.isDigit || ('a' ≤ c && c ≤ 'f') || ('A' ≤ c && c ≤ 'F')

/-- The part of `STRING_LITERAL` behind the first quote, /repo/internal/parser/ZserioLexer.g4:121-128.  In `'\\0' [0-3]?
OCTAL_DIGIT OCTAL_DIGIT?` only one digit is looked at: the others are string characters by themselves. -/
def isStringTail : List Char → Bool
  | [] => false
  | ['"'] => true
  | '\\' :: 'u' :: a :: b :: c :: d :: rest => isHexDig a && isHexDig b && isHexDig c && isHexDig d && isStringTail rest
  | '\\' :: 'x' :: a :: b :: rest => isHexDig a && isHexDig b && isStringTail rest
  | '\\' :: '0' :: a :: rest => isOctDigit a && isStringTail rest
  | '\\' :: c :: rest => (c == '"' || c == '\\' || c == 'r' || c == 'n' || c == 'f' || c == 't') && isStringTail rest
  | c :: rest => c != '"' && c != '\\' && !isLineEnd c && isStringTail rest

/-- `STRING_LITERAL`, /repo/internal/parser/ZserioLexer.g4:128 -/
def isStringText : List Char → Bool
  | '"' :: rest => isStringTail rest
  | _ => false

/-- `BOOL_LITERAL`, /repo/internal/parser/ZserioLexer.g4:119 -/
def isBoolText (t : List Char) : Bool := t == "true".toList || t == "false".toList

/-- `BINARY_LITERAL`, /repo/internal/parser/ZserioLexer.g4:130 -/
def isBinaryText (t : List Char) : Bool :=
  match t.reverse with
  | c :: digits => (c == 'b' || c == 'B') && !digits.isEmpty && digits.all (fun d => d == '0' || d == '1')
  | [] => false

/-- `OCTAL_LITERAL`, /repo/internal/parser/ZserioLexer.g4:133 -/
def isOctalText : List Char → Bool
  | '0' :: digits => !digits.isEmpty && digits.all isOctDigit
  | _ => false

/-- `HEXADECIMAL_LITERAL`, /repo/internal/parser/ZserioLexer.g4:135-137 -/
def isHexText : List Char → Bool
  | '0' :: x :: digits => (x == 'x' || x == 'X') && !digits.isEmpty && digits.all isHexDig
  | _ => false

/-- `[0-9]+` -/
def isDigits (t : List Char) : Bool := !t.isEmpty && t.all Char.isDigit

/-- `FLOAT_EXPONENT`, /repo/internal/parser/ZserioLexer.g4:139 -/
def isExponent : List Char → Bool
  | c :: '+' :: digits => (c == 'e' || c == 'E') && isDigits digits
  | c :: '-' :: digits => (c == 'e' || c == 'E') && isDigits digits
  | c :: digits => (c == 'e' || c == 'E') && isDigits digits
  | [] => false

/-- `FLOAT_EXPONENT?` -/
def isOptExponent (t : List Char) : Bool := t.isEmpty || isExponent t

/-- `DOUBLE_LITERAL`, /repo/internal/parser/ZserioLexer.g4:141-145.  What follows digits begins with none, so that they are all
the digits there are. -/
def isDoubleText (t : List Char) : Bool :=
  let whole := t.takeWhile Char.isDigit
  match t.dropWhile Char.isDigit with
  | '.' :: rest =>
    (!whole.isEmpty || !(rest.takeWhile Char.isDigit).isEmpty) && isOptExponent (rest.dropWhile Char.isDigit)
  | rest => !whole.isEmpty && isExponent rest

/-- `FLOAT_LITERAL`, /repo/internal/parser/ZserioLexer.g4:146 -/
def isFloatText (t : List Char) : Bool :=
  match t.reverse with
  | c :: rest => (c == 'f' || c == 'F') && isDoubleText rest.reverse
  | [] => false

/-- `INVALID_STRING_LITERAL`, /repo/internal/parser/ZserioLexer.g4:157 -/
def isInvalidString : List Char → Bool
  | '"' :: rest => rest.all (· != '"') || (rest.getLast? == some '"' && rest.dropLast.all (· != '"'))
  | _ => false

/-- `INVALID_TOKEN`, /repo/internal/parser/ZserioLexer.g4:160 -/
def isInvalidToken (t : List Char) : Bool := !t.isEmpty && t.all isIdChar

/-- What a rule makes of the text it matches: a token of the default channel, or nothing the parser sees. -/
inductive Lexeme where
  | token (t : Token)
  | hidden
deriving DecidableEq

/-- A rule that makes a literal. -/
def literalRule (matches? : List Char → Bool) (kind : TokenKind) (t : List Char) : Option Lexeme :=
  if matches? t then some (.token (.literal kind t)) else none

/-- A rule that makes nothing. -/
def hiddenRule (matches? : List Char → Bool) (t : List Char) : Option Lexeme := if matches? t then some .hidden else none

/-- `ID`, /repo/internal/parser/ZserioLexer.g4:154 -/
def idRule (t : List Char) : Option Lexeme := if h : isIdText t = true then some (.token (.id ⟨t, h⟩)) else none

/-- The rules behind the keywords, /repo/internal/parser/ZserioLexer.g4:110-160, in their order. -/
def otherRules : List (List Char → Option Lexeme) :=
  [hiddenRule isSpaceText, hiddenRule isDocComment, hiddenRule isMarkdownComment, hiddenRule isBlockComment, hiddenRule isLineComment,
    literalRule isBoolText .bool, literalRule isStringText .string, literalRule isBinaryText .binary,
    literalRule isOctalText .octal, literalRule isHexText .hexadecimal, literalRule isDoubleText .double,
    literalRule isFloatText .float, literalRule isDecimalText .decimal, idRule,
    fun t => if isInvalidString t then some (.token (.invalidString t)) else none,
    fun t => if isInvalidToken t then some (.token (.invalidToken t)) else none]

/-- The first rule that matches the whole text, /repo/internal/parser/ZserioLexer.g4. -/
def recognise (t : List Char) : Option Lexeme :=
  match allSyms.find? (·.text == t) with
  | some s => some (.token (.sym s))
  | none =>
    match allKeywords.find? (·.text == t) with
    | some k => some (.token (.keyword k))
    | none => otherRules.findSome? (· t)

/-- The longest text at the beginning that a rule matches, among those of at most `n` characters, and what is behind it. -/
def longest (s : List Char) : Nat → Option (Lexeme × List Char)
  | 0 => none
  | n + 1 =>
    match recognise (s.take (n + 1)) with
    | some l => some (l, s.drop (n + 1))
    | none => longest s n

/-- The tokens of a text that reach the parser; the first argument is fuel. -/
def lexLoop : Nat → List Char → Option (List Token)
  | _, [] => some []
  | 0, _ :: _ => none
  | n + 1, c :: cs => do
    let (l, rest) ← longest (c :: cs) (cs.length + 1)
    let ts ← lexLoop n rest
    return match l with
      | .token t => t :: ts
      | .hidden => ts

/-- The tokens of a text that reach the parser. -/
def lex (s : List Char) : Option (List Token) := lexLoop s.length s

end Verif
