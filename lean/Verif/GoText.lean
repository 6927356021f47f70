import Verif.Files

/-!
# The Go text of an expression

/repo/internal/generator/expression.go `ExpressionToGoString` and the functions it calls. The text is a list of Go tokens; the
blanks and line ends `Sprintf` puts in between separate them.
-/

namespace Verif

/-- The binary operators of Go that occur in generated expressions. -/
inductive GOp where
  | add | sub | mul | div | mod
  | shl | shr | band | bor | bxor
  | land | lor
  | lt | le | gt | ge | eq | ne
deriving DecidableEq

/-- Tokens of Go. A name is an identifier, a keyword of a type or a literal that is not a number; `other` are the tokens that
occur in statements only (`if`, braces, `=`, line ends). -/
inductive GTok where
  | name (t : Text)
  | num (n : Nat)
  | op (o : GOp)
  | bang
  | lparen | rparen | lbrack | rbrack | dot
  | other (t : Text)
deriving DecidableEq

/-- Expressions as /repo/internal/generator/expression.go sees them. `num` and `word` are expressions with a value
(`FullyResolved`, lines 330-343); `word` is also an identifier of a type, `@index` (397-399) or a constant of an enum or bitmask
(lines 86-94; an enum constant with a cast is not modelled), and `member` the identifier of a field, parameter or function
(IdentifierToGoString, 24-29). `sign` are unary plus and minus. A binary operator knows the casts of its operands: those of
lines 191-256 and of 276-286 are given, not computed. -/
inductive PEx where
  | num (z : Int)
  | word (t : Text)
  | member (t : Text)
  | paren (e : PEx)
  | call (e : PEx)
  | index (a b : PEx)
  | dot (e : PEx) (t : Text)
  | isset (a b : PEx)
  | lengthof (e : PEx)
  | valueof (e : PEx)
  | numbits (e : PEx)
  | bang (e : PEx)
  | tilde (e : PEx)
  | sign (minus : Bool) (e : PEx)
  | bin (o : GOp) (castA castB : Option Text) (a b : PEx)
  | tern (int : Bool) (c a b : PEx)

def vName : Text := "v".toList
def lenName : Text := "len".toList
def int64Name : Text := "int64".toList
def uint64Name : Text := "uint64".toList
def ztypeName : Text := "ztype".toList
def numBitsName : Text := "NumBits".toList
def unsupportedName : Text := "UNSUPPORTED".toList

/-- `%v` of an integer (/repo/internal/generator/expression.go:333): a minus sign is a token of its own. -/
def numToks (z : Int) : List GTok := if z < 0 then [.op .sub, .num z.natAbs] else [.num z.natAbs]

/-- `T(x)`: /repo/internal/generator/expression.go:251-256, 286 -/
def castToks (c : Option Text) (ts : List GTok) : List GTok :=
  match c with
  | none => ts
  | some t => .name t :: .lparen :: (ts ++ [.rparen])

/-- /repo/internal/generator/expression.go:329-410 `ExpressionToGoString`; `none` is a panic: a unary plus or minus is printed
with its missing second operand (365-366, 161). -/
def printGo : PEx → Option (List GTok)
  | .num z => some (numToks z)
  | .word t => some [.name t]
  | .member t => some [.name vName, .dot, .name t]
  | .paren e => (printGo e).map fun ts => .lparen :: (ts ++ [.rparen])
  | .call e => (printGo e).map fun ts => ts ++ [.lparen, .rparen]
  | .index a b => (printGo a).bind fun ts => (printGo b).map fun us => ts ++ .lbrack :: (us ++ [.rbrack])
  | .dot e t => (printGo e).map fun ts => ts ++ [.dot, .name t]
  | .isset a b => (printGo a).bind fun ts => (printGo b).map fun us => (ts ++ .op .band :: us) ++ .op .ne :: [.num 0]
  | .lengthof e => (printGo e).map fun ts =>
      [.lparen, .name int64Name, .rparen] ++ .lparen :: (([.name lenName] ++ .lparen :: (ts ++ [.rparen])) ++ [.rparen])
  | .valueof e => printGo e
  | .numbits e => (printGo e).map fun ts =>
      [.name ztypeName, .dot, .name numBitsName] ++ .lparen :: (([.name uint64Name] ++ .lparen :: (ts ++ [.rparen])) ++ [.rparen])
  | .bang e => (printGo e).map fun ts => .bang :: ts
  | .tilde _ => some [.name unsupportedName]
  | .sign _ _ => none
  | .bin o ca cb a b => (printGo a).bind fun ts => (printGo b).map fun us => castToks ca ts ++ .op o :: castToks cb us
  | .tern int c a b => (printGo c).bind fun ts => (printGo a).bind fun us => (printGo b).map fun vs =>
      let cast := if int then some "int".toList else none
      castToks cast vs ++ [.other "\n".toList, .other "if".toList] ++ ts ++ [.other "{".toList, .name "retVal".toList, .other "=".toList]
        ++ castToks cast us ++ [.other "}".toList]

end Verif
