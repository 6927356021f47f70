import Verif.Files

/-!
# Literals

/repo/internal/ast/expression.go:740-763 and 877-901 (literals of `Evaluate`), with the tokens of
/repo/internal/parser/ZserioLexer.g4:119-151, and `strconv.ParseInt`, `strconv.ParseFloat` of Go's standard library as far as
the texts of these tokens go.
-/

namespace Verif

/-- The two errors of package strconv. -/
inductive LitErr where
  | syntax | range
deriving DecidableEq

/-- The integer tokens: /repo/internal/parser/ZserioLexer.g4:130-151 -/
inductive LitKind where
  | binary | octal | decimal | hexadecimal
deriving DecidableEq

/-- The value of a digit in the loop of Go's `strconv.ParseUint`. -/
def digitVal (c : Char) : Option Nat :=
  if isNum c then some (c.toNat - '0'.toNat)
  else if isLow c then some (c.toNat - 'a'.toNat + 10)
  else if isCap c then some (c.toNat - 'A'.toNat + 10)
  else none

/-- The loop of Go's `strconv.ParseUint(s, base, 64)`. The two checks for overflow (before the multiplication and after the
addition) are one here: both say that the new value does not fit into 64 bits. Underscores do not occur in the tokens. -/
def parseDigits (base : Nat) : Nat → Text → Except LitErr Nat
  | n, [] => .ok n
  | n, c :: cs =>
    match digitVal c with
    | none => .error .syntax
    | some d =>
      if base ≤ d then .error .syntax
      else if 2 ^ 64 ≤ n * base + d then .error .range
      else parseDigits base (n * base + d) cs

/-- Go's `strconv.ParseUint(s, base, 64)`; base 0 takes the base from the prefix. -/
def parseUint (base : Nat) (s : Text) : Except LitErr Nat :=
  match s with
  | [] => .error .syntax
  | c :: cs =>
    if base ≠ 0 then parseDigits base 0 (c :: cs)
    else if c = '0' then
      match cs with
      | b :: d :: ds =>
        if b = 'b' ∨ b = 'B' then parseDigits 2 0 (d :: ds)
        else if b = 'o' ∨ b = 'O' then parseDigits 8 0 (d :: ds)
        else if b = 'x' ∨ b = 'X' then parseDigits 16 0 (d :: ds)
        else parseDigits 8 0 (b :: d :: ds)
      | cs => parseDigits 8 0 cs
    else parseDigits 10 0 (c :: cs)

/-- Go's `strconv.ParseInt(s, base, 64)` for texts without sign. -/
def parseInt (base : Nat) (s : Text) : Except LitErr Nat :=
  match parseUint base s with
  | .error e => .error e
  | .ok n => if 2 ^ 63 ≤ n then .error .range else .ok n

/-- /repo/internal/ast/expression.go:751-763 `evaluateBinaryLiteral` -/
def binaryLiteral (text : Text) : Except LitErr Nat :=
  if text.getLast? = some 'b' then parseInt 2 text.dropLast else .error .syntax

/-- /repo/internal/ast/expression.go:877-887, and `evaluateBinaryLiteral`: the value of an integer literal. -/
def intLiteral : LitKind → Text → Except LitErr Nat
  | .binary, s => binaryLiteral s
  | .octal, s => parseInt 0 s
  | .decimal, s => parseInt 10 s
  | .hexadecimal, s => parseInt 0 s

/-- /repo/internal/ast/expression.go:740-749 `evaluateStringLiteral`: the text without the quotes; `none` is the error. It is
written into the generated code with `%q`, which Go reads back as the same text
(/repo/internal/generator/expression.go:337). -/
def stringLiteral (text : Text) : Option Text :=
  if text.length < 2 then none else some (text.drop 1).dropLast

/-! ## Floating point -/

/-- The digits at the start of a text, and the rest. -/
def spanDigits : Text → Text × Text
  | [] => ([], [])
  | c :: cs => if isNum c then let r := spanDigits cs; (c :: r.1, r.2) else ([], c :: cs)

/-- The exponent part of Go's `readFloat` (strconv/atof.go): what is left of the text after it. An `e` without digits is a
failure. -/
def goExponent : Text → Option Text
  | e :: cs =>
    if e = 'e' ∨ e = 'E' then
      let cs := match cs with
        | s :: r => if s = '+' ∨ s = '-' then r else s :: r
        | [] => []
      let r := spanDigits cs
      if r.1 = [] then none else some r.2
    else some (e :: cs)
  | [] => some []

/-- Does Go's `strconv.ParseFloat` accept the syntax of a text (strconv/atof.go `readFloat` and the check that everything was
read)? For texts that begin with a digit or a point and not with `0x`, as those of the tokens do. -/
def parseFloatAccepts (s : Text) : Bool :=
  let whole := spanDigits s
  let frac := match whole.2 with
    | '.' :: r => spanDigits r
    | r => ([], r)
  if whole.1 = [] ∧ frac.1 = [] then false
  else goExponent frac.2 = some []

end Verif
