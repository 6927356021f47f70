import Verif.Lexer

/-!
# Comments of a schema

Source: /repo/internal/visitor/visitor.go:93-108 `getComment`, /repo/internal/parser/ZserioLexer.g4:110-116 (the channels), the places
where templates write comments (/repo/internal/generator/templates/struct.go.tmpl:4 and the like), and `CommonTokenStream` of ANTLR.

The token stream has all tokens, with their channels; the parser sees those of the default channel.
-/

namespace Verif

/-- A token of the token stream, with its channel, /repo/internal/parser/ZserioLexer.g4:3, 110-116; white space is skipped. -/
inductive StreamToken where
  | visible (t : Token)
  | doc (text : List Char)
  | hidden (text : List Char)
deriving DecidableEq

/-- /repo/internal/parser/ZserioLexer.g4:110-116: the channel of what a rule matches. -/
def toStream (l : Lexeme) (text : List Char) : Option StreamToken :=
  match l with
  | .token t => some (.visible t)
  | .hidden =>
    if isSpaceText text then none
    else if isDocComment text || isMarkdownComment text then some (.doc text)
    else some (.hidden text)

/-- The loop of the lexer, as `lexLoop`, with all tokens. -/
def streamLoop : Nat → List Char → Option (List StreamToken)
  | _, [] => some []
  | 0, _ :: _ => none
  | n + 1, c :: cs => do
    let (l, rest) ← longest (c :: cs) (cs.length + 1)
    let ts ← streamLoop n rest
    return (toStream l ((c :: cs).take ((c :: cs).length - rest.length))).toList ++ ts

/-- All tokens of a text. -/
def tokenStream (s : List Char) : Option (List StreamToken) := streamLoop s.length s

/-- Whether a token is on the default channel. -/
def StreamToken.isVisible : StreamToken → Bool
  | .visible _ => true
  | _ => false

/-- The text of a token on the channel HIDDEN. -/
def StreamToken.hiddenText : StreamToken → Option (List Char)
  | .hidden text => some text
  | _ => none

/-- `GetHiddenTokensToLeft` of ANTLR's `CommonTokenStream` for the channel HIDDEN, given the tokens in front of a token: those of
the channel behind the last token of the default channel. -/
def hiddenLeft (before : List StreamToken) : List (List Char) :=
  ((before.reverse.takeWhile (!·.isVisible)).reverse).filterMap StreamToken.hiddenText

/-- `strings.Join(texts, "\n")` -/
def joinByLine : List (List Char) → List Char
  | [] => []
  | [t] => t
  | t :: ts => t ++ '\n' :: joinByLine ts

/-- /repo/internal/visitor/visitor.go:93-108 `getComment` for the token behind `before`.  The tokens on the channel HIDDEN are block and
line comments, so that the loop never ends early. -/
def getComment (before : List StreamToken) : List Char := joinByLine (hiddenLeft before)

/-- The comment in the generated code: a line with the comment in front of the declaration, /repo/internal/generator/templates/
struct.go.tmpl:4-5, union.go.tmpl:16-17, choice.go.tmpl:5-6, enum.go.tmpl:6-7, 10-13, bitmask.go.tmpl:8-9, package.go.tmpl:5-6. -/
def commented (comment declaration : List Char) : List Char := comment ++ '\n' :: declaration

end Verif
