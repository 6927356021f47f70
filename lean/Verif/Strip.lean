import Verif.Files

/-!
# Stripping of imports

Source: /repo/internal/generator/strip_imports.go.
-/

namespace Verif

/-- `strings.Index(s, sub)`: the text before the first occurrence and the text from there on. -/
def cutBefore (sub : Text) : Text → Option (Text × Text)
  | [] => if sub.isPrefixOf [] then some ([], []) else none
  | c :: s =>
    if sub.isPrefixOf (c :: s) then some ([], c :: s)
    else match cutBefore sub s with
      | none => none
      | some (a, b) => some (c :: a, b)

/-- `strings.Contains(s, sub)` -/
def containsText (sub s : Text) : Bool := (cutBefore sub s).isSome

/-- `strings.Split(s, "\n")` -/
def splitLines : Text → List Text
  | [] => [[]]
  | c :: s => if c = '\n' then [] :: splitLines s else match splitLines s with
    | [] => [[c]]
    | l :: ls => (c :: l) :: ls

/-- `strings.Join(ls, "\n")` -/
def joinLines : List Text → Text
  | [] => []
  | [l] => l
  | l :: m :: ls => l ++ '\n' :: joinLines (m :: ls)

/-- White space, for ASCII. -/
def isSpace (c : Char) : Bool := c = ' ' || c = '\t' || c = '\n' || c = '\r' || c.toNat = 11 || c.toNat = 12

/-- `strings.TrimSpace(s)`, for ASCII. -/
def trimSpace (s : Text) : Text := ((s.dropWhile isSpace).reverse.dropWhile isSpace).reverse

/-- `line[i:j]`, which panics unless `i ≤ j ≤ len(line)`. -/
def slice (line : Text) (i j : Nat) : Option Text := if i ≤ j ∧ j ≤ line.length then some ((line.take j).drop i) else none

/-- /repo/internal/generator/strip_imports.go:38-51: the name under which a line of the import section is used; `none` is a
panic. -/
def importName (line : Text) : Option Text :=
  if ' ' ∈ line then some (line.takeWhile (· ≠ ' '))
  else if '/' ∉ line then slice line 1 (line.length - 1)
  else slice line ((lastIndexOf '/' line).toNat + 1) (line.length - 1)

/-- /repo/internal/generator/strip_imports.go:33-55: whether a line is kept; `none` is a panic. -/
def keepImport (content line : Text) : Option Bool :=
  if (trimSpace line).length < 3 then some false
  else match importName (trimSpace line) with
    | none => none
    | some n => some (containsText (n ++ ['.']) content)

/-- The loop over the lines, /repo/internal/generator/strip_imports.go:32-55. -/
def usedImports (content : Text) : List Text → Option (List Text)
  | [] => some []
  | l :: ls => match keepImport content l with
    | none => none
    | some k => match usedImports content ls with
      | none => none
      | some r => some (if k then l :: r else r)

/-- /repo/internal/generator/strip_imports.go:9-59 `StripImports`; it returns no errors, `none` is a panic. -/
def stripImports (code : Text) : Option Text :=
  match cutBefore "import (".toList code with
  | none => some code
  | some (a, b) =>
    match cutBefore [')'] (b.drop 8) with
    | none => none
    | some (section_, content) =>
      match usedImports content (splitLines section_) with
      | none => none
      | some used => some (a ++ "import (".toList ++ joinLines used ++ content)

end Verif
