import Mathlib.Data.List.Basic

/-!
# Generated names and files

Source: /repo/internal/generator/gen.go, /repo/internal/model/transform.go, /repo/internal/ast/enum.go and the package
github.com/iancoleman/strcase v0.3.0 (not in the sandbox, from its published source).

Go strings are lists of characters here, one per byte; identifiers of zserio are ASCII.
-/

namespace Verif

/-- A Go string, one character per byte. -/
abbrev Text := List Char

def isCap (c : Char) : Bool := 'A'.toNat ≤ c.toNat && c.toNat ≤ 'Z'.toNat
def isLow (c : Char) : Bool := 'a'.toNat ≤ c.toNat && c.toNat ≤ 'z'.toNat
def isNum (c : Char) : Bool := '0'.toNat ≤ c.toNat && c.toNat ≤ '9'.toNat
def toLow (c : Char) : Char := if isCap c then Char.ofNat (c.toNat + 32) else c
def toCap (c : Char) : Char := if isLow c then Char.ofNat (c.toNat - 32) else c

/-- `strings.Title` for identifiers (letters, digits, `_`), which are one word: /repo/internal/model/transform.go:39-137. -/
def title : Text → Text
  | [] => []
  | c :: cs => toCap c :: cs

/-- strcase `ToScreamingDelimited(s, '_', "", false)`, the loop; `prevCap` tells if the character before is a capital. -/
def snakeLoop (prevCap : Bool) : Text → Text
  | [] => []
  | [v] => [if v ∈ [' ', '_', '-', '.'] then '_' else toLow v]
  | v :: next :: rest =>
    let here :=
      if (isCap v && (isLow next || isNum next)) || (isLow v && (isCap next || isNum next)) || (isNum v && (isCap next || isLow next))
      then
        (if isCap v && isLow next && prevCap then ['_'] else []) ++ [toLow v] ++
          (if isLow v || isNum v || isNum next then ['_'] else [])
      else [if v ∈ [' ', '_', '-', '.'] then '_' else toLow v]
    here ++ snakeLoop (isCap v) (next :: rest)

/-- strcase `ToSnake`; the trimming of spaces has no effect on identifiers. -/
def toSnake (s : Text) : Text := snakeLoop false s

/-- strcase `toCamelInitCase(s, true)`, the loop. -/
def camelLoop (capNext prevIsCap : Bool) (first : Bool) : Text → Text
  | [] => []
  | v :: rest =>
    let v' := if capNext then toCap v else if first then toLow v else if prevIsCap && isCap v then toLow v else v
    if isCap v || isLow v then v' :: camelLoop false (isCap v) false rest
    else if isNum v then v' :: camelLoop true (isCap v) false rest
    else camelLoop (decide (v ∈ ['_', ' ', '-', '.'])) (isCap v) false rest

/-- strcase `ToCamel`, for strings that are no acronym known to it. -/
def toCamel (s : Text) : Text := camelLoop true false true s

/-- /repo/internal/ast/enum.go:66-68 `GoName` of an enum item. -/
def enumItemGoName (enumName itemName : Text) : Text := enumName ++ toCamel (itemName.map toLow)

/-! ## File paths -/

/-- `%d` of a natural number. -/
def decimal (n : Nat) : Text :=
  if n < 10 then [Char.ofNat (48 + n)] else decimal (n / 10) ++ [Char.ofNat (48 + n % 10)]
decreasing_by omega

/-- `path.Join(dir, fn)` for a clean directory and a plain file name. -/
def pathJoin (dir fn : Text) : Text :=
  if dir = [] then fn else if dir.getLast? = some '/' then dir ++ fn else dir ++ '/' :: fn

/-- `strings.LastIndex(s, c)` for a single byte; -1 if there is none. -/
def lastIndexOf (c : Char) (s : Text) : Int :=
  match s.reverse.findIdx? (· = c) with
  | none => -1
  | some i => (s.length : Int) - 1 - i

/-- /repo/internal/generator/gen.go:142-158: the path without its suffix.  `maxLen` is the configured maximum, where
`DefaultMaxPathLength` is 260; a negative maximum is the same as 0 here. -/
def basePath (dir fn : Text) (maxLen : Nat) : Except Unit Text :=
  if maxLen < dir.length + 5 + 2 then .error ()
  else
    let out := pathJoin dir fn
    if 0 < maxLen ∧ maxLen - 5 < out.length then
      let cut := out.take (maxLen - 5)
      if '_' ∈ cut ∧ lastIndexOf '/' cut < lastIndexOf '_' cut then .ok (cut.take (lastIndexOf '_' cut).toNat)
      else .ok cut
    else .ok out

/-- The global map `uniquePaths`. -/
abbrev PathCounts := Text → Option Nat

/-- /repo/internal/generator/gen.go:160-166: the path handed out for a base. -/
def issue (m : PathCounts) (base : Text) : Text × PathCounts :=
  match m base with
  | some count => (base ++ '_' :: decimal count ++ ".go".toList, Function.update m base (some (count + 1)))
  | none => (base ++ ".go".toList, Function.update m base (some 1))

/-- /repo/internal/generator/gen.go:137-167 `assembleUniqueFilePath` -/
def assembleUniqueFilePath (m : PathCounts) (dir fn : Text) (maxLen : Nat) : Except Unit (Text × PathCounts) := do
  let base ← basePath dir fn maxLen
  pure (issue m base)

/-- The paths handed out in one run of the program, which stops at the first error. -/
def assembleAll (maxLen : Nat) : PathCounts → List (Text × Text) → Except Unit (List Text)
  | _, [] => .ok []
  | m, (dir, fn) :: rest => do
    let (p, m') ← assembleUniqueFilePath m dir fn maxLen
    let ps ← assembleAll maxLen m' rest
    pure (p :: ps)

/-! ## Template instantiation -/

/-- A type argument of a template, /repo/internal/ast/type_reference.go:3-19: package, name, width of a bit field, and
the arguments if it is an instance of a template itself. -/
inductive TArg where
  | mk (pkg : String) (name : Text) (bits : Nat) (args : List TArg)

def TArg.name : TArg → Text
  | .mk _ n _ _ => n

/-- /repo/internal/model/transform.go:540-546 `generateInstantiatedName` -/
def generateInstantiatedName (template : Text) (args : List TArg) : Text :=
  title template ++ (args.map fun a => title a.name).flatten

/-- What a type name of a package stands for. -/
inductive InstDecl where
  /-- declared in the source -/
  | plain
  /-- instantiated from a template -/
  | inst (template : Text) (args : List TArg)

/-- The type names of a package (`pkgScope.Structs`). -/
abbrev DeclTable := Text → Option InstDecl

/-- /repo/internal/model/transform.go:548-583 `instantiateType` with 350-437 `instantiateStruct`: the name is generated, an
existing type of that name is used as it is, otherwise the instance is added.  The instantiation of nested arguments (lines
364-371) is left out; it does not change the name. -/
def instantiate (t : DeclTable) (template : Text) (args : List TArg) : Text × DeclTable :=
  let name := generateInstantiatedName template args
  match t name with
  | some _ => (name, t)
  | none => (name, Function.update t name (some (.inst template args)))

/-- A sequence of instantiations. -/
def instantiateAll : DeclTable → List (Text × List TArg) → List Text × DeclTable
  | t, [] => ([], t)
  | t, (tm, as) :: rest =>
    let r := instantiate t tm as
    let rs := instantiateAll r.2 rest
    (r.1 :: rs.1, rs.2)

end Verif
