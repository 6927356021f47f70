import Mathlib.Logic.Relation
import Mathlib.Data.List.Nodup
import Mathlib.Data.List.Perm.Subperm

/-!
# Packages, imports and the resolution of type references

/repo/internal/generator/funcs.go, /repo/internal/ast/package.go, /repo/internal/model/transform.go

Packages are identified by their names: /repo/internal/model/model.go:87-100 keeps them in a map by name.
-/

namespace Verif

/-- The names of the packages in `ImportedPackages` (/repo/internal/ast/package.go:25), for each package. -/
abbrev ImportGraph := String → List String

/-! ## GoGetAllImports -/

/-- The variables of /repo/internal/generator/funcs.go:33-35. -/
structure ImportState where
  imports : List String := []
  todo : List String := []
  processed : List String := []

/-- /repo/internal/generator/funcs.go:38-46: the inner loop. -/
def addImports : List String → ImportState → ImportState
  | [], s => s
  | p :: ps, s =>
    if p ∈ s.processed then addImports ps s
    else addImports ps ⟨s.imports ++ [p], s.todo ++ [p], p :: s.processed⟩

/-- /repo/internal/generator/funcs.go:37-53: the outer loop, at most as many times as the first argument says; none if that
is not enough. -/
def importLoop (g : ImportGraph) : Nat → String → ImportState → Option (List String)
  | 0, _, _ => none
  | n + 1, pkg, s =>
    let s := addImports (g pkg) s
    match s.todo.getLast? with
    | none => some s.imports
    | some q => importLoop g n q { s with todo := s.todo.dropLast }

/-- /repo/internal/generator/funcs.go:32-54 `GoGetAllImports` -/
def getAllImports (g : ImportGraph) (fuel : Nat) (pkg : String) : Option (List String) := importLoop g fuel pkg {}

/-! ## Looking for a package or a symbol -/

/-- The loop `for _, pkg := range …` that returns the first success (/repo/internal/ast/package.go:292-296, 472-477); none
if a call does not return. -/
def firstOk {α : Type} (f : String → Option (Except Unit α)) : List String → Option (Except Unit α)
  | [] => some (.error ())
  | p :: ps => match f p with
    | none => none
    | some (.ok x) => some (.ok x)
    | some (.error _) => firstOk f ps

/-- /repo/internal/ast/package.go:459-479 `GetImportedScope`, with calls nested at most `fuel` deep; the package found is
represented by its name. -/
def getImportedScope (g : ImportGraph) : Nat → String → String → Option (Except Unit String)
  | 0, _, _ => none
  | n + 1, p, name =>
    if name = "" then some (.error ())
    else if name = p then some (.ok p)
    else if name ∈ g p then some (.ok name)
    else firstOk (fun q => getImportedScope g n q name) (g p)

/-- /repo/internal/ast/package.go:285-298 `GetOtherType` for one name; `declares` tells which packages have it in their
`OtherScope`.  The result is the package the symbol was found in. -/
def getOtherType (g : ImportGraph) (declares : String → Bool) : Nat → String → Option (Except Unit String)
  | 0, _ => none
  | n + 1, p =>
    if declares p then some (.ok p)
    else firstOk (fun q => getOtherType g declares n q) (g p)

/-! ## Models -/

/-- /repo/internal/ast/model.go:3-6 `Import` -/
structure Import where
  pkg : String
  type : String
deriving DecidableEq

/-- /repo/internal/ast/package.go:9-27 `Package`, as far as the resolution of types goes; `types` are the keys of
`LocalSymbols.TypeScope`. -/
structure Pkg where
  name : String
  imports : List Import
  types : List String
deriving DecidableEq

/-- /repo/internal/model/model.go:14-16: the packages; the map is a list with distinct names. -/
abbrev PkgModel := List Pkg

/-- `m.Packages[name]` -/
def PkgModel.get (m : PkgModel) (name : String) : Option Pkg := m.find? fun p => p.name = name

/-- /repo/internal/ast/package.go:56-59 `HasType` -/
def Pkg.hasType (p : Pkg) (name : String) : Bool := p.types.contains name

/-- /repo/internal/model/transform.go:585-598 `ResolveImports` for one package: the names of `ImportedPackages`. -/
def resolveImports (m : PkgModel) : List Import → Except String (List String)
  | [] => .ok []
  | i :: is => match m.get i.pkg with
    | none => .error ("unknown package " ++ i.pkg)
    | some q => do
      let rest ← resolveImports m is
      pure (if i.type = "*" then q.name :: rest else rest)

/-- The import graph after `ResolveImports`. -/
def PkgModel.graph (m : PkgModel) : ImportGraph := fun name =>
  match m.get name with
  | none => []
  | some p => match resolveImports m p.imports with
    | .ok l => l
    | .error _ => []

/-- /repo/internal/ast/type_reference.go:3-19 `TypeReference`, as far as names go. -/
inductive TRef where
  | mk (builtin : Bool) (pkg : String) (name : String) (targs : List TRef)

/-- /repo/internal/model/transform.go:836-845: the loop over the imports; the result is the new value of `tr.Package`. -/
def findImport (m : PkgModel) (name : String) : List Import → Except String String
  | [] => .ok ""
  | i :: is => match m.get i.pkg with
    | none => .error ("unknown package " ++ i.pkg)
    | some q => if (i.type = "*" ∨ i.type = name) ∧ q.hasType name then .ok i.pkg else findImport m name is

/-- /repo/internal/model/transform.go:824-851: the package of a reference that is not builtin. -/
def resolvePackage (m : PkgModel) (p : Pkg) (pkg name : String) : Except String String := do
  let r ← if pkg ≠ "" then
      match m.get pkg with
      | none => .error ("unknown package " ++ pkg)
      | some q => if q.hasType name then .ok pkg else .error ("unknown type " ++ name)
    else if p.hasType name then .ok p.name
    else findImport m name p.imports
  if r = "" then .error ("unknown type " ++ name) else .ok r

mutual
/-- /repo/internal/model/transform.go:819-862 `resolveTypeReference`; the reference is changed in place there, and returned
here. -/
def resolveTypeReference (m : PkgModel) (p : Pkg) (ignore : List String) : TRef → Except String TRef
  | .mk true pkg name targs => .ok (.mk true pkg name targs)
  | .mk false pkg name targs => do
    let r ← resolvePackage m p pkg name
    let targs ← resolveTemplateArguments m p ignore targs
    pure (.mk false r name targs)

/-- /repo/internal/model/transform.go:853-859 -/
def resolveTemplateArguments (m : PkgModel) (p : Pkg) (ignore : List String) : List TRef → Except String (List TRef)
  | [] => .ok []
  | .mk b q n as :: ts => do
    let t ← if n ∈ ignore then .ok (.mk b q n as) else resolveTypeReference m p ignore (.mk b q n as)
    let ts ← resolveTemplateArguments m p ignore ts
    pure (t :: ts)
end

end Verif
