import Verif.FrontEnd
import Verif.Imports
import Verif.Files

/-!
# Resolution of the type references of a schema

Source: /repo/internal/model/transform.go:584-862 and /repo/internal/ast/package.go:54-131.

`Verif.Imports` models the resolution of one reference; here it is applied to the syntax tree, declaration by declaration.
References are changed in place by the code and returned here.
-/

namespace Verif

/-- `tr.Package`, /repo/internal/ast/type_reference.go:3-19 -/
def ATypeRef.pkg : ATypeRef → List Char
  | .mk _ pkg _ _ _ _ _ => pkg

/-- `tr.Name`, /repo/internal/ast/type_reference.go:3-19 -/
def ATypeRef.name : ATypeRef → List Char
  | .mk _ _ name _ _ _ _ => name

/-- `tr.IsBuiltin`, /repo/internal/ast/type_reference.go:3-19 -/
def ATypeRef.isBuiltin : ATypeRef → Bool
  | .mk b _ _ _ _ _ _ => b

/-- A package as resolution sees it.  `HasType` looks in `LocalSymbols.TypeScope`, which `CollectSymbols` fills with the names
of all declarations, /repo/internal/ast/package.go:54-108. -/
def APackage.toPkg (p : APackage) : Pkg :=
  ⟨String.ofList p.name, p.imports.map fun i => ⟨String.ofList i.1, String.ofList i.2⟩, p.decls.map fun d => String.ofList d.name⟩

mutual
/-- /repo/internal/model/transform.go:819-862 `resolveTypeReference`, with all that a reference carries.  The errors are not
told apart. -/
def resolveRef (m : PkgModel) (p : Pkg) (ignore : List (List Char)) : ATypeRef → Option ATypeRef
  | .mk true pkg name bits targs args length => some (.mk true pkg name bits targs args length)
  | .mk false pkg name bits targs args length => do
    let pkg' ← (resolvePackage m p (String.ofList pkg) (String.ofList name)).toOption
    let targs' ← resolveRefs m p ignore targs
    return .mk false pkg'.toList name bits targs' args length

/-- /repo/internal/model/transform.go:853-859: the loop over the template arguments. -/
def resolveRefs (m : PkgModel) (p : Pkg) (ignore : List (List Char)) : List ATypeRef → Option (List ATypeRef)
  | [] => some []
  | .mk b pkg name bits targs args length :: ts => do
    let t ← (if name ∈ ignore then some (.mk b pkg name bits targs args length)
      else resolveRef m p ignore (.mk b pkg name bits targs args length))
    let ts ← resolveRefs m p ignore ts
    return t :: ts
end

/-- The body of the loops over parameters, fields and functions, such as /repo/internal/model/transform.go:624-641: a
template parameter is left alone. -/
def resolveUse (m : PkgModel) (p : Pkg) (tps : List (List Char)) (t : ATypeRef) : Option ATypeRef :=
  if t.pkg = [] ∧ t.name ∈ tps then some t else resolveRef m p tps t

/-- /repo/internal/model/transform.go:624-641, 688-705, 736-753 -/
def resolveParam (m : PkgModel) (p : Pkg) (tps : List (List Char)) (a : AParam) : Option AParam :=
  (resolveUse m p tps a.type).map fun t => ⟨a.name, t⟩

/-- /repo/internal/model/transform.go:643-660, 755-772 -/
def resolveField (m : PkgModel) (p : Pkg) (tps : List (List Char)) (f : AField) : Option AField :=
  (resolveUse m p tps f.type).map fun t => { f with type := t }

/-- /repo/internal/model/transform.go:662-679 -/
def resolveFunction (m : PkgModel) (p : Pkg) (tps : List (List Char)) (f : AFunction) : Option AFunction :=
  (resolveUse m p tps f.returnType).map fun t => ⟨f.name, t, f.result⟩

/-- /repo/internal/model/transform.go:707-727: a case without field is left alone. -/
def resolveCase (m : PkgModel) (p : Pkg) (tps : List (List Char)) (c : AChoiceCase) : Option AChoiceCase :=
  match c.field with
  | none => some c
  | some f => (resolveField m p tps f).map fun f => ⟨c.conditions, some f⟩

/-- /repo/internal/model/transform.go:604-814: what `ResolveTypes` does with one declaration.  The types of enums, of the
default case and the functions of a choice, and of the functions of a union are not looked at. -/
def resolveDecl (m : PkgModel) (p : Pkg) : ADecl → Option ADecl
  | .const n t v => (resolveRef m p [] t).map fun t => .const n t v
  | .struct n tps ps fs gs => do
    let ps ← visitAll (resolveParam m p tps) ps
    let fs ← visitAll (resolveField m p tps) fs
    let gs ← visitAll (resolveFunction m p tps) gs
    return .struct n tps ps fs gs
  | .choice n tps ps sel cases default gs => do
    let ps ← visitAll (resolveParam m p tps) ps
    let cases ← visitAll (resolveCase m p tps) cases
    return .choice n tps ps sel cases default gs
  | .union n tps ps fs gs => do
    let ps ← visitAll (resolveParam m p tps) ps
    let fs ← visitAll (resolveField m p tps) fs
    return .union n tps ps fs gs
  | .subtype n t => (resolveRef m p [] t).map fun t => .subtype n t
  | .bitmask n t vs => (resolveRef m p [] t).map fun t => .bitmask n t vs
  | .instantiate n t => (resolveRef m p [] t).map fun t => .instantiate n t
  | .enum n t is => some (.enum n t is)

/-- One package of the loop of /repo/internal/model/transform.go:603-815. -/
def resolvePkgDecls (m : PkgModel) (p : APackage) : Option APackage :=
  (visitAll (resolveDecl m p.toPkg) p.decls).map fun ds => ⟨p.name, p.imports, ds⟩

/-- /repo/internal/model/transform.go:585-598 `ResolveImports` and 600-817 `ResolveTypes`, called one after the other at
/repo/internal/model/model.go:103-109.  The maps are traversed in some order, which makes a difference only for the error reported. -/
def resolveModel (ps : List APackage) : Option (List APackage) :=
  let m : PkgModel := ps.map APackage.toPkg
  if m.all fun p => (resolveImports m p.imports).toOption.isSome then visitAll (resolvePkgDecls m) ps else none

/-- /repo/internal/ast/package.go:421-423 `GoPackageAlias` -/
def goPackageAlias (pkg : List Char) : List Char := pkg.map fun c => if c = '.' then '_' else c

/-- /repo/internal/ast/package.go:110-131 `GoType` for a type that is not builtin, in package `own`. -/
def goUserType (own pkg name : List Char) : Option (List Char) :=
  if pkg = [] then none
  else if pkg = own then some (title name)
  else some (goPackageAlias pkg ++ '.' :: title name)

end Verif
