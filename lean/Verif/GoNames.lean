import Verif.Resolve

/-!
# The names that a schema gets in Go

Source: /repo/internal/model/transform.go:39-124 `CapitalizeNames`, /repo/internal/generator/funcs.go,
/repo/internal/generator/templates/{preamble,package,struct,union,choice,enum,bitmask,field_declaration}.go.tmpl.
-/

namespace Verif

/-- `if !field.Type.IsBuiltin { field.Type.Name = strings.Title(field.Type.Name) }`, as in
/repo/internal/model/transform.go:67-69. -/
def capRef : ATypeRef → ATypeRef
  | .mk true pkg name bits targs args length => .mk true pkg name bits targs args length
  | .mk false pkg name bits targs args length => .mk false pkg (title name) bits targs args length

/-- The parts of /repo/internal/ast/field.go:8-32 `Field` that the declaration of a field in Go uses,
/repo/internal/generator/templates/field_declaration.go.tmpl: the name, the key for JSON and the type. -/
structure GoField where
  name : List Char
  json : List Char
  type : ATypeRef

/-- /repo/internal/model/transform.go:65-69, 88-92, 106-110: a field of a union, of a struct, of a case. -/
def capField (f : AField) : GoField := ⟨title f.name, f.name, capRef f.type⟩

/-- /repo/internal/model/transform.go:113-118: the field of the default case, whose `ZserioName` stays empty. -/
def capDefaultField (f : AField) : GoField := ⟨title f.name, [], capRef f.type⟩

/-- The fields in the order of /repo/internal/generator/templates/struct.go.tmpl:9-11, union.go.tmpl:22-24,
choice.go.tmpl:10-19. -/
def ADecl.goFields : ADecl → List GoField
  | .struct _ _ _ fs _ => fs.map capField
  | .union _ _ _ fs _ => fs.map capField
  | .choice _ _ _ _ cases default _ =>
    (cases.filterMap fun c => c.field).map capField ++
      match default with
      | none => []
      | some c => c.field.toList.map capDefaultField
  | _ => []

/-- The name a declaration has after /repo/internal/model/transform.go:39-124, under which Go gets to know it: the templates
write `type {{ .Name }}` and `const {{ .Name }}`. -/
def ADecl.goName : ADecl → List Char
  | .const n _ _ => title n
  | .enum n _ _ => title n
  | .union n _ _ _ _ => title n
  | .bitmask n _ _ => title n
  | .struct n _ _ _ _ => n
  | .choice n _ _ _ _ _ _ => n
  | .subtype n _ => n
  | .instantiate n _ => n

/-- The methods of /repo/internal/generator/templates/struct.go.tmpl:14-105, union.go.tmpl:27-112 and choice.go.tmpl:22-182. -/
def methodNames : List (List Char) :=
  ["LoadDefaultValues".toList, "MarshalZserio".toList, "UnmarshalZserio".toList, "ZserioBitSize".toList,
    "ZserioCreatePackingContext".toList, "ZserioInitPackingContext".toList, "UnmarshalZserioPacked".toList,
    "MarshalZserioPacked".toList, "ZserioInitializeOffsetsPacked".toList, "ZserioBitSizePacked".toList]

/-- What the Go type of a struct, union or choice declares: the parameters (/repo/internal/generator/templates/struct.go.tmpl:6-8,
union.go.tmpl:18-21, choice.go.tmpl:7-9), the fields, the functions (functions.go.tmpl) and the methods. -/
def ADecl.goMembers : ADecl → List (List Char)
  | .struct n tps ps fs gs => ps.map (fun p => title p.name) ++ (ADecl.struct n tps ps fs gs).goFields.map GoField.name ++
      gs.map (fun g => title g.name) ++ methodNames
  | .union n tps ps fs gs => "UnionChoice".toList :: ps.map (fun p => title p.name) ++
      (ADecl.union n tps ps fs gs).goFields.map GoField.name ++ gs.map (fun g => title g.name) ++ methodNames
  | .choice n tps ps sel cases default gs => ps.map (fun p => title p.name) ++
      (ADecl.choice n tps ps sel cases default gs).goFields.map GoField.name ++ gs.map (fun g => title g.name) ++ methodNames
  | _ => []

/-- The names that the code of a declaration declares in the Go package: /repo/internal/generator/templates/package.go.tmpl:3-12,
enum.go.tmpl:7-58, union.go.tmpl:4-17, bitmask.go.tmpl:9-16, struct.go.tmpl:5, choice.go.tmpl:6; nothing for templates,
/repo/internal/generator/gen.go:263-293.  What an `instantiate` declares is the struct, union or choice made for it. -/
def ADecl.goTopNames : ADecl → List (List Char)
  | .const n _ _ => [title n]
  | .subtype n _ => [n]
  | .instantiate _ _ => []
  | .struct n tps _ _ _ => if tps = [] then [n] else []
  | .choice n tps _ _ _ _ _ => if tps = [] then [n] else []
  | .union n tps _ fs _ =>
    if tps = [] then
      [title n ++ "UnionChoiceType".toList, title n ++ "ChoiceUndefined".toList] ++
        fs.map (fun f => title n ++ "Choice".toList ++ title f.name) ++ [title n]
    else []
  | .bitmask n _ vs => title n :: vs.map fun v => title n ++ title v.name
  | .enum n _ is =>
    title n :: is.map (fun i => enumItemGoName (title n) (title i.name)) ++
      ['_' :: title n ++ "Names".toList, '_' :: title n ++ "Values".toList, '_' :: title n ++ "Name".toList,
        '_' :: title n ++ "NameToValue".toList, title n ++ "Values".toList, title n ++ "Strings".toList,
        title n ++ "String".toList]

/-- /repo/internal/generator/templates/preamble.go.tmpl:7-12: the names of the packages that every file imports. -/
def fixedImports : List (List Char) :=
  ["errors".toList, "fmt".toList, "driver".toList, "bitio".toList, "zserio".toList, "ztype".toList]

/-- /repo/internal/generator/templates/preamble.go.tmpl:6-16: the names that the imports of a file declare, for a package that
imports the packages given. -/
def importNames (imports : List (List Char)) : List (List Char) := fixedImports ++ imports.map goPackageAlias

/-- /repo/internal/generator/funcs.go:24-27 `GoPackageName` -/
def goPackageName (pkg : List Char) : List Char :=
  ((pkg.reverse.takeWhile fun c => c ≠ '.').reverse).map toLow

end Verif
