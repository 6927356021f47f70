import Verif.AstEnum

/-!
# Default values and enums in databases

What the generated `LoadDefaultValues` methods do (/repo/internal/generator/templates/default_values.go.tmpl and the loops over
it in struct.go.tmpl, union.go.tmpl and choice.go.tmpl), and the methods of enums that `database/sql` calls (enum.go.tmpl:75-107).
-/

namespace Verif

/-- The type of a field as `goNativeType` sees it (/repo/internal/ast/package.go:352-419): a builtin type, an enum or a bitmask,
or the declaration of a struct, union or choice.  Subtypes are followed there. -/
inductive DefType where
  | builtin
  | enumLike
  | compound (name : Nat)
deriving DecidableEq

/-- What `default_values.go.tmpl` looks at in a field; the initializer is the value of its Go expression, converted to the type
of the field. -/
structure DefField (α : Type) where
  optional : Bool
  array : Bool
  type : DefType
  initializer : Option α

/-- The declarations with fields, /repo/internal/ast/struct.go, union.go, choice.go.  A case of a choice may have no field. -/
inductive DefDecl (α : Type) where
  | struct (fields : List (DefField α))
  | union (fields : List (DefField α))
  | choice (cases : List (Option (DefField α))) (dflt : Option (Option (DefField α)))

/-- The fields in the order of the Go struct: struct.go.tmpl:6-13, union.go.tmpl:18-26, choice.go.tmpl:6-21. -/
def DefDecl.fields {α : Type} : DefDecl α → List (DefField α)
  | .struct fs => fs
  | .union fs => fs
  | .choice cases dflt => cases.filterMap id ++ (dflt.bind id).toList

/-- Go values: of a builtin type or an enum (`plain`), pointers, slices, and structs; `head` is what stands before the fields, the
tag of a union and the parameters. -/
inductive GoVal (α : Type) where
  | plain (v : α)
  | pointer (v : Option (GoVal α))
  | slice (vs : List (GoVal α))
  | object (head : List α) (fields : List (GoVal α))

mutual
/-- The method `LoadDefaultValues` of a declared type: struct.go.tmpl:14-19, union.go.tmpl:27-32, choice.go.tmpl:22-34. -/
def loadDefaults {α : Type} (schema : Nat → DefDecl α) (name : Nat) : GoVal α → Except String (GoVal α)
  | .object head vs => do return .object head (← loadFields schema (schema name).fields vs)
  | v => .ok v

/-- The statements of all fields, one after the other. -/
def loadFields {α : Type} (schema : Nat → DefDecl α) : List (DefField α) → List (GoVal α) → Except String (List (GoVal α))
  | f :: fs, v :: vs => do
    let v' ← loadField schema f v
    let vs' ← loadFields schema fs vs
    return v' :: vs'
  | _, vs => .ok vs

/-- default_values.go.tmpl:14-24, the statements of one field.  The methods of enums and bitmasks return nil at once
(enum.go.tmpl:109-111, bitmask.go.tmpl:19-21). -/
def loadField {α : Type} (schema : Nat → DefDecl α) (f : DefField α) (v : GoVal α) : Except String (GoVal α) :=
  if !f.optional && !f.array then
    match f.type with
    | .compound name => loadDefaults schema name v
    | .enumLike => .ok v
    | .builtin =>
      match f.initializer with
      | some a => .ok (.plain a)
      | none => .ok v
  else .ok v
end

/-! ## Enums in databases -/

/-- What `Scan` may get: `nil`, a byte slice, a string, something with a `String` method, anything else. -/
inductive SqlValue where
  | null
  | bytes (s : String)
  | text (s : String)
  | stringer (s : String)
  | other

/-- enum.go.tmpl:77-79 `Value` -/
def EnumTable.sqlValue {w : Nat} (t : EnumTable w) (unknown : BitVec w → String) (v : BitVec w) : SqlValue := .text (t.str unknown v)

/-- enum.go.tmpl:82-106 `Scan`: what the receiver is afterwards and whether there was no error. -/
def EnumTable.scan {w : Nat} (t : EnumTable w) (src : SqlValue) (receiver : BitVec w) : BitVec w × Bool :=
  let parse (s : String) := match t.parse s with
    | some v => (v, true)
    | none => (receiver, false)
  match src with
  | .null => (receiver, true)
  | .bytes s => parse s
  | .text s => parse s
  | .stringer s => parse s
  | .other => (receiver, false)

end Verif
