import Verif.AstEnum

/-!
# Mixing numeric types

/repo/internal/ast/mixing_native_types.go
-/

namespace Verif

/-- /repo/internal/ast/type_reference.go:3-19, as far as builtin types go: the name, the width after the colon (0 if there
is none) and whether there is a length expression. -/
structure NType where
  name : String
  bits : Nat := 0
  dyn : Bool := false
deriving DecidableEq

/-- /repo/internal/ast/expression.go:16-24 -/
inductive EKind where
  | integer | float | string | bool | bitmask | enum | compound
deriving DecidableEq

/-- /repo/internal/ast/mixing_native_types.go:5-25 -/
def integerTypeRank : List (String × Nat) :=
  [("int8", 8), ("int16", 16), ("int32", 32), ("int64", 64), ("uint8", 8), ("uint16", 16), ("uint32", 32), ("uint64", 64),
   ("varint", 64), ("varint16", 15), ("varint32", 29), ("varint64", 57), ("varuint", 64), ("varsize", 31),
   ("varuint16", 15), ("varuint32", 29), ("varuint64", 64)]

/-- /repo/internal/ast/mixing_native_types.go:27-39 -/
def signedToUnsigned : List (String × String) :=
  [("int8", "uint8"), ("int16", "uint16"), ("int32", "uint32"), ("int64", "uint64"), ("int", "bit"),
   ("varint", "varuint"), ("varint16", "varuint16"), ("varint32", "varuint32"), ("varint64", "varuint64")]

/-- `ErrUnknownType` with the names. -/
def unknownType (a : String) : String := "unknown type: " ++ a

/-- /repo/internal/ast/mixing_native_types.go:69-77 `compareNativeTypeReferences` -/
def sameNType : Option NType → Option NType → Bool
  | none, none => true
  | some a, some b => decide (a.name = b.name) && decide (a.bits = b.bits) && !a.dyn && !b.dyn
  | _, _ => false

/-- /repo/internal/ast/mixing_native_types.go:109-121 `getIntegerTypeRank` -/
def getIntegerTypeRank (t : NType) : Except String Nat :=
  if t.dyn then .ok 64
  else if t.bits ≠ 0 then .ok t.bits
  else match integerTypeRank.lookup t.name with
    | some r => .ok r
    | none => .error (unknownType t.name)

/-- /repo/internal/ast/mixing_native_types.go:82-106 `evaluateMixingFloatTypes` -/
def mixFloat (a b : Option NType) : Except String (Option NType) :=
  if sameNType a b then .ok a
  else match a, b with
    | none, b => .ok b
    | a, none => .ok a
    | some a, some b =>
      if a.name = "float64" ∨ b.name = "float64" then .ok (some ⟨"float64", 0, false⟩)
      else if a.name = "float32" ∨ b.name = "float32" then .ok (some ⟨"float32", 0, false⟩)
      else if a.name = "float16" ∨ b.name = "float16" then .ok (some ⟨"float16", 0, false⟩)
      else .error (unknownType (a.name ++ ", " ++ b.name))

/-- /repo/internal/ast/mixing_native_types.go:168-175: the unsigned type that belongs to a signed one. -/
def makeUnsigned (t : NType) : Except String NType :=
  match signedToUnsigned.lookup t.name with
  | some n => .ok { t with name := n }
  | none => .error (unknownType t.name)

/-- /repo/internal/ast/mixing_native_types.go:140-175: `evaluateMixingIntegerTypes` after the cases without a type. -/
def mixInt2 (a b : NType) : Except String NType := do
  let sa := (signedToUnsigned.lookup a.name).isSome
  let sb := (signedToUnsigned.lookup b.name).isSome
  let ra ← getIntegerTypeRank a
  let rb ← getIntegerTypeRank b
  if rb ≤ ra then
    if sa = (sa && sb) then .ok a else makeUnsigned a
  else
    if sb = (sa && sb) then .ok b else makeUnsigned b

/-- /repo/internal/ast/mixing_native_types.go:123-176 `evaluateMixingIntegerTypes` -/
def mixInt (a b : Option NType) : Except String (Option NType) :=
  if sameNType a b then .ok a
  else match a, b with
    | none, b => .ok b
    | a, none => .ok a
    | some a, some b => (mixInt2 a b).map some

/-- An evaluated operand, as far as the function looks at it. -/
structure Operand where
  kind : EKind
  type : Option NType
deriving DecidableEq

/-- /repo/internal/ast/mixing_native_types.go:45-64 `DetermineArithmeticOperationResultType` -/
def mixTypes (a b : Operand) : Except String Operand :=
  if a.kind = b.kind ∧ sameNType a.type b.type then .ok ⟨a.kind, a.type⟩
  else if a.kind = .float ∨ b.kind = .float then (mixFloat a.type b.type).map (⟨.float, ·⟩)
  else if a.kind ≠ .integer ∨ b.kind ≠ .integer then .error (unknownType "kinds")
  else (mixInt a.type b.type).map (⟨.integer, ·⟩)

/-- /repo/internal/visitor/visitor.go:641-662: the type reference made of `name:n` in the source text (`ParseUint` with a
limit of 8 bits yields 255 for anything larger, its error is ignored). -/
def visitBitField (name : String) (n : Nat) : NType :=
  let bits := min n 255
  if bits = 8 ∨ bits = 16 ∨ bits = 32 ∨ bits = 64 then
    if name = "bit" then ⟨"uint" ++ toString bits, 0, false⟩
    else if name = "uint" ∨ name = "int" then ⟨name ++ toString bits, 0, false⟩
    else ⟨name, bits, false⟩
  else ⟨name, bits, false⟩

/-- /repo/internal/ast/scope.go:179-215 `RootScope.GoType`, for integers. -/
def goIntType (t : NType) : Option GoNum :=
  if t.name = "int" then some (goBitFieldType true t.dyn t.bits)
  else if t.name = "bit" ∨ t.name = "uint" then some (goBitFieldType false t.dyn t.bits)
  else goIntTypes.lookup t.name

end Verif
