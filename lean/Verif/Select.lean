import Verif.FrontEnd
import Verif.Resolve
import Verif.Schema
import Verif.AstEnum

/-!
# Which function the generated code calls for a builtin type

Source: /repo/internal/generator/templates/{encode,decode,bitsizeof,builtin_bitsizeof,instantiate_array_traits,array_traits_type,array_init,
packing_context_encode,packing_context_decode,packing_context_create}.go.tmpl, /repo/internal/ast/scope.go:12-102, 163-231.

`Verif/Schema.lean` starts from the builtin types (`Elem`) of fields.  Here is how the templates get from a type reference, which is a name, a
number of bits and perhaps a length expression, to calls of package ztype, and what these calls do.  A result of `none` is code that does not
compile.  Lines of templates are cited as `encode:65-76`.
-/

namespace Verif

/-- /repo/internal/ast/type_reference.go:11 `Bits` -/
def ATypeRef.bits : ATypeRef → Nat
  | .mk _ _ _ bits _ _ _ => bits

/-- Whether `LengthExpression` is set, /repo/internal/ast/type_reference.go:18. -/
def ATypeRef.dynamic : ATypeRef → Bool
  | .mk _ _ _ _ _ _ length => length.isSome

/-! ## Tables of /repo/internal/ast/scope.go -/

/-- /repo/internal/ast/scope.go:12-39 `zserioTypeToGoType` -/
def goTypeTable : List (Text × Text) :=
  [("int8".toList, "int8".toList), ("int16".toList, "int16".toList), ("int32".toList, "int32".toList), ("int64".toList, "int64".toList),
   ("uint8".toList, "uint8".toList), ("uint16".toList, "uint16".toList), ("uint32".toList, "uint32".toList), ("uint64".toList, "uint64".toList),
   ("varint".toList, "int64".toList), ("varint16".toList, "int16".toList), ("varint32".toList, "int32".toList),
   ("varint64".toList, "int64".toList), ("varuint".toList, "uint64".toList), ("varsize".toList, "uint64".toList),
   ("varuint16".toList, "uint16".toList), ("varuint32".toList, "uint32".toList), ("varuint64".toList, "uint64".toList),
   ("bool".toList, "bool".toList), ("string".toList, "string".toList), ("float16".toList, "float32".toList),
   ("float32".toList, "float32".toList), ("float64".toList, "float64".toList)]

/-- /repo/internal/ast/scope.go:41-77 `zserioTypeToArrayTraits`, without `ztype.` in front. -/
def arrayTraitsTable : List (Text × Text) :=
  [("int8".toList, "SignedBitFieldArrayTraits".toList), ("int16".toList, "SignedBitFieldArrayTraits".toList),
   ("int32".toList, "SignedBitFieldArrayTraits".toList), ("int64".toList, "SignedBitFieldArrayTraits".toList),
   ("uint8".toList, "BitFieldArrayTraits".toList), ("uint16".toList, "BitFieldArrayTraits".toList),
   ("uint32".toList, "BitFieldArrayTraits".toList), ("uint64".toList, "BitFieldArrayTraits".toList),
   ("int".toList, "SignedBitFieldArrayTraits".toList), ("uint".toList, "BitFieldArrayTraits".toList),
   ("bit".toList, "BitFieldArrayTraits".toList),
   ("varint".toList, "VarIntArrayTraits".toList), ("varint16".toList, "VarInt16ArrayTraits".toList),
   ("varint32".toList, "VarInt32ArrayTraits".toList), ("varint64".toList, "VarInt64ArrayTraits".toList),
   ("varuint".toList, "VarUIntArrayTraits".toList), ("varsize".toList, "VarSizeArrayTraits".toList),
   ("varuint16".toList, "VarUInt16ArrayTraits".toList), ("varuint32".toList, "VarUInt32ArrayTraits".toList),
   ("varuint64".toList, "VarUInt64ArrayTraits".toList), ("bool".toList, "BooleanArrayTraits".toList),
   ("string".toList, "StringArrayTraits".toList), ("float16".toList, "Float16ArrayTraits".toList),
   ("float32".toList, "Float32ArrayTraits".toList), ("float64".toList, "Float64ArrayTraits".toList),
   ("extern".toList, "BitBufferArrayTraits".toList), ("bytes".toList, "BytesArrayTraits".toList)]

/-- /repo/internal/ast/scope.go:80-103 `zserioDeltaPackabeTypes` -/
def deltaPackableNames : List Text :=
  ["int8".toList, "int16".toList, "int32".toList, "int64".toList, "uint8".toList, "uint16".toList, "uint32".toList, "uint64".toList,
   "int".toList, "uint".toList, "bit".toList, "varint".toList, "varint16".toList, "varint32".toList, "varint64".toList, "varuint".toList,
   "varsize".toList, "varuint16".toList, "varuint32".toList, "varuint64".toList]

/-- /repo/internal/ast/scope.go:163-177 `goBits` -/
def goBitsText (b : Nat) : Text :=
  if b = 0 then [] else if b ≤ 8 then ['8'] else if b ≤ 16 then ['1', '6'] else if b ≤ 32 then ['3', '2'] else ['6', '4']

/-- /repo/internal/ast/scope.go:179-215 `RootScope.GoType` for a builtin type; `none` is an error. -/
def builtinGoType (t : ATypeRef) : Option Text :=
  if t.name = "int".toList then some (if t.dynamic then "int64".toList else "int".toList ++ goBitsText t.bits)
  else if t.name = "bit".toList ∨ t.name = "uint".toList then
    some (if t.dynamic then "uint64".toList else "uint".toList ++ goBitsText t.bits)
  else if t.name = "extern".toList then some "*ztype.ExternType".toList
  else if t.name = "bytes".toList then some "*ztype.BytesType".toList
  else goTypeTable.lookup t.name

/-- /repo/internal/ast/scope.go:222-231 `RootScope.GoArrayTraits` for a builtin type. -/
def builtinArrayTraits (t : ATypeRef) : Option Text := arrayTraitsTable.lookup t.name

/-- /repo/internal/ast/scope.go:235-240 `RootScope.IsDeltaPackable` for a builtin type. -/
def builtinDelta (t : ATypeRef) : Bool := decide (t.name ∈ deltaPackableNames)

/-! ## What the templates write -/

/-- A bit width in generated code: a number or `uint8(…)` around the length expression, encode:4-7. -/
inductive WidthArg where
  | lit (n : Nat)
  | expr
deriving DecidableEq

/-- The `$bit_size` of encode:4-7 and decode:4-7. -/
def widthArg (t : ATypeRef) : WidthArg := if t.dynamic then .expr else .lit t.bits

/-- The functions for one value: with a bit width, or by name. -/
inductive ValueCall where
  | signedBits (width : WidthArg)
  | unsignedBits (width : WidthArg)
  | named (suffix : Text)
deriving DecidableEq

/-- encode:66-75: `ztype.WriteSignedBits`, `ztype.WriteUnsignedBits` or `ztype.Write…`. -/
def writeCall (t : ATypeRef) : ValueCall :=
  if 0 < t.bits ∨ t.dynamic then
    if t.name = "int".toList then .signedBits (widthArg t) else .unsignedBits (widthArg t)
  else .named (title t.name)

/-- decode:50-54 -/
def readCall (t : ATypeRef) : ValueCall :=
  if 0 < t.bits ∨ t.dynamic then
    if t.name = "int".toList then .signedBits (widthArg t) else .unsignedBits (widthArg t)
  else .named (title t.name)

/-- packing_context_encode:92-96 and packing_context_decode:104-109, for what is not delta packed; bit widths are not looked at. -/
def packedCall (t : ATypeRef) : ValueCall := .named (title t.name)

/-- The ways in which builtin_bitsizeof computes a size. -/
inductive SizeCall where
  /-- a number -/
  | const (n : Nat)
  /-- `int(…)` around the length expression -/
  | expr
  /-- `int(name.BitSize)` -/
  | bitSize
  /-- `8 * int(name.ByteSize)` -/
  | byteSize
  /-- `ztype.UnsignedBitSize(name, maxBytes)`; `conv` tells if the value is converted to uint64 -/
  | unsigned (conv : Bool) (maxBytes : Nat)
  /-- `ztype.SignedBitSize(name, maxBytes)`; `conv` tells if the value is converted to int64 -/
  | signed (conv : Bool) (maxBytes : Nat)
  /-- `ztype.BitSizeOfString(name)` -/
  | string
  /-- no branch applies, an empty expression remains -/
  | nothing
deriving DecidableEq

/-- The branches of builtin_bitsizeof:13-43 that look at the name. -/
def sizeByName : List (Text × SizeCall) :=
  [("uint8".toList, .const 8), ("uint16".toList, .const 16), ("uint32".toList, .const 32), ("uint64".toList, .const 64),
   ("int8".toList, .const 8), ("int16".toList, .const 16), ("int32".toList, .const 32), ("int64".toList, .const 64),
   ("bool".toList, .const 1), ("float16".toList, .const 16), ("float32".toList, .const 32), ("float64".toList, .const 64),
   ("extern".toList, .bitSize), ("bytes".toList, .byteSize),
   ("varuint".toList, .unsigned false 9), ("varuint16".toList, .unsigned true 2), ("varuint32".toList, .unsigned true 4),
   ("varuint64".toList, .unsigned false 8), ("varsize".toList, .unsigned false 5),
   ("varint".toList, .signed false 9), ("varint16".toList, .signed true 2), ("varint32".toList, .signed true 4),
   ("varint64".toList, .signed false 8), ("string".toList, .string)]

/-- builtin_bitsizeof:7-50 -/
def sizeCall (t : ATypeRef) : SizeCall :=
  if 0 < t.bits then .const t.bits
  else if t.dynamic then .expr
  else (sizeByName.lookup t.name).getD .nothing

/-- What instantiate_array_traits makes of a builtin type. -/
inductive TraitsCall where
  /-- `ztype.GetBitFieldArrayTraits[elem](uint8(width))`, or with `Signed` -/
  | get (signed : Bool) (elem : Text) (width : WidthArg)
  /-- a member of `ztype.ArrayTraits` -/
  | static (member : Text)
  /-- the word UNSUPPORTED -/
  | unsupported
deriving DecidableEq

/-- The branches of instantiate_array_traits:10-17 for integers of whole bytes. -/
def fixedTraitsByName : List (Text × Text) :=
  [("uint8".toList, "UInt8".toList), ("uint16".toList, "UInt16".toList), ("uint32".toList, "UInt32".toList), ("uint64".toList, "UInt64".toList),
   ("int8".toList, "Int8".toList), ("int16".toList, "Int16".toList), ("int32".toList, "Int32".toList), ("int64".toList, "Int64".toList)]

/-- The branches of instantiate_array_traits:23-38 for other types. -/
def otherTraitsByName : List (Text × Text) :=
  [("varint".toList, "VarInt".toList), ("varint16".toList, "VarInt16".toList), ("varint32".toList, "VarInt32".toList),
   ("varint64".toList, "VarInt64".toList), ("varuint".toList, "VarUInt".toList), ("varuint16".toList, "VarUInt16".toList),
   ("varuint32".toList, "VarUInt32".toList), ("varuint64".toList, "VarUInt64".toList), ("varsize".toList, "VarSize".toList),
   ("bool".toList, "Bool".toList), ("string".toList, "String".toList), ("float16".toList, "Float16".toList),
   ("float32".toList, "Float32".toList), ("float64".toList, "Float64".toList), ("bytes".toList, "Bytes".toList),
   ("extern".toList, "Extern".toList)]

/-- instantiate_array_traits:4-41 for a builtin type; `none` if `goArrayTraits` or `goType` fails. -/
def traitsCall (t : ATypeRef) : Option TraitsCall :=
  match builtinArrayTraits t with
  | none => none
  | some traits =>
    if traits = "BitFieldArrayTraits".toList ∨ traits = "SignedBitFieldArrayTraits".toList then
      if 0 < t.bits then (builtinGoType t).map fun g => .get (traits = "SignedBitFieldArrayTraits".toList) g (.lit t.bits)
      else if t.dynamic then (builtinGoType t).map fun g => .get (traits = "SignedBitFieldArrayTraits".toList) g .expr
      else some (match fixedTraitsByName.lookup t.name with
        | some m => .static m
        | none => .unsupported)
    else some (match otherTraitsByName.lookup t.name with
      | some m => .static m
      | none => .unsupported)

/-- array_traits_type:3-7 for a builtin type: the name of the traits and their type argument. -/
def traitsType (t : ATypeRef) : Option (Text × Option Text) :=
  match builtinArrayTraits t with
  | none => none
  | some traits =>
    if traits = "BitFieldArrayTraits".toList ∨ traits = "SignedBitFieldArrayTraits".toList then
      (builtinGoType t).map fun g => (traits, some g)
    else some (traits, none)

/-! ## Package ztype -/

/-- Go integer types by name; `int` and `uint` are taken as 64 bit wide. -/
def goIntNames : List (Text × GoNum) :=
  [("int8".toList, ⟨true, 8⟩), ("int16".toList, ⟨true, 16⟩), ("int32".toList, ⟨true, 32⟩), ("int64".toList, ⟨true, 64⟩),
   ("uint8".toList, ⟨false, 8⟩), ("uint16".toList, ⟨false, 16⟩), ("uint32".toList, ⟨false, 32⟩), ("uint64".toList, ⟨false, 64⟩),
   ("int".toList, ⟨true, 64⟩), ("uint".toList, ⟨false, 64⟩)]

/-- The Go conversions `int64(x)` and `uint64(x)` of an integer. -/
def GoNum.to64 (g : GoNum) (v : Val) : BitVec 64 :=
  if g.signed then (v.asBits g.width).signExtend 64 else (v.asBits g.width).setWidth 64

/-- The functions `ztype.Write…` with a value and nothing else (/repo/ztype/*_encode.go): name, type of the parameter, what they do. -/
def ztypeWriters : List (Text × Text × (Val → Wr Unit)) :=
  [("Uint8".toList, "uint8".toList, fun v => writeUint 8 (v.asBits 8)),
   ("Uint16".toList, "uint16".toList, fun v => writeUint 16 (v.asBits 16)),
   ("Uint32".toList, "uint32".toList, fun v => writeUint 32 (v.asBits 32)),
   ("Uint64".toList, "uint64".toList, fun v => writeUint 64 (v.asBits 64)),
   ("Int8".toList, "int8".toList, fun v => writeInt 8 (v.asBits 8)),
   ("Int16".toList, "int16".toList, fun v => writeInt 16 (v.asBits 16)),
   ("Int32".toList, "int32".toList, fun v => writeInt 32 (v.asBits 32)),
   ("Int64".toList, "int64".toList, fun v => writeInt 64 (v.asBits 64)),
   ("Varint16".toList, "int16".toList, fun v => writeVarint16 (v.asBits 16)),
   ("Varint32".toList, "int32".toList, fun v => writeVarint32 (v.asBits 32)),
   ("Varint64".toList, "int64".toList, fun v => writeVarint64 (v.asBits 64)),
   ("Varint".toList, "int64".toList, fun v => writeVarint (v.asBits 64)),
   ("Varuint16".toList, "uint16".toList, fun v => writeVaruint16 (v.asBits 16)),
   ("Varuint32".toList, "uint32".toList, fun v => writeVaruint32 (v.asBits 32)),
   ("Varuint64".toList, "uint64".toList, fun v => writeVaruint64 (v.asBits 64)),
   ("Varuint".toList, "uint64".toList, fun v => writeVaruint (v.asBits 64)),
   ("Varsize".toList, "uint64".toList, fun v => writeVarsize (v.asBits 64)),
   ("Bool".toList, "bool".toList, fun v => writeBool v.asBool),
   ("String".toList, "string".toList, fun v => writeString v.asStr),
   ("Bytes".toList, "*ztype.BytesType".toList, fun v => bytesTraits.write v.asBytes),
   ("Extern".toList, "*ztype.ExternType".toList, fun v => externTraits.write v.asExtern),
   ("Float16".toList, "float32".toList, fun v => writeFloat16 (v.asBits 32)),
   ("Float32".toList, "float32".toList, fun v => writeFloat32 (v.asBits 32)),
   ("Float64".toList, "float64".toList, fun v => writeFloat64 (v.asBits 64))]

/-- The functions `ztype.Read…` without a width (/repo/ztype/*_decode.go): name, type of the result, what they do. -/
def ztypeReaders : List (Text × Text × Rd Val) :=
  [("Uint8".toList, "uint8".toList, do let v ← readUint 8; pure (.bits 8 v)),
   ("Uint16".toList, "uint16".toList, do let v ← readUint 16; pure (.bits 16 v)),
   ("Uint32".toList, "uint32".toList, do let v ← readUint 32; pure (.bits 32 v)),
   ("Uint64".toList, "uint64".toList, do let v ← readUint 64; pure (.bits 64 v)),
   ("Int8".toList, "int8".toList, do let v ← readInt 8; pure (.bits 8 v)),
   ("Int16".toList, "int16".toList, do let v ← readInt 16; pure (.bits 16 v)),
   ("Int32".toList, "int32".toList, do let v ← readInt 32; pure (.bits 32 v)),
   ("Int64".toList, "int64".toList, do let v ← readInt 64; pure (.bits 64 v)),
   ("Varint16".toList, "int16".toList, do let v ← readVarint16; pure (.bits 16 v)),
   ("Varint32".toList, "int32".toList, do let v ← readVarint32; pure (.bits 32 v)),
   ("Varint64".toList, "int64".toList, do let v ← readVarint64; pure (.bits 64 v)),
   ("Varint".toList, "int64".toList, do let v ← readVarint; pure (.bits 64 v)),
   ("Varuint16".toList, "uint16".toList, do let v ← readVaruint16; pure (.bits 16 v)),
   ("Varuint32".toList, "uint32".toList, do let v ← readVaruint32; pure (.bits 32 v)),
   ("Varuint64".toList, "uint64".toList, do let v ← readVaruint64; pure (.bits 64 v)),
   ("Varuint".toList, "uint64".toList, do let v ← readVaruint; pure (.bits 64 v)),
   ("Varsize".toList, "uint64".toList, do let v ← readVarsize; pure (.bits 64 v)),
   ("Bool".toList, "bool".toList, do let v ← readBool; pure (.bool v)),
   ("String".toList, "string".toList, do let v ← readString; pure (.str v)),
   ("Bytes".toList, "*ztype.BytesType".toList, do let v ← bytesTraits.read; pure (.bytes v)),
   ("Extern".toList, "*ztype.ExternType".toList, do let v ← externTraits.read; pure (.extern v)),
   ("Float16".toList, "float32".toList, do let v ← readFloat16; pure (.bits 32 v)),
   ("Float32".toList, "float32".toList, do let v ← readFloat32; pure (.bits 32 v)),
   ("Float64".toList, "float64".toList, do let v ← readFloat64; pure (.bits 64 v))]

/-- /repo/ztype/array_traits.go:52-103 `ArrayTraits`: the name of the member, its type (name and type argument), the type of its elements, and
the traits. -/
def staticTraits : List (Text × (Text × Option Text) × Text × Elem) :=
  [("VarInt".toList, ("VarIntArrayTraits".toList, none), "int64".toList, .varint),
   ("VarInt16".toList, ("VarInt16ArrayTraits".toList, none), "int16".toList, .varint16),
   ("VarInt32".toList, ("VarInt32ArrayTraits".toList, none), "int32".toList, .varint32),
   ("VarInt64".toList, ("VarInt64ArrayTraits".toList, none), "int64".toList, .varint64),
   ("VarUInt".toList, ("VarUIntArrayTraits".toList, none), "uint64".toList, .varuint),
   ("VarUInt16".toList, ("VarUInt16ArrayTraits".toList, none), "uint16".toList, .varuint16),
   ("VarUInt32".toList, ("VarUInt32ArrayTraits".toList, none), "uint32".toList, .varuint32),
   ("VarUInt64".toList, ("VarUInt64ArrayTraits".toList, none), "uint64".toList, .varuint64),
   ("VarSize".toList, ("VarSizeArrayTraits".toList, none), "uint64".toList, .varsize),
   ("Bool".toList, ("BooleanArrayTraits".toList, none), "bool".toList, .bool),
   ("String".toList, ("StringArrayTraits".toList, none), "string".toList, .string),
   ("Float16".toList, ("Float16ArrayTraits".toList, none), "float32".toList, .float16),
   ("Float32".toList, ("Float32ArrayTraits".toList, none), "float32".toList, .float32),
   ("Float64".toList, ("Float64ArrayTraits".toList, none), "float64".toList, .float64),
   ("Bytes".toList, ("BytesArrayTraits".toList, none), "*ztype.BytesType".toList, .bytes),
   ("Extern".toList, ("BitBufferArrayTraits".toList, none), "*ztype.ExternType".toList, .extern),
   ("UInt8".toList, ("BitFieldArrayTraits".toList, some "uint8".toList), "uint8".toList, .bits 8 8),
   ("UInt16".toList, ("BitFieldArrayTraits".toList, some "uint16".toList), "uint16".toList, .bits 16 16),
   ("UInt32".toList, ("BitFieldArrayTraits".toList, some "uint32".toList), "uint32".toList, .bits 32 32),
   ("UInt64".toList, ("BitFieldArrayTraits".toList, some "uint64".toList), "uint64".toList, .bits 64 64),
   ("Int8".toList, ("SignedBitFieldArrayTraits".toList, some "int8".toList), "int8".toList, .sbits 8 8),
   ("Int16".toList, ("SignedBitFieldArrayTraits".toList, some "int16".toList), "int16".toList, .sbits 16 16),
   ("Int32".toList, ("SignedBitFieldArrayTraits".toList, some "int32".toList), "int32".toList, .sbits 32 32),
   ("Int64".toList, ("SignedBitFieldArrayTraits".toList, some "int64".toList), "int64".toList, .sbits 64 64)]

/-! ## What the calls do

`n` is the value of the length expression as an int. -/

/-- `uint8(…)` of a number, or a literal, which has to fit. -/
def WidthArg.eval (n : Int) : WidthArg → Nat
  | .lit m => m
  | .expr => (n % 256).toNat

/-- Whether the code for a value `v.Name` with a conversion in front (encode:11-19, the same elsewhere) compiles: `goType(…)` is no
conversion if the type begins with `*`. -/
def convertible (cast : Bool) (goType : Text) : Bool := !cast || goType.head? != some '*'

/-- A write call for a value of Go type `g`. -/
def ValueCall.write (g : Text) (cast : Bool) (n : Int) (c : ValueCall) : Option (Val → Wr Unit) :=
  if convertible cast g then
    match c with
    | .signedBits w => (goIntNames.lookup g).map fun gn v => writeSignedBits (gn.to64 v) (w.eval n)
    | .unsignedBits w => (goIntNames.lookup g).map fun gn v => writeUnsignedBits (gn.to64 v) (w.eval n)
    | .named s => match ztypeWriters.lookup s with
      | some (p, f) => if p = g then some f else none
      | none => none
  else none

/-- A read call whose result is converted to `g`, decode:49-56; Go converts between all integer types, everything else must have the type
already. -/
def ValueCall.read (g : Text) (n : Int) (c : ValueCall) : Option (Rd Val) :=
  match c with
  | .signedBits w => (goIntNames.lookup g).map fun gn => do let v ← readSignedBits (w.eval n); pure (.bits gn.width (v.setWidth gn.width))
  | .unsignedBits w => (goIntNames.lookup g).map fun gn => do let v ← readUnsignedBits (w.eval n); pure (.bits gn.width (v.setWidth gn.width))
  | .named s => match ztypeReaders.lookup s with
    | some (p, f) => if p = g then some f else none
    | none => none

/-- What a size call adds, for a value of Go type `g`. -/
def SizeCall.eval (g : Text) (cast : Bool) (n : Int) (c : SizeCall) : Option (Val → Except Err Int) :=
  match c with
  | .const m => some fun _ => .ok m
  | .expr => some fun _ => .ok n
  | .bitSize => if convertible cast g ∧ g = "*ztype.ExternType".toList then some fun v => match v.asExtern with
      | some e => .ok e.bitSize.toNat
      | none => .error (.panic "nil pointer dereference")
    else none
  | .byteSize => if convertible cast g ∧ g = "*ztype.BytesType".toList then some fun v => match v.asBytes with
      | some e => .ok (8 * e.byteSize.toNat : Nat)
      | none => .error (.panic "nil pointer dereference")
    else none
  | .unsigned conv m => match goIntNames.lookup g with
    | some gn => if conv ∨ g = "uint64".toList then some fun v => (unsignedBitSize (gn.to64 v) m).map Int.ofNat else none
    | none => none
  | .signed conv m => match goIntNames.lookup g with
    | some gn => if conv ∨ g = "int64".toList then some fun v => (signedBitSize (gn.to64 v) m).map Int.ofNat else none
    | none => none
  | .string => if g = "string".toList then some fun v => (bitSizeOfString v.asStr).map Int.ofNat else none
  | .nothing => none

/-- The traits a call yields, with their type and the type of the elements.  The functions of /repo/ztype/array_traits.go:110-128 demand a
signed or an unsigned Go type; that they return the traits that are asked for is property C42. -/
def TraitsCall.eval (n : Int) : TraitsCall → Option ((Text × Option Text) × Text × Elem)
  | .get signed g w => match goIntNames.lookup g with
    | some gn => if gn.signed = signed then
        some (((if signed then "SignedBitFieldArrayTraits".toList else "BitFieldArrayTraits".toList), some g), g,
          if signed then .sbits gn.width (w.eval n) else .bits gn.width (w.eval n))
      else none
    | none => none
  | .static m => staticTraits.lookup m
  | .unsupported => none

/-- The array that array_init:12-13 declares, for builtin elements: `ztype.Array[goType, traits type]` with the traits assigned to it.  The types
have to agree. -/
def arrayTraitsOf (t : ATypeRef) (n : Int) : Option Elem := do
  let g ← builtinGoType t
  let ty ← traitsType t
  let c ← traitsCall t
  let r ← c.eval n
  if r.1 = ty ∧ r.2.1 = g then some r.2.2 else none

/-! ## Enums and bitmasks

`native` is the type after following subtypes, `declared` the type as it is declared.  A value has the Go type that is generated for the enum or
bitmask, which is converted by Go code in the same way whatever its name is. -/

/-- enum:115-125 `MarshalZserio`; `none` is generated code that panics. -/
def enumWrite (native : ATypeRef) : Option ValueCall :=
  if native.isBuiltin = false then none
  else if native.bits = 0 then some (.named (title native.name))
  else if native.name = "bit".toList then some (.unsignedBits (.lit native.bits))
  else if native.name = "int".toList then some (.signedBits (.lit native.bits))
  else none

/-- enum:130-145 `UnmarshalZserio` -/
def enumRead (native : ATypeRef) : Option ValueCall :=
  if native.isBuiltin = false then none
  else if native.bits = 0 then some (.named (title native.name))
  else if native.name = "int".toList then some (.signedBits (.lit native.bits))
  else some (.unsignedBits (.lit native.bits))

/-- bitmask:25-35 `MarshalZserio`: whether there is a bit width is taken from the native type, the width itself from the declared type. -/
def bitmaskWrite (declared native : ATypeRef) : Option ValueCall :=
  if native.isBuiltin = false then none
  else if native.bits = 0 then some (.named (title native.name))
  else if native.name = "bit".toList then some (.unsignedBits (.lit declared.bits))
  else if native.name = "int".toList then some (.signedBits (.lit declared.bits))
  else none

/-- bitmask:40-55 `UnmarshalZserio` -/
def bitmaskRead (native : ATypeRef) : Option ValueCall :=
  if native.isBuiltin = false then none
  else if native.bits = 0 then some (.named (title native.name))
  else if native.name = "int".toList then some (.signedBits (.lit native.bits))
  else some (.unsignedBits (.lit native.bits))

/-- A size call whose argument has a Go type that is declared as `type T g`: without a conversion it is no argument for `ztype.UnsignedBitSize` and
the like. -/
def SizeCall.evalDefined (g : Text) (n : Int) : SizeCall → Option (Val → Except Err Int)
  | .const m => some fun _ => .ok m
  | .expr => some fun _ => .ok n
  | .unsigned true m => SizeCall.eval g false n (.unsigned true m)
  | .signed true m => SizeCall.eval g false n (.signed true m)
  | _ => none

/-- enum:149-157 `ZserioBitSize`: the argument is `*v`. -/
def enumSize (native : ATypeRef) (g : Text) (n : Int) : Option (Val → Except Err Int) :=
  if native.isBuiltin = false then none else (sizeCall native).evalDefined g n

/-- bitmask:5, 59-67 `ZserioBitSize`: the argument is `T(*v)` with the Go type of the declared type, which is the Go type of the native type, also
if the declared type is a subtype, because that becomes an alias (package.go.tmpl:11). -/
def bitmaskSize (native : ATypeRef) (g : Text) (n : Int) : Option (Val → Except Err Int) :=
  if native.isBuiltin = false then none else (sizeCall native).eval g false n

/-- The array traits in the methods for packed encoding, enum:159-215 and bitmask:69-128: they are used with values of the Go type of the native
type. -/
def enumTraits (native : ATypeRef) (n : Int) : Option Elem := do
  let g ← builtinGoType native
  let c ← traitsCall native
  let r ← c.eval n
  if r.2.1 = g then some r.2.2 else none

end Verif
