import Verif.Delta

/-!
# Array traits of the builtin types: /repo/ztype/array_traits.go

A Go integer type of width `w` is `BitVec w`; the conversion `uint64(x)` is `setWidth 64` for an unsigned and
`signExtend 64` for a signed `x`, and `T(x)` for a uint64 `x` is `setWidth w`.
-/

namespace Verif

/-- `size, _ := SignedBitSize(…)` / `UnsignedBitSize(…)`: both return 0 with an error
(/repo/ztype/varint_encode.go:96, /repo/ztype/varuint_encode.go:103). -/
def sizeOrZero : Except Err Nat → Nat
  | .ok n => n
  | .error _ => 0

/-- /repo/ztype/array_traits.go:267-315 `VarIntArrayTraits`. -/
def varIntTraits : Traits (BitVec 64) where
  isConstant := false
  zero := 0#64
  bitSizeOf e := sizeOrZero (signedBitSize e 8)
  read := readVarint
  write := writeVarint
  asU64 e := e
  fromU64 u := u

/-- /repo/ztype/array_traits.go:317-361 `VarInt16ArrayTraits`. -/
def varInt16Traits : Traits (BitVec 16) where
  isConstant := false
  zero := 0#16
  bitSizeOf e := sizeOrZero (signedBitSize (e.signExtend 64) 2)
  read := readVarint16
  write := writeVarint16
  asU64 e := e.signExtend 64
  fromU64 u := u.setWidth 16

/-- /repo/ztype/array_traits.go:363-407 `VarInt32ArrayTraits`. -/
def varInt32Traits : Traits (BitVec 32) where
  isConstant := false
  zero := 0#32
  bitSizeOf e := sizeOrZero (signedBitSize (e.signExtend 64) 4)
  read := readVarint32
  write := writeVarint32
  asU64 e := e.signExtend 64
  fromU64 u := u.setWidth 32

/-- /repo/ztype/array_traits.go:409-453 `VarInt64ArrayTraits`. -/
def varInt64Traits : Traits (BitVec 64) where
  isConstant := false
  zero := 0#64
  bitSizeOf e := sizeOrZero (signedBitSize e 8)
  read := readVarint64
  write := writeVarint64
  asU64 e := e
  fromU64 u := u

/-- /repo/ztype/array_traits.go:455-499 `VarUInt16ArrayTraits`; the size uses four bytes at most, line 477. -/
def varUInt16Traits : Traits (BitVec 16) where
  isConstant := false
  zero := 0#16
  bitSizeOf e := sizeOrZero (unsignedBitSize (e.setWidth 64) 4)
  read := readVaruint16
  write := writeVaruint16
  asU64 e := e.setWidth 64
  fromU64 u := u.setWidth 16

/-- /repo/ztype/array_traits.go:501-544 `VarUInt32ArrayTraits`. -/
def varUInt32Traits : Traits (BitVec 32) where
  isConstant := false
  zero := 0#32
  bitSizeOf e := sizeOrZero (unsignedBitSize (e.setWidth 64) 4)
  read := readVaruint32
  write := writeVaruint32
  asU64 e := e.setWidth 64
  fromU64 u := u.setWidth 32

/-- /repo/ztype/array_traits.go:546-589 `VarUInt64ArrayTraits`. -/
def varUInt64Traits : Traits (BitVec 64) where
  isConstant := false
  zero := 0#64
  bitSizeOf e := sizeOrZero (unsignedBitSize e 8)
  read := readVaruint64
  write := writeVaruint64
  asU64 e := e
  fromU64 u := u

/-- /repo/ztype/array_traits.go:591-634 `VarUIntArrayTraits`; the size uses eight bytes at most, line 612. -/
def varUIntTraits : Traits (BitVec 64) where
  isConstant := false
  zero := 0#64
  bitSizeOf e := sizeOrZero (unsignedBitSize e 8)
  read := readVaruint
  write := writeVaruint
  asU64 e := e
  fromU64 u := u

/-- /repo/ztype/array_traits.go:636-679 `VarSizeArrayTraits`. -/
def varSizeTraits : Traits (BitVec 64) where
  isConstant := false
  zero := 0#64
  bitSizeOf e := sizeOrZero (unsignedBitSize e 5)
  read := readVarsize
  write := writeVarsize
  asU64 e := e
  fromU64 u := u

/-- /repo/ztype/array_traits.go:681-726 `BitFieldArrayTraits[T]` for an unsigned `T` of width `w`, `NumBits = n`. -/
def bitFieldTraits (w n : Nat) : Traits (BitVec w) where
  isConstant := true
  zero := 0#w
  bitSizeOf _ := n
  read := do let v ← Rd.bits n; pure (v.setWidth w)
  write e := Wr.bits (e.setWidth 64) n
  asU64 e := e.setWidth 64
  fromU64 u := u.setWidth w

/-- /repo/ztype/array_traits.go:732-744 `fillUpperBits`. -/
def fillUpperBits (v : BitVec 64) (n : Nat) : BitVec 64 :=
  if v &&& (1#64 <<< pred8 n) ≠ 0#64 then v ||| (BitVec.allOnes 64 - ((1#64 <<< n) - 1#64)) else v

/-- /repo/ztype/array_traits.go:728-787 `SignedBitFieldArrayTraits[T]` for a signed `T` of width `w`, `NumBits = n`. -/
def signedBitFieldTraits (w n : Nat) : Traits (BitVec w) where
  isConstant := true
  zero := 0#w
  bitSizeOf _ := n
  read := do let v ← Rd.bits n; pure ((fillUpperBits v n).setWidth w)
  write e := Wr.bits (e.signExtend 64) n
  asU64 e := e.signExtend 64
  fromU64 u := (fillUpperBits u n).setWidth w

/-- /repo/ztype/array_traits.go:789-837 `BooleanArrayTraits`. -/
def boolTraits : Traits Bool where
  isConstant := true
  zero := false
  bitSizeOf _ := 1
  read := readBool
  write := writeBool
  asU64 e := if e then 1#64 else 0#64
  fromU64 u := decide (u ≠ 0#64)

/-- /repo/ztype/array_traits.go:839-889 `StringArrayTraits`. -/
def stringTraits : Traits (List Byte) where
  isConstant := false
  zero := []
  bitSizeOf e := match signedBitSize (BitVec.ofNat 64 e.length) 4 with
    | .ok n => n + e.length * 8
    | .error _ => 0
  read := readString
  write := writeString
  asU64 _ := 0#64
  fromU64 _ := []

/-- /repo/ztype/array_traits.go:891-933 `BitBufferArrayTraits`.  The elements are pointers; using a nil pointer panics,
except that here the size of a nil element is 0 instead of a panic. -/
def externTraits : Traits (Option ExternV) where
  isConstant := false
  zero := none
  bitSizeOf e := match e with
    | some e => e.bitSize.toNat
    | none => 0
  read := do let e ← readExtern; pure (some e)
  write e := match e with
    | some e => writeExtern e
    | none => throw (.panic "nil pointer dereference")
  asU64 _ := 0#64
  fromU64 _ := none

/-- /repo/ztype/array_traits.go:935-977 `BytesArrayTraits`; the size of a nil element is 0 instead of a panic. -/
def bytesTraits : Traits (Option BytesV) where
  isConstant := false
  zero := none
  bitSizeOf e := match e with
    | some e => e.byteSize.toNat * 8
    | none => 0
  read := do let e ← readBytes; pure (some e)
  write e := match e with
    | some e => writeBytes e
    | none => throw (.panic "nil pointer dereference")
  asU64 _ := 0#64
  fromU64 _ := none

/-- /repo/ztype/array_traits.go:130-175 `Float16ArrayTraits`; the Go element type is float32, here its bit pattern. -/
def float16Traits : Traits (BitVec 32) where
  isConstant := true
  zero := 0#32
  bitSizeOf _ := 16
  read := readFloat16
  write := writeFloat16
  asU64 _ := 0#64
  fromU64 _ := 0#32

/-- /repo/ztype/array_traits.go:177-220 `Float32ArrayTraits`. -/
def float32Traits : Traits (BitVec 32) where
  isConstant := true
  zero := 0#32
  bitSizeOf _ := 32
  read := readFloat32
  write := writeFloat32
  asU64 _ := 0#64
  fromU64 _ := 0#32

/-- /repo/ztype/array_traits.go:222-265 `Float64ArrayTraits`. -/
def float64Traits : Traits (BitVec 64) where
  isConstant := true
  zero := 0#64
  bitSizeOf _ := 64
  read := readFloat64
  write := writeFloat64
  asU64 _ := 0#64
  fromU64 _ := 0#64

end Verif
