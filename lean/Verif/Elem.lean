import Verif.TraitsLaws
import Verif.Array

/-!
# All builtin array traits at once

The variables of /repo/ztype/array_traits.go:52-104 (`ArrayTraits`), the bit field traits of lines 110-128, as one
type, so that a statement can range over every traits the package offers.
-/

namespace Verif

/-- The traits types of /repo/ztype/array_traits.go.  `bits w n` / `sbits w n` are the bit field traits for an
unsigned / signed Go type of width `w` (8, 16, 32, 64) and `NumBits = n`; uint8…uint64 and int8…int64 are the cases
`n = w` (lines 69-76). -/
inductive Elem where
  | varint | varint16 | varint32 | varint64
  | varuint | varuint16 | varuint32 | varuint64 | varsize
  | bits (w n : Nat) | sbits (w n : Nat)
  | bool | string | bytes | extern | float16 | float32 | float64
  deriving DecidableEq, Repr

namespace Elem

/-- The Go element type. -/
def T : Elem → Type
  | varint | varint64 | varuint | varuint64 | varsize | float64 => BitVec 64
  | varint16 | varuint16 => BitVec 16
  | varint32 | varuint32 | float16 | float32 => BitVec 32
  | bits w _ | sbits w _ => BitVec w
  | bool => Bool
  | string => List Byte
  | bytes => Option BytesV
  | extern => Option ExternV

instance (k : Elem) : DecidableEq k.T := by cases k <;> unfold T <;> infer_instance

/-- The traits. -/
def traits : (k : Elem) → Traits k.T
  | varint => varIntTraits
  | varint16 => varInt16Traits
  | varint32 => varInt32Traits
  | varint64 => varInt64Traits
  | varuint => varUIntTraits
  | varuint16 => varUInt16Traits
  | varuint32 => varUInt32Traits
  | varuint64 => varUInt64Traits
  | varsize => varSizeTraits
  | bits w n => bitFieldTraits w n
  | sbits w n => signedBitFieldTraits w n
  | bool => boolTraits
  | string => stringTraits
  | bytes => bytesTraits
  | extern => externTraits
  | float16 => float16Traits
  | float32 => float32Traits
  | float64 => float64Traits

/-- Usable parameters: a bit field has at least one bit and fits its Go type. -/
def Wf : Elem → Prop
  | bits w n | sbits w n => 1 ≤ n ∧ n ≤ w ∧ w ≤ 64
  | _ => True

/-- The value range of the zserio type. -/
def Ok : (k : Elem) → k.T → Prop
  | varint => fun _ => True
  | varint16 => LeS maxVarint16
  | varint32 => LeS maxVarint32
  | varint64 => LeS maxVarint64
  | varuint => fun _ => True
  | varuint16 => LeU maxVaruint16
  | varuint32 => LeU maxVaruint32
  | varuint64 => LeU maxVaruint64
  | varsize => LeU maxVarsize
  | bits _ n => FitsU n
  | sbits _ n => FitsS n
  | bool => fun _ => True
  | string => fun e : List Byte => e.length ≤ maxVarsize
  | bytes => BytesOk
  | extern => ExternOk
  | float16 => IsHalf
  | float32 => fun _ => True
  | float64 => fun _ => True

/-- Integers and booleans. -/
def IntLike : Elem → Prop
  | string | bytes | extern | float16 | float32 | float64 => False
  | _ => True

/-- The values whose reported size is right: all in range, except that varint/varuint/varuint16 report a wrong size
for large values and strings for some lengths; byte and bit buffers never report the length field. -/
def SizeOk : (k : Elem) → k.T → Prop
  | varint => LeS (2 ^ 55 - 1)
  | varuint => LeU (2 ^ 56 - 1)
  | varuint16 => LeU (2 ^ 14 - 1)
  | string => fun e : List Byte => LenAgree e.length
  | bytes => fun _ => False
  | extern => fun _ => False
  | k => k.Ok

theorem rt (k : Elem) (hk : k.Wf) : k.traits.RT k.Ok := by
  cases k with
  | varint => exact varInt_rt
  | varint16 => exact varInt16_laws.rt
  | varint32 => exact varInt32_laws.rt
  | varint64 => exact varInt64_laws.rt
  | varuint => exact varUInt_rt
  | varuint16 => exact varUInt16_rt
  | varuint32 => exact varUInt32_laws.rt
  | varuint64 => exact varUInt64_laws.rt
  | varsize => exact varSize_laws.rt
  | bits w n => exact (bitField_laws hk.2.2).rt
  | sbits w n => exact (signedBitField_laws hk.1 hk.2.1 hk.2.2).rt
  | bool => exact bool_laws.rt
  | string => exact string_rt
  | bytes => exact bytes_rt
  | extern => exact extern_rt
  | float16 => exact float16_rt_exact.1
  | float32 => exact float32_rt_exact.1
  | float64 => exact float64_rt_exact.1

theorem recover (k : Elem) (hk : k.Wf) (hi : k.IntLike) : k.traits.Recover k.Ok := by
  cases k with
  | varint => exact fun _ _ => rfl
  | varint16 => exact varInt16_laws.recover
  | varint32 => exact varInt32_laws.recover
  | varint64 => exact varInt64_laws.recover
  | varuint => exact fun _ _ => rfl
  | varuint16 => exact fun e _ => setWidth_setWidth64 (by omega) e
  | varuint32 => exact varUInt32_laws.recover
  | varuint64 => exact varUInt64_laws.recover
  | varsize => exact varSize_laws.recover
  | bits w n => exact (bitField_laws hk.2.2).recover
  | sbits w n => exact (signedBitField_laws hk.1 hk.2.1 hk.2.2).recover
  | bool => exact bool_laws.recover
  | string => exact hi.elim
  | bytes => exact hi.elim
  | extern => exact hi.elim
  | float16 => exact hi.elim
  | float32 => exact hi.elim
  | float64 => exact hi.elim

theorem exact (k : Elem) (hk : k.Wf) : k.traits.Exact k.SizeOk := by
  cases k with
  | varint => exact varInt_laws.exact
  | varint16 => exact varInt16_laws.exact
  | varint32 => exact varInt32_laws.exact
  | varint64 => exact varInt64_laws.exact
  | varuint => exact varUInt_laws.exact
  | varuint16 => exact varUInt16_laws.exact
  | varuint32 => exact varUInt32_laws.exact
  | varuint64 => exact varUInt64_laws.exact
  | varsize => exact varSize_laws.exact
  | bits w n => exact (bitField_laws hk.2.2).exact
  | sbits w n => exact (signedBitField_laws hk.1 hk.2.1 hk.2.2).exact
  | bool => exact bool_laws.exact
  | string => exact string_exact
  | bytes => exact fun _ h => h.elim
  | extern => exact fun _ h => h.elim
  | float16 => exact float16_rt_exact.2
  | float32 => exact float32_rt_exact.2
  | float64 => exact float64_rt_exact.2

/-- Constant-size traits report the same size for every element. -/
theorem constant (k : Elem) (h : k.traits.isConstant = true) (e : k.T) : k.traits.bitSizeOf e = k.traits.bitSizeOf k.traits.zero := by
  cases k <;> first | rfl | (exact absurd h (by decide))

end Elem

end Verif
