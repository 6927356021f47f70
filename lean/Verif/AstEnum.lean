import Verif.Stream
import Mathlib.Data.Nat.Size

/-!
# Enumerations, bitmasks and Go types of bit fields

/repo/internal/ast/enum.go, /repo/internal/ast/bitmask.go, /repo/internal/ast/scope.go,
/repo/internal/generator/templates/enum.go.tmpl.
-/

namespace Verif

/-- The part of an evaluated expression that enums and bitmasks look at: /repo/internal/ast/expression.go:36-86
`ResultType` and `ResultIntValue`. -/
inductive ERes where
  | int (v : BitVec 64)
  | other
deriving DecidableEq

/-- /repo/internal/ast/enum.go:59-64 `EnumItem`, /repo/internal/ast/bitmask.go:3-6 `BitmaskValue`.  `expr` is nil or an
expression, of which only the outcome of its evaluation is kept (an error or a result). -/
structure EItem where
  name : String
  expr : Option (Except String ERes)
deriving DecidableEq

/-- /repo/internal/ast/enum.go:10-16 -/
def missingEnumValue (name : String) : String := "no value set for enum item " ++ name

/-- /repo/internal/ast/enum.go:33-54: the body of the loop in `Enum.Evaluate`, which sets the value of item `i`. -/
def enumValue (prev : Option ERes) (i : EItem) : Except String ERes :=
  match i.expr, prev with
  | none, none => .ok (.int 0#64)
  | none, some (.int v) => .ok (.int (v + 1#64))
  | none, some .other => .error (missingEnumValue i.name)
  | some e, _ => e

/-- The loop /repo/internal/ast/enum.go:32-55 of `Enum.Evaluate`; `prev` is the result of the item before (none for the
first).  The result are the items with their expressions set. -/
def enumLoop : Option ERes → List EItem → Except String (List EItem)
  | _, [] => .ok []
  | prev, i :: is => do
    let r ← enumValue prev i
    let rest ← enumLoop (some r) is
    pure ({ i with expr := some (.ok r) } :: rest)

/-- /repo/internal/ast/enum.go:31-57 `Enum.Evaluate`. -/
def enumEvaluate (items : List EItem) : Except String (List EItem) := enumLoop none items

/-- The loop of /repo/internal/ast/bitmask.go:16-19: the number of shifts until the value is not positive.  At most 63. -/
def shiftsToZero : Nat → BitVec 64 → Nat
  | 0, _ => 0
  | n + 1, v => if (0#64).slt v then shiftsToZero n (v.sshiftRight 1) + 1 else 0

/-- /repo/internal/ast/bitmask.go:14-21 `findNextFreeBit`; the loop ends after at most 63 iterations
(`shiftsToZero_stable`). -/
def findNextFreeBit (last : BitVec 64) : BitVec 64 := 1#64 <<< shiftsToZero 64 last

/-- /repo/internal/ast/bitmask.go:25-46: the body of the loop in `BitmaskType.Evaluate`. -/
def bitmaskValue (prev : Option ERes) (i : EItem) : Except String ERes :=
  match i.expr, prev with
  | none, none => .ok (.int 1#64)
  | none, some (.int v) => .ok (.int (findNextFreeBit v))
  | none, some .other => .error (missingEnumValue i.name)
  | some e, _ => e

/-- The loop /repo/internal/ast/bitmask.go:24-47. -/
def bitmaskLoop : Option ERes → List EItem → Except String (List EItem)
  | _, [] => .ok []
  | prev, i :: is => do
    let r ← bitmaskValue prev i
    let rest ← bitmaskLoop (some r) is
    pure ({ i with expr := some (.ok r) } :: rest)

/-- /repo/internal/ast/bitmask.go:23-49 `BitmaskType.Evaluate`. -/
def bitmaskEvaluate (items : List EItem) : Except String (List EItem) := bitmaskLoop none items

/-! ## Names of enum values -/

/-- A generated enum type: the items with their values of the Go type.  Go requires the keys of a map literal to be
distinct, so the generated file compiles only if names and values are. -/
abbrev EnumTable (w : Nat) := List (String × BitVec w)

/-- enum.go.tmpl:56-65 `XString` with the map on lines 38-42. -/
def EnumTable.parse {w : Nat} (t : EnumTable w) (s : String) : Option (BitVec w) := (t.find? fun e => e.1 == s).map (·.2)

/-- enum.go.tmpl:68-73 `String` with the map on lines 32-36; `fmt` of a number is the parameter `unknown`. -/
def EnumTable.str {w : Nat} (t : EnumTable w) (unknown : BitVec w → String) (v : BitVec w) : String :=
  match t.find? fun e => e.2 == v with
  | some e => e.1
  | none => unknown v

/-! ## Go types -/

/-- A Go type for numbers. -/
structure GoNum where
  signed : Bool
  width : Nat
deriving DecidableEq

/-- /repo/internal/ast/scope.go:163-177 `goBits`; none is the empty string. -/
def goBits (b : Nat) : Option Nat :=
  if b = 0 then none else if b ≤ 8 then some 8 else if b ≤ 16 then some 16 else if b ≤ 32 then some 32 else some 64

/-- /repo/internal/ast/scope.go:184-200: the Go type of `int:b` (signed) and `bit:b`, with a dynamic width in case of a
length expression; `int` and `uint` without width are 64 bit wide on the platforms considered. -/
def goBitFieldType (signed : Bool) (dynamic : Bool) (b : Nat) : GoNum :=
  ⟨signed, if dynamic then 64 else (goBits b).getD 64⟩

/-- /repo/internal/ast/scope.go:12-31: the integer entries of `zserioTypeToGoType`. -/
def goIntTypes : List (String × GoNum) :=
  [("int8", ⟨true, 8⟩), ("int16", ⟨true, 16⟩), ("int32", ⟨true, 32⟩), ("int64", ⟨true, 64⟩),
   ("uint8", ⟨false, 8⟩), ("uint16", ⟨false, 16⟩), ("uint32", ⟨false, 32⟩), ("uint64", ⟨false, 64⟩),
   ("varint", ⟨true, 64⟩), ("varint16", ⟨true, 16⟩), ("varint32", ⟨true, 32⟩), ("varint64", ⟨true, 64⟩),
   ("varuint", ⟨false, 64⟩), ("varsize", ⟨false, 64⟩), ("varuint16", ⟨false, 16⟩), ("varuint32", ⟨false, 32⟩),
   ("varuint64", ⟨false, 64⟩)]

/-- A Go conversion between integer types keeps the low bits or extends according to the sign of the source. -/
def goConv (src : GoNum) (dst : GoNum) (v : BitVec src.width) : BitVec dst.width :=
  if src.signed then v.signExtend dst.width else v.setWidth dst.width

/-- The number a Go integer stands for. -/
def GoNum.val (t : GoNum) (v : BitVec t.width) : Int := if t.signed then v.toInt else (v.toNat : Int)

end Verif
