import Verif.AstMix
import Verif.Literals
import Mathlib.Data.Nat.Size

/-!
# Evaluation of expressions and constants

/repo/internal/ast/expression.go `Evaluate` (767-917) with the functions it calls, /repo/internal/ast/const.go and
`EvaluateConsts` of /repo/internal/model/transform.go:127-136.

Floating point numbers are values of an arbitrary type with the operations of Go (`FloatOps`). Expressions that need the
types of fields (`.`, `[]`, function calls, `lengthof`, `@index`, identifiers of fields, parameters and types) are leaves with
a given result.
-/

namespace Verif

/-- Go's float64, as far as constant folding uses it. -/
structure FloatOps (F : Type) where
  zero : F
  one : F
  add : F → F → F
  sub : F → F → F
  mul : F → F → F
  div : F → F → F
  ofInt : BitVec 64 → F
  lt : F → F → Bool
  le : F → F → Bool

/-- The result fields of an expression: /repo/internal/ast/expression.go:52-82. `ty = none` is the empty `ResultType` of an
expression that was not evaluated. `ResultSymbol` is left out. -/
structure Res (F : Type) where
  ty : Option EKind
  i : BitVec 64
  f : F
  s : Text
  b : Bool
  native : Option NType

/-- The fields before evaluation. -/
def Res.init {F : Type} (o : FloatOps F) : Res F := ⟨none, 0#64, o.zero, [], false, none⟩

/-- How a call of `Evaluate` ends. -/
inductive Out where
  | ok | err | panic
deriving DecidableEq

/-- The unary operators (token types of /repo/internal/parser/ZserioParser.g4:345-353). -/
inductive UnOp where
  | paren | plus | minus | bang | tilde | numbits | valueof
deriving DecidableEq

/-- The binary operators. -/
inductive BOp where
  | add | sub | mul | div | mod
  | shl | shr | band | bor | bxor
  | land | lor
  | lt | le | gt | ge | eq | ne
  | isset
deriving DecidableEq

/-- Expressions. A leaf has the result fields it gets, tells if it is fully resolved and if its evaluation succeeds. `ref` is
an identifier that names a constant (or an enum item with a value of its own, which is treated in the same way). -/
inductive Ex (F : Type) where
  | leaf (r : Res F) (full ok : Bool)
  | ref (name : Text)
  | un (op : UnOp) (e : Ex F)
  | bin (op : BOp) (a b : Ex F)
  | tern (c a b : Ex F)

/-- An evaluated expression. -/
structure EVal (F : Type) where
  out : Out
  res : Res F
  full : Bool

variable {F : Type}

/-- /repo/internal/ast/expression.go:205-229 `evaluateValueOfOperator`, `evaluateNumBitsOperator`, 430-466
`evaluateParenthesizedExpression`, `evaluateUnaryArithmeticExpression`, 562-572 `evaluateLogicalNegation`, 674-686
`evaluateBitwiseNegation`. -/
def evalUn (o : FloatOps F) (op : UnOp) (x : Res F) : Out × Res F :=
  match op with
  | .valueof =>
    if x.ty ≠ some .enum ∧ x.ty ≠ some .bitmask then (.err, Res.init o)
    else (.ok, { Res.init o with ty := some .integer, i := x.i })
  | .numbits =>
    if x.ty ≠ some .integer then (.err, Res.init o)
    else (.ok, { Res.init o with ty := some .integer, i := BitVec.ofNat 64 (Nat.size x.i.toNat) })
  | .paren => (.ok, { Res.init o with ty := x.ty, i := x.i, s := x.s, b := x.b, native := x.native })
  | .plus =>
    if x.ty ≠ some .integer ∧ x.ty ≠ some .float then (.err, Res.init o)
    else (.ok, { Res.init o with ty := x.ty, native := x.native, i := if x.ty = some .integer then x.i else 0#64 })
  | .minus =>
    if x.ty ≠ some .integer ∧ x.ty ≠ some .float then (.err, Res.init o)
    else (.ok, { Res.init o with ty := x.ty, native := x.native, i := if x.ty = some .integer then -x.i else 0#64 })
  | .bang =>
    if x.ty ≠ some .bool then (.err, Res.init o)
    else (.ok, { Res.init o with ty := x.ty, b := !x.b })
  | .tilde =>
    if x.ty ≠ some .integer ∧ x.ty ≠ some .bitmask then (.err, Res.init o)
    else (.ok, { Res.init o with ty := x.ty, i := ~~~x.i, native := x.native })

/-- /repo/internal/ast/expression.go:507-520: the integer operators; `none` is the panic of a division by zero. -/
def intArith (op : BOp) (x y : BitVec 64) : Option (BitVec 64) :=
  match op with
  | .add => some (x + y)
  | .sub => some (x - y)
  | .mul => some (x * y)
  | .div => if y = 0#64 then none else some (x.sdiv y)
  | .mod => if y = 0#64 then none else some (x.srem y)
  | _ => none

/-- /repo/internal/ast/expression.go:544-555: the operators on floating point numbers; `none` is the error. -/
def floatArith (o : FloatOps F) (op : BOp) (x y : F) : Option F :=
  match op with
  | .add => some (o.add x y)
  | .sub => some (o.sub x y)
  | .mul => some (o.mul x y)
  | .div => some (o.div x y)
  | _ => none

/-- /repo/internal/ast/expression.go:469-560 `evaluateArithmeticExpression` with two operands; the last component is the new
`FullyResolved`. -/
def evalArith (o : FloatOps F) (op : BOp) (x y : Res F) (full : Bool) : EVal F :=
  if x.ty = some .string ∧ y.ty = some .string then
    if op = .add then ⟨.ok, { Res.init o with ty := some .string, s := x.s ++ y.s }, full⟩
    else ⟨.err, Res.init o, full⟩
  else if x.ty = some .integer ∧ y.ty = some .integer then
    match mixTypes ⟨.integer, x.native⟩ ⟨.integer, y.native⟩ with
    | .error _ => ⟨.err, { Res.init o with ty := some .integer }, full⟩
    | .ok t =>
      match intArith op (if full then x.i else 1#64) (if full then y.i else 1#64) with
      | none => ⟨.panic, { Res.init o with ty := some t.kind, native := t.type }, full⟩
      | some v => ⟨.ok, { Res.init o with ty := some t.kind, native := t.type, i := v }, full⟩
  else if (x.ty = some .float ∧ y.ty = some .float) ∨ (x.ty = some .integer ∧ y.ty = some .float)
      ∨ (x.ty = some .float ∧ y.ty = some .integer) then
    match mixTypes ⟨if x.ty = some .integer then .integer else .float, x.native⟩
        ⟨if y.ty = some .integer then .integer else .float, y.native⟩ with
    | .error _ => ⟨.err, { Res.init o with ty := some .float }, full⟩
    | .ok t =>
      match floatArith o op
          (if full then (if x.ty = some .integer then o.ofInt x.i else x.f) else o.one)
          (if full then (if y.ty = some .integer then o.ofInt y.i else y.f) else o.one) with
      | none => ⟨.err, { Res.init o with ty := some t.kind, native := t.type }, full⟩
      | some v => ⟨.ok, { Res.init o with ty := some t.kind, native := t.type, f := v }, full⟩
  else ⟨.err, Res.init o, full⟩

/-- /repo/internal/ast/expression.go:574-594 `evaluateLogicalExpression` -/
def evalLogical (o : FloatOps F) (op : BOp) (x y : Res F) : Out × Res F :=
  if x.ty ≠ some .bool ∨ y.ty ≠ some .bool then (.err, Res.init o)
  else match op with
    | .land => (.ok, { Res.init o with ty := some .bool, b := x.b && y.b })
    | .lor => (.ok, { Res.init o with ty := some .bool, b := x.b || y.b })
    | _ => (.err, { Res.init o with ty := some .bool })

/-- /repo/internal/ast/expression.go:596-651 `evaluateComparisonExpression`. Operands of a type not listed (bool, enum,
compound) leave `ResultBoolValue` at false. -/
def evalCompare (o : FloatOps F) (op : BOp) (x y : Res F) : Out × Res F :=
  if x.ty ≠ y.ty ∧ ¬ (x.ty = some .enum ∧ y.ty = some .integer) ∧ ¬ (y.ty = some .enum ∧ x.ty = some .integer)
      ∧ ¬ (y.ty = some .bitmask ∧ x.ty = some .integer) ∧ ¬ (x.ty = some .bitmask ∧ y.ty = some .integer)
  then (.err, Res.init o)
  else if x.ty = some .integer ∨ x.ty = some .bitmask then
    match op with
    | .lt => (.ok, { Res.init o with ty := some .bool, b := x.i.slt y.i })
    | .le => (.ok, { Res.init o with ty := some .bool, b := x.i.sle y.i })
    | .gt => (.ok, { Res.init o with ty := some .bool, b := y.i.slt x.i })
    | .ge => (.ok, { Res.init o with ty := some .bool, b := y.i.sle x.i })
    | .eq => (.ok, { Res.init o with ty := some .bool, b := decide (x.i = y.i) })
    | .ne => (.ok, { Res.init o with ty := some .bool, b := decide (x.i ≠ y.i) })
    | _ => (.err, { Res.init o with ty := some .bool })
  else if x.ty = some .float then
    match op with
    | .lt => (.ok, { Res.init o with ty := some .bool, b := o.lt x.f y.f })
    | .le => (.ok, { Res.init o with ty := some .bool, b := o.le x.f y.f })
    | .gt => (.ok, { Res.init o with ty := some .bool, b := o.lt y.f x.f })
    | .ge => (.ok, { Res.init o with ty := some .bool, b := o.le y.f x.f })
    | _ => (.err, { Res.init o with ty := some .bool })
  else if x.ty = some .string then
    match op with
    | .eq => (.ok, { Res.init o with ty := some .bool, b := decide (x.s = y.s) })
    | .ne => (.ok, { Res.init o with ty := some .bool, b := decide (x.s ≠ y.s) })
    | _ => (.err, { Res.init o with ty := some .bool })
  else (.ok, { Res.init o with ty := some .bool })

/-- /repo/internal/ast/expression.go:702-717: the operators on bits; `none` is the panic of a shift by a negative number. -/
def bitArith (op : BOp) (x y : BitVec 64) : Option (BitVec 64) :=
  match op with
  | .shl => if y.toInt < 0 then none else some (x <<< y.toNat)
  | .shr => if y.toInt < 0 then none else some (x.sshiftRight y.toNat)
  | .band => some (x &&& y)
  | .bor => some (x ||| y)
  | .bxor => some (x ^^^ y)
  | _ => none

/-- /repo/internal/ast/expression.go:688-738 `evaluateBitwiseExpression` -/
def evalBitwise (o : FloatOps F) (op : BOp) (x y : Res F) : Out × Res F :=
  if (x.ty ≠ some .bitmask ∧ x.ty ≠ some .integer) ∨ (y.ty ≠ some .bitmask ∧ y.ty ≠ some .integer) then (.err, Res.init o)
  else match bitArith op x.i y.i with
    | none => (.panic, { Res.init o with ty := x.ty, native := x.native })
    | some v =>
      let isShift := decide (op = .shl ∨ op = .shr)
      let native := match x.native with
        | some t => some t
        | none => if isShift then some ⟨"uint32", 0, false⟩ else y.native
      (.ok, { Res.init o with ty := x.ty, native := native, i := v })

/-- /repo/internal/ast/expression.go:414-428 `evaluateIsSetOperator` -/
def evalIsSet (o : FloatOps F) (x y : Res F) : Out × Res F :=
  if x.ty ≠ some .bitmask ∨ y.ty ≠ some .bitmask then (.err, Res.init o)
  else (.ok, { Res.init o with ty := some .bool, b := decide (x.i &&& y.i ≠ 0#64) })

/-- The cases of /repo/internal/ast/expression.go:814-876 with two operands. -/
def evalBin (o : FloatOps F) (op : BOp) (x y : Res F) (full : Bool) : EVal F :=
  let v := fun (r : Out × Res F) => (⟨r.1, r.2, full⟩ : EVal F)
  match op with
  | .add | .sub | .mul | .div | .mod => evalArith o op x y full
  | .shl | .shr | .band | .bor | .bxor => v (evalBitwise o op x y)
  | .land | .lor => v (evalLogical o op x y)
  | .lt | .le | .gt | .ge | .eq | .ne => v (evalCompare o op x y)
  | .isset => v (evalIsSet o x y)

/-- /repo/internal/ast/expression.go:653-672 `evaluateTernaryExpression` -/
def evalTern (o : FloatOps F) (c a b : Res F) : Out × Res F :=
  if c.ty ≠ some .bool then (.err, Res.init o)
  else
    let x := if c.b then a else b
    (.ok, { Res.init o with ty := x.ty, i := x.i, b := x.b, s := x.s, native := x.native })

/-- What an identifier of a constant stands for: no symbol of that name, a panic while its constant was evaluated, or the
result fields copied from the constant (/repo/internal/ast/expression.go:88-96 `copyExpressionResult`). -/
inductive Ans (F : Type) where
  | missing | panic
  | found (r : Res F)

/-- /repo/internal/ast/expression.go:178-202 `evaluateIdentifier`, after the constant has been evaluated: its error is ignored
and whatever is in its result fields is copied. -/
def ansVal (o : FloatOps F) : Ans F → EVal F
  | .missing => ⟨.err, Res.init o, true⟩
  | .panic => ⟨.panic, Res.init o, true⟩
  | .found r => ⟨.ok, r, true⟩

/-- /repo/internal/ast/expression.go:767-917 `Evaluate` of an expression, given what its identifiers stand for. Operands are
evaluated first, all of them, from left to right. -/
def fold (o : FloatOps F) (env : Text → Ans F) : Ex F → EVal F
  | .leaf r full ok => ⟨if ok then .ok else .err, r, full⟩
  | .ref name => ansVal o (env name)
  | .un op e =>
    let x := fold o env e
    if x.out ≠ .ok then ⟨x.out, Res.init o, true⟩
    else let r := evalUn o op x.res; ⟨r.1, r.2, x.full⟩
  | .bin op a b =>
    let x := fold o env a
    if x.out ≠ .ok then ⟨x.out, Res.init o, true⟩
    else
      let y := fold o env b
      if y.out ≠ .ok then ⟨y.out, Res.init o, true⟩
      else evalBin o op x.res y.res (x.full && y.full)
  | .tern c a b =>
    let x := fold o env c
    if x.out ≠ .ok then ⟨x.out, Res.init o, true⟩
    else
      let y := fold o env a
      if y.out ≠ .ok then ⟨y.out, Res.init o, true⟩
      else
        let z := fold o env b
        if z.out ≠ .ok then ⟨z.out, Res.init o, true⟩
        else let r := evalTern o x.res y.res z.res; ⟨r.1, r.2, x.full && y.full && z.full⟩

/-! ## Constants that refer to constants -/

/-- `Evaluate` of an expression whose identifiers make further expressions be evaluated: the handler `h` evaluates the constant
of a name and changes the state. `none` stands for a recursion that is deeper than the given bound. -/
def evalTree {S : Type} (o : FloatOps F) (h : Text → S → Option (Ans F × S)) : Ex F → S → Option (EVal F × S)
  | .leaf r full ok, st => some (⟨if ok then .ok else .err, r, full⟩, st)
  | .ref name, st =>
    match h name st with
    | none => none
    | some (a, st) => some (ansVal o a, st)
  | .un op e, st =>
    match evalTree o h e st with
    | none => none
    | some (x, st) =>
      if x.out ≠ .ok then some (⟨x.out, Res.init o, true⟩, st)
      else let r := evalUn o op x.res; some (⟨r.1, r.2, x.full⟩, st)
  | .bin op a b, st =>
    match evalTree o h a st with
    | none => none
    | some (x, st) =>
      if x.out ≠ .ok then some (⟨x.out, Res.init o, true⟩, st)
      else match evalTree o h b st with
        | none => none
        | some (y, st) =>
          if y.out ≠ .ok then some (⟨y.out, Res.init o, true⟩, st)
          else some (evalBin o op x.res y.res (x.full && y.full), st)
  | .tern c a b, st =>
    match evalTree o h c st with
    | none => none
    | some (x, st) =>
      if x.out ≠ .ok then some (⟨x.out, Res.init o, true⟩, st)
      else match evalTree o h a st with
        | none => none
        | some (y, st) =>
          if y.out ≠ .ok then some (⟨y.out, Res.init o, true⟩, st)
          else match evalTree o h b st with
            | none => none
            | some (z, st) =>
              if z.out ≠ .ok then some (⟨z.out, Res.init o, true⟩, st)
              else let r := evalTern o x.res y.res z.res; some (⟨r.1, r.2, x.full && y.full && z.full⟩, st)

/-- /repo/internal/ast/expression.go:26-33 -/
inductive EvalState where
  | notStarted | inProgress | complete
deriving DecidableEq

/-- The value expression of a constant: its state and result fields. The states of its operands are not kept: they are
evaluated only when the state of the whole expression is `notStarted`. -/
structure CState (F : Type) where
  status : EvalState
  res : Res F

/-- The constants of a model: their number, expressions and packages, and what a name means in a package (the symbol lookup
of /repo/internal/ast/package.go:209-228, see C48, C49). -/
structure Consts (F P : Type) where
  n : Nat
  expr : Nat → Ex F
  home : Nat → P
  lookup : P → Text → Option Nat
  lookup_lt : ∀ p name k, lookup p name = some k → k < n

abbrev CStates (F : Type) := Nat → CState F

def CStates.set (st : CStates F) (k : Nat) (c : CState F) : CStates F := fun j => if j = k then c else st j

variable {P : Type}

/-- `evaluateIdentifier` (/repo/internal/ast/expression.go:178-202) in the package `p`, for a function that evaluates constants. -/
def answer (C : Consts F P) (p : P) (visit : Nat → CStates F → Option (Out × CStates F)) (name : Text) (st : CStates F) :
    Option (Ans F × CStates F) :=
  match C.lookup p name with
  | none => some (.missing, st)
  | some k =>
    match visit k st with
    | none => none
    | some (.panic, st) => some (.panic, st)
    | some (_, st) => some (.found (st k).res, st)

/-- `Evaluate` (/repo/internal/ast/expression.go:767-917) of the value expression of a constant in the package `p`: note that
`p` is the package the evaluation was started in, not the package of the constant. -/
def visitConst (o : FloatOps F) (C : Consts F P) (p : P) : Nat → Nat → CStates F → Option (Out × CStates F)
  | 0, _, _ => none
  | fuel + 1, k, st =>
    match (st k).status with
    | .complete => some (.ok, st)
    | .inProgress => some (.err, st)
    | .notStarted =>
      match evalTree o (answer C p (visitConst o C p fuel)) (C.expr k) (st.set k ⟨.inProgress, Res.init o⟩) with
      | none => none
      | some (v, st) =>
        match v.out with
        | .ok => some (.ok, st.set k ⟨.complete, v.res⟩)
        | .err => some (.err, st.set k ⟨.inProgress, v.res⟩)
        | .panic => some (.panic, st)

/-- /repo/internal/model/transform.go:127-136 `EvaluateConsts`; the order is that of two Go maps, so it is arbitrary. -/
def evaluateConsts (o : FloatOps F) (C : Consts F P) (fuel : Nat) : List Nat → CStates F → Option (Out × CStates F)
  | [], st => some (.ok, st)
  | k :: ks, st =>
    match visitConst o C (C.home k) fuel k st with
    | none => none
    | some (.ok, st) => evaluateConsts o C fuel ks st
    | some (out, st) => some (out, st)

/-- The constants before evaluation. -/
def CStates.start (o : FloatOps F) : CStates F := fun _ => ⟨.notStarted, Res.init o⟩

end Verif
