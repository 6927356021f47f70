import Verif.GoText
import Verif.AstMix

/-!
# Types and casts of generated expressions

/repo/internal/ast/expression.go `Evaluate` as far as it finds the kind (`ResultType`) and the type (`NativeZserioType`) of
expressions, and /repo/internal/generator/expression.go:105-292, which puts in casts according to them.
-/

namespace Verif

/-- The declared type of a field, parameter, function result or array element: a builtin type, a subtype that stands for a
builtin type (through any number of steps, C39), an enum or a bitmask. The names are those of Go, with the package if it is
another one. -/
inductive DTy where
  | builtin (n : NType)
  | sub (name : Text) (n : NType)
  | enum (name : Text)
  | mask (name : Text)
deriving DecidableEq

/-- The name of a Go integer type. -/
def goNumText (g : GoNum) : Text := (if g.signed then "int".toList else "uint".toList) ++ decimal g.width

/-- /repo/internal/ast/scope.go:179-215 `RootScope.GoType` for numbers, truth values and strings; any other name is that of a
subtype and stands for itself (/repo/internal/ast/package.go `GoType`, without the package name). -/
def goTypeText (n : NType) : Text :=
  match goIntType n with
  | some g => goNumText g
  | none =>
    if n.name = "float16" ∨ n.name = "float32" then "float32".toList
    else n.name.toList

/-- /repo/internal/ast/scope.go:179 `GoType` of a declared type, which is also the type of the field of the generated struct
(templates/field_declaration.go.tmpl). -/
def DTy.goText : DTy → Text
  | .builtin n => goTypeText n
  | .sub name _ | .enum name | .mask name => name

/-- /repo/internal/ast/expression.go:117-130: the kind of a builtin type by its name. -/
def kindByName (name : String) : EKind :=
  if name = "bool" then .bool
  else if name = "string" then .string
  else if name = "float16" ∨ name = "float32" ∨ name = "float64" then .float
  else .integer

/-- /repo/internal/ast/expression.go:145-169 `evaluateSymbolType` of a field or parameter: subtypes are followed first. -/
def DTy.operand : DTy → Operand
  | .builtin n | .sub _ n => ⟨kindByName n.name, some n⟩
  | .enum _ => ⟨.enum, none⟩
  | .mask _ => ⟨.bitmask, none⟩

/-- /repo/internal/ast/expression.go:106-143 `evaluateExpressionType` of the type of an array element: line 117 looks at the
name of the reference, which is that of the subtype, and lines 119-129 return the reference to the subtype. -/
def DTy.elemOperand : DTy → Operand
  | .builtin n => ⟨kindByName n.name, some n⟩
  | .sub name _ => ⟨kindByName (String.ofList name), some ⟨String.ofList name, 0, false⟩⟩
  | .enum _ => ⟨.enum, none⟩
  | .mask _ => ⟨.bitmask, none⟩

/-- Expressions after evaluation, with what the generator looks at. `const` and `fconst` are the fully resolved numbers (a
shift of numbers has the type uint32), `lit` fully resolved truth values and strings, `sym` an identifier of a field or
parameter or a field of a field (the path is given as it is printed), `call` a function call with the operand its result
expression evaluates to, `elem` an array element, `item` the constant of an enum or bitmask with its value, `index` is `@index`.
Unary signs, `~` and `?:` are left out; they do not become Go expressions (C55). -/
inductive TEx where
  | const (z : Int) (native : Option NType)
  | fconst (t : Text) (native : NType)
  | lit (t : Text) (isString : Bool)
  | sym (p : PEx) (d : DTy)
  | call (p : PEx) (d : DTy) (r : Operand)
  | elem (p : PEx) (i : TEx) (d : DTy)
  | item (t : Text) (type : Text) (isMask : Bool) (z : Int)
  | index
  | lengthof (p : PEx)
  | numbits (e : TEx)
  | valueof (e : TEx)
  | paren (e : TEx)
  | arith (o : GOp) (a b : TEx)
  | bit (o : GOp) (a b : TEx)
  | shift (o : GOp) (a b : TEx)
  | cmp (o : GOp) (a b : TEx)
  | logic (o : GOp) (a b : TEx)
  | bang (e : TEx)
  | isset (a b : TEx)

def GOp.isArith : GOp → Bool
  | .add | .sub | .mul | .div | .mod => true
  | _ => false

def GOp.isBit : GOp → Bool
  | .band | .bor | .bxor => true
  | _ => false

def GOp.isShift : GOp → Bool
  | .shl | .shr => true
  | _ => false

def GOp.isCmp : GOp → Bool
  | .lt | .le | .gt | .ge | .eq | .ne => true
  | _ => false

def GOp.isLogic : GOp → Bool
  | .land | .lor => true
  | _ => false

/-- `expr.ResultType` and `expr.NativeZserioType` of an arithmetic expression: /repo/internal/ast/expression.go:476-560
`evaluateArithmeticExpression`. -/
def arithOperand (o : GOp) (a b : Operand) : Except String Operand :=
  if a.kind = .string ∧ b.kind = .string then
    if o = .add then .ok ⟨.string, none⟩ else .error "invalid operation on string operands"
  else if a.kind = .integer ∧ b.kind = .integer then mixTypes a b
  else if (a.kind = .float ∧ b.kind = .float) ∨ (a.kind = .integer ∧ b.kind = .float) ∨ (a.kind = .float ∧ b.kind = .integer) then
    if o = .mod then .error "unexpected operation in float arithmetic expression" else mixTypes a b
  else .error "arithmetic expressions for types other than int, float or string not implemented"

/-- /repo/internal/ast/expression.go:688-736 `evaluateBitwiseExpression` for `&`, `|` and `^`. -/
def bitOperand (a b : Operand) : Except String Operand :=
  if (a.kind ≠ .bitmask ∧ a.kind ≠ .integer) ∨ (b.kind ≠ .bitmask ∧ b.kind ≠ .integer) then
    .error "integer or bitmask types expected for bitwise expressions"
  else .ok ⟨a.kind, if a.type = none then b.type else a.type⟩

/-- /repo/internal/ast/expression.go:688-736 `evaluateBitwiseExpression` for shifts. -/
def shiftOperand (a b : Operand) : Except String Operand :=
  if (a.kind ≠ .bitmask ∧ a.kind ≠ .integer) ∨ (b.kind ≠ .bitmask ∧ b.kind ≠ .integer) then
    .error "integer or bitmask types expected for bitwise expressions"
  else .ok ⟨a.kind, some (a.type.getD ⟨"uint32", 0, false⟩)⟩

/-- /repo/internal/ast/expression.go:595-650 `evaluateComparisonExpression` -/
def cmpOperand (o : GOp) (a b : Operand) : Except String Operand :=
  if a.kind ≠ b.kind ∧ ¬ (a.kind = .enum ∧ b.kind = .integer) ∧ ¬ (b.kind = .enum ∧ a.kind = .integer) ∧
      ¬ (b.kind = .bitmask ∧ a.kind = .integer) ∧ ¬ (a.kind = .bitmask ∧ b.kind = .integer) then
    .error "comparison expression must have operands of the same type"
  else if a.kind = .float ∧ (o = .eq ∨ o = .ne) then .error "equal/notequal operator not supported for float types"
  else if a.kind = .string ∧ ¬ (o = .eq ∨ o = .ne) then .error "string types does not support greater / smaller comparisons"
  else .ok ⟨.bool, none⟩

/-- `ResultType` and `NativeZserioType` after /repo/internal/ast/expression.go:767-917 `Evaluate`. -/
def TEx.res : TEx → Except String Operand
  | .const _ n => .ok ⟨.integer, n⟩
  | .fconst _ n => .ok ⟨.float, some n⟩
  | .lit _ s => .ok ⟨if s then .string else .bool, none⟩
  | .sym _ d => .ok d.operand
  | .call _ _ r => .ok r
  | .elem _ i d => do
    let ri ← i.res
    if ri.kind ≠ .integer then .error "array index expression must be an integer" else .ok d.elemOperand
  | .item _ _ m _ => .ok ⟨if m then .bitmask else .integer, none⟩
  | .index => .ok ⟨.integer, none⟩
  | .lengthof _ => .ok ⟨.integer, some ⟨"int64", 0, false⟩⟩
  | .numbits e => do
    let r ← e.res
    if r.kind ≠ .integer then .error "numbits operator needs an integer type" else .ok ⟨.integer, none⟩
  | .valueof e => do
    let r ← e.res
    if r.kind ≠ .enum ∧ r.kind ≠ .bitmask then .error "valueof operator needs an expression or bitmask type"
    else .ok ⟨.integer, none⟩
  | .paren e => e.res
  | .arith o a b => do
    let ra ← a.res
    let rb ← b.res
    arithOperand o ra rb
  | .bit _ a b => do
    let ra ← a.res
    let rb ← b.res
    bitOperand ra rb
  | .shift _ a b => do
    let ra ← a.res
    let rb ← b.res
    shiftOperand ra rb
  | .cmp o a b => do
    let ra ← a.res
    let rb ← b.res
    cmpOperand o ra rb
  | .logic _ a b => do
    let ra ← a.res
    let rb ← b.res
    if ra.kind ≠ .bool ∨ rb.kind ≠ .bool then .error "integer or bitmask types expected for logical expressions"
    else .ok ⟨.bool, none⟩
  | .bang e => do
    let r ← e.res
    if r.kind ≠ .bool then .error "boolean operand expected" else .ok ⟨.bool, none⟩
  | .isset a b => do
    let ra ← a.res
    let rb ← b.res
    if ra.kind ≠ .bitmask ∨ rb.kind ≠ .bitmask then .error "the operands of the isset() operator must be a bitmask"
    else .ok ⟨.bool, none⟩

/-- The Go type of the symbol of an operand: /repo/internal/generator/expression.go:105-127 `getSymbolType` for the operands
with a `ResultSymbol` (set in /repo/internal/ast/expression.go:199, 273, 283, 323). -/
def TEx.symText : TEx → Option Text
  | .sym _ d | .call _ d _ => some d.goText
  | _ => none

/-- The cast of one operand: /repo/internal/generator/expression.go:175-213 and the same again in 215-238. `r` is the operand
the whole expression evaluates to, `ra` that of the operand `a`. -/
def castOf (r : Operand) (a : TEx) (ra : Operand) : Option Text :=
  match r.kind, r.type with
  | .integer, some t | .float, some t =>
    match a.symText with
    | some s => if s ≠ goTypeText t then some (goTypeText t) else none
    | none => if ra.kind ≠ r.kind ∨ (ra.type.map goTypeText).getD [] ≠ goTypeText t then some (goTypeText t) else none
  | _, _ => none

/-- The cast of an operand `x` of the arithmetic expression of `a` and `b`. -/
def arithCast (o : GOp) (a b x : TEx) : Option Text :=
  match a.res, b.res, x.res with
  | .ok ra, .ok rb, .ok rx => match arithOperand o ra rb with
    | .ok r => castOf r x rx
    | .error _ => none
  | _, _, _ => none

/-- The cast of the first operand of a shift: /repo/internal/generator/expression.go:276-286. -/
def shiftCast : TEx → Option Text
  | .const _ n => some (goTypeText (n.getD ⟨"uint32", 0, false⟩))
  | _ => none

/-- The expression as it is printed, with its casts: /repo/internal/generator/expression.go:329-410. Comparisons take the way of
arithmetic expressions (387-398), but as their kind is that of truth values line 175 puts in no casts. -/
def TEx.toPEx : TEx → PEx
  | .const z _ => .num z
  | .fconst t _ => .word t
  | .lit t _ => .word t
  | .sym p _ => p
  | .call p _ _ => .call p
  | .elem p i _ => .index p i.toPEx
  | .item t _ _ _ => .word t
  | .index => .word "index".toList
  | .lengthof p => .lengthof p
  | .numbits e => .numbits e.toPEx
  | .valueof e => .valueof e.toPEx
  | .paren e => .paren e.toPEx
  | .arith o a b => .bin o (arithCast o a b a) (arithCast o a b b) a.toPEx b.toPEx
  | .bit o a b => .bin o none none a.toPEx b.toPEx
  | .shift o a b => .bin o (shiftCast a) none a.toPEx b.toPEx
  | .cmp o a b => .bin o none none a.toPEx b.toPEx
  | .logic o a b => .bin o none none a.toPEx b.toPEx
  | .bang e => .bang e.toPEx
  | .isset a b => .isset a.toPEx b.toPEx

end Verif
