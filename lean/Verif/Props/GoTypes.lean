import Verif.GoTypes
import Verif.Props.GoText
import Verif.Props.Mix
import Mathlib.Data.Int.Bitwise

/-!
# C66: generated expressions have the types Go demands
-/

namespace Verif

/-! ## Specification: the types of Go expressions -/

/-- Types of Go expressions: the predeclared integer types of a given size, floating point types, truth values, strings, and
types of their own, to which also `int` counts. Aliases are not types of their own. -/
inductive GTy where
  | num (n : GoNum)
  | flt (w : Nat)
  | named (t : Text)
  | bool
  | str
deriving DecidableEq

/-- What Go knows about an expression: an untyped constant integer, an untyped constant with a fraction, or an expression of a
type, with its value if it is a constant integer. -/
inductive GTyping where
  | const (z : Int)
  | fconst
  | typed (t : GTy) (c : Option Int)
deriving DecidableEq

/-- The declarations an expression refers to: what a name means as a type, the integer type behind a type with a name of its
own, the types of names, fields and methods, and the element types of arrays. -/
structure GoEnv where
  tyName : Text → Option GTy
  under : Text → Option GoNum
  prim : GEx → Option GTyping
  elem : GEx → Option GTy

/-- The numbers of an integer type. -/
def GoNum.Holds (n : GoNum) (z : Int) : Prop :=
  if n.signed then -(2 ^ (n.width - 1) : Int) ≤ z ∧ z < 2 ^ (n.width - 1) else 0 ≤ z ∧ z < 2 ^ n.width

instance (n : GoNum) (z : Int) : Decidable (n.Holds z) := by unfold GoNum.Holds; infer_instance

/-- The integer type behind a type. -/
def GTy.int (env : GoEnv) : GTy → Option GoNum
  | .num n => some n
  | .named t => env.under t
  | _ => none

def GTy.isFlt : GTy → Bool
  | .flt _ => true
  | _ => false

/-- https://go.dev/ref/spec#Representability of an integer constant. (Every integer that is written in a schema is below the
largest float32.) -/
def representable (env : GoEnv) (z : Int) (t : GTy) : Bool :=
  match t.int env with
  | some n => decide (n.Holds z)
  | none => t.isFlt

/-- https://go.dev/ref/spec#Conversions between numbers. -/
def convert (env : GoEnv) (t : GTy) : GTyping → Option GTyping
  | .const z => if representable env z t then some (.typed t (some z)) else none
  | .fconst => if t.isFlt then some (.typed t none) else none
  | .typed s (some z) => if ((s.int env).isSome || s.isFlt) && representable env z t then some (.typed t (some z)) else none
  | .typed s none => if ((s.int env).isSome || s.isFlt) && ((t.int env).isSome || t.isFlt) then some (.typed t none) else none

/-- https://go.dev/ref/spec#Operators: "For other binary operators, the operand types must be identical unless the operation
involves shifts or untyped constants." -/
def unify (env : GoEnv) : GTyping → GTyping → Option GTy
  | .typed s _, .typed t _ => if s = t then some s else none
  | .typed s _, .const z => if representable env z s then some s else none
  | .const z, .typed t _ => if representable env z t then some t else none
  | .typed s _, .fconst => if s.isFlt then some s else none
  | .fconst, .typed t _ => if t.isFlt then some t else none
  | _, _ => none

/-- The value of a constant. -/
def GTyping.value : GTyping → Option Int
  | .const z => some z
  | .fconst => none
  | .typed _ c => c

/-- Integer operators on mathematical integers: division truncates, and is not defined for zero. -/
def intOp (o : GOp) (x y : Int) : Option Int :=
  match o with
  | .add => some (x + y)
  | .sub => some (x - y)
  | .mul => some (x * y)
  | .div => if y = 0 then none else some (x.tdiv y)
  | .mod => if y = 0 then none else some (x.tmod y)
  | .band => some (x.land y)
  | .bor => some (x.lor y)
  | .bxor => some (x.xor y)
  | .shl => if y < 0 then none else some (x * 2 ^ y.toNat)
  | .shr => if y < 0 then none else some (x / 2 ^ y.toNat)
  | _ => none

/-- https://go.dev/ref/spec#Arithmetic_operators: `+` works on numbers and strings, `-`, `*` and `/` on numbers, the others on
integers. -/
def operates (env : GoEnv) (o : GOp) (t : GTy) : Bool :=
  (t.int env).isSome || (t.isFlt && (o = .add || o = .sub || o = .mul || o = .div)) || (o = .add && t = .str)

/-- Arithmetic and bitwise operators. A constant divisor of integers is not zero, and a constant expression does not leave its
type (https://go.dev/ref/spec#Constant_expressions). -/
def checkArith (env : GoEnv) (o : GOp) (x y : GTyping) : Option GTyping :=
  match x, y with
  | .const a, .const b => (intOp o a b).map .const
  | _, _ => (unify env x y).bind fun t =>
    if !operates env o t then none
    else if (o = .div || o = .mod) && (t.int env).isSome && y.value = some 0 then none
    else match x.value, y.value with
      | some a, some b => (intOp o a b).bind fun v => if representable env v t then some (.typed t (some v)) else none
      | _, _ => some (.typed t none)

/-- Shifts, with a first operand that has a type. (An untyped first operand takes the type of its context, unless the second
operand is constant, too; both are not modelled.) The second operand is an integer, and not negative if it is constant. -/
def checkShift (env : GoEnv) (o : GOp) (x y : GTyping) : Option GTyping :=
  match x with
  | .typed t c =>
    let count := match y with
      | .const z => decide (0 ≤ z)
      | .typed s d => (s.int env).isSome && d.all (decide <| 0 ≤ ·)
      | .fconst => false
    if (t.int env).isSome && count then
      match c, y.value with
      | some a, some b => (intOp o a b).bind fun v => if representable env v t then some (.typed t (some v)) else none
      | _, _ => some (.typed t none)
    else none
  | _ => none

/-- https://go.dev/ref/spec#Comparison_operators: all types here can be tested for equality, all but truth values are ordered. -/
def checkCmp (env : GoEnv) (o : GOp) (x y : GTyping) : Option GTyping :=
  match x, y with
  | .const _, .const _ | .fconst, .const _ | .const _, .fconst | .fconst, .fconst => some (.typed .bool none)
  | _, _ => (unify env x y).bind fun t => if o = .eq ∨ o = .ne ∨ t ≠ .bool then some (.typed .bool none) else none

/-- `&&` and `||`. -/
def checkLogic : GTyping → GTyping → Option GTyping
  | .typed .bool _, .typed .bool _ => some (.typed .bool none)
  | _, _ => none

/-- `x` may be an index. -/
def isIndex (env : GoEnv) : GTyping → Bool
  | .const z => decide (0 ≤ z)
  | .fconst => false
  | .typed t c => (t.int env).isSome && c.all (decide <| 0 ≤ ·)

/-- The type of a Go expression; `none` if the compiler refuses it. (Variables of type `bool` and comparisons, which are untyped
in Go, are not kept apart.) -/
def goCheck (env : GoEnv) : GEx → Option GTyping
  | .name t => env.prim (.name t)
  | .num n => some (.const n)
  | .paren g => goCheck env g
  | .call0 f => env.prim (.call0 f)
  | .call (.name t) a =>
    if t = lenName then (env.elem a).map fun _ => .typed (.named "int".toList) none
    else (env.tyName t).bind fun t => (goCheck env a).bind (convert env t)
  | .call (.sel (.name p) f) a =>
    if p = ztypeName ∧ f = numBitsName then
      (goCheck env a).bind fun x => if unify env x (.typed (.num ⟨false, 64⟩) none) = some (.num ⟨false, 64⟩) then
        some (.typed (.named "int".toList) none) else none
    else none
  | .call _ _ => none
  | .index a b => (env.elem a).bind fun t => (goCheck env b).bind fun x => if isIndex env x then some (.typed t none) else none
  | .sel g t => env.prim (.sel g t)
  | .un .minus g => (goCheck env g).bind fun x => match x with
    | .const z => some (.const (-z))
    | _ => none
  | .un .bang g => (goCheck env g).bind fun x => match x with
    | .typed .bool _ => some (.typed .bool none)
    | _ => none
  | .un _ _ => none
  | .bin o a b => (goCheck env a).bind fun x => (goCheck env b).bind fun y =>
    if o.isArith || o.isBit then checkArith env o x y
    else if o.isShift then checkShift env o x y
    else if o.isCmp then checkCmp env o x y
    else checkLogic x y
  | .cond _ _ _ => none

/-! ## Specification: expressions of a schema -/

/-- The predeclared names mean what they mean in Go; `int` has 64 bits. -/
structure GoEnv.Ok (env : GoEnv) : Prop where
  num : ∀ s : Bool, ∀ w ∈ [8, 16, 32, 64], env.tyName (goNumText ⟨s, w⟩) = some (.num ⟨s, w⟩)
  float32 : env.tyName "float32".toList = some (.flt 32)
  float64 : env.tyName "float64".toList = some (.flt 64)
  bool : env.tyName "bool".toList = some .bool
  string : env.tyName "string".toList = some .str
  int : env.under "int".toList = some ⟨true, 64⟩

/-- A type of Go that suits a kind of expressions. -/
def GTy.Suits (env : GoEnv) : EKind → GTy → Prop
  | .integer, t | .enum, t | .bitmask, t => (t.int env).isSome
  | .float, t => t.isFlt
  | .bool, t => t = .bool
  | .string, t => t = .str
  | .compound, _ => False

/-- The builtin types expressions are made of: numbers, truth values and strings. -/
def NType.IsBuiltin (n : NType) : Prop := n.IsInt ∨ (∃ w, IsFloat n w) ∨ n = ⟨"bool", 0, false⟩ ∨ n = ⟨"string", 0, false⟩

/-- A subtype of a builtin type is declared as an alias of its Go type (templates/package.go.tmpl:11), enums and bitmasks as
types of their own. -/
def DTy.Declared (env : GoEnv) : DTy → Prop
  | .builtin n => n.IsBuiltin
  | .sub name n => n.IsBuiltin ∧ env.tyName name = env.tyName (goTypeText n)
  | .enum name | .mask name => env.tyName name = some (.named name) ∧ (env.under name).isSome

/-- A reference to a subtype of an integer type, as a type of expressions. Its name is not one of the builtin types. -/
structure NType.IsSub (env : GoEnv) (t : NType) : Prop where
  bits : t.bits = 0
  dyn : t.dyn = false
  rank : integerTypeRank.lookup t.name = none
  other : t.name ∉ ["int", "bit", "uint", "float16", "float32", "float64", "bool", "string", "len", ""]
  type : ∃ g, env.tyName t.name.toList = some g ∧ (g.int env).isSome

/-- The types of numbers in expressions. -/
def NType.IsNum (env : GoEnv) (k : EKind) (t : NType) : Prop :=
  (k = .integer ∧ (t.IsInt ∨ t.IsSub env)) ∨ (k = .float ∧ ∃ w, IsFloat t w)

/-- A number has a type that suits its kind; only integers may come without type. -/
def Operand.IsOk (env : GoEnv) (r : Operand) : Prop :=
  (r.kind = .integer ∨ r.kind = .bitmask → ∀ t, r.type = some t → t.IsNum env .integer) ∧
  (r.kind = .float → ∃ t, r.type = some t ∧ t.IsNum env .float)

theorem Operand.IsOk.num {env : GoEnv} {r : Operand} (h : r.IsOk env) (hk : r.kind = .integer ∨ r.kind = .float) {t : NType}
    (ht : r.type = some t) : t.IsNum env r.kind := by
  rcases hk with hk | hk
  · rw [hk]; exact h.1 (.inl hk) t ht
  · obtain ⟨t', h1, h2⟩ := h.2 hk
    rw [ht, Option.some.injEq] at h1
    rw [hk, h1]; exact h2

/-- The names in an expression are declared as the generator declares them. -/
def TEx.Declared (env : GoEnv) : TEx → Prop
  | .const _ n => ∀ t, n = some t → t.IsNum env .integer
  | .fconst t n => env.prim (.name t) = some .fconst ∧ ∃ w, IsFloat n w
  | .lit t s => env.prim (.name t) = some (.typed (if s then .str else .bool) none)
  | .sym p d => d.Declared env ∧ goCheck env (meant p) = (env.tyName d.goText).map (.typed · none)
  | .call p d r => d.Declared env ∧ goCheck env (.call0 (meant p)) = (env.tyName d.goText).map (.typed · none) ∧ r.IsOk env ∧
      ∃ g, env.tyName d.goText = some g ∧ g.Suits env r.kind
  | .elem p i d => i.Declared env ∧ d.Declared env ∧ env.elem (meant p) = env.tyName d.goText ∧
      ∀ name n, d = .sub name n → NType.IsSub env ⟨String.ofList name, 0, false⟩
  | .item t type _ z => env.prim (.name t) = some (.typed (.named type) (some z)) ∧ (env.under type).isSome
  | .index => env.prim (.name "index".toList) = some (.typed (.named "int".toList) none)
  | .lengthof p => (env.elem (meant p)).isSome
  | .numbits e | .valueof e | .paren e | .bang e => e.Declared env
  | .arith o a b => o.isArith ∧ a.Declared env ∧ b.Declared env
  | .bit o a b => o.isBit ∧ a.Declared env ∧ b.Declared env
  | .shift o a b => o.isShift ∧ a.Declared env ∧ b.Declared env
  | .cmp o a b => o.isCmp ∧ a.Declared env ∧ b.Declared env
  | .logic o a b => o.isLogic ∧ a.Declared env ∧ b.Declared env
  | .isset a b => a.Declared env ∧ b.Declared env

/-- The type an expression of the schema should have in Go, `none` for a constant number. -/
def TEx.goTy (env : GoEnv) : TEx → Option GTy
  | .const _ _ | .fconst _ _ => none
  | .lit _ s => some (if s then .str else .bool)
  | .sym _ d | .call _ d _ | .elem _ _ d => env.tyName d.goText
  | .item _ type _ _ => some (.named type)
  | .index | .numbits _ => some (.named "int".toList)
  | .lengthof _ => some (.num ⟨true, 64⟩)
  | .valueof e | .paren e => e.goTy env
  | .arith o a b => match (TEx.arith o a b).res with
    | .ok ⟨.integer, some t⟩ | .ok ⟨.float, some t⟩ => env.tyName (goTypeText t)
    | _ => (a.goTy env).or (b.goTy env)
  | .bit _ a b => (a.goTy env).or (b.goTy env)
  | .shift _ a _ => match a with
    | .const _ n => env.tyName (goTypeText (n.getD ⟨"uint32", 0, false⟩))
    | a => a.goTy env
  | .cmp _ _ _ | .logic _ _ _ | .bang _ | .isset _ _ => some .bool

/-- The value of a constant number, enum item or bitmask value. -/
def TEx.cval : TEx → Option Int
  | .const z _ => some z
  | .item _ _ _ z => some z
  | .valueof e | .paren e => e.cval
  | _ => none

/-- If the expression is a constant, it is a value of the type. -/
def TEx.Fits (env : GoEnv) (e : TEx) (t : GTy) : Prop := ∀ z, e.cval = some z → representable env z t = true

/-- The Go type of an expression is the one its zserio type has in Go. -/
def TEx.Faithful (env : GoEnv) (e : TEx) : Prop := ∀ r t, e.res = .ok r → r.type = some t → e.goTy env = env.tyName (goTypeText t)

/-- Two operands have one type `t` in Go, without casts. -/
def Agree (env : GoEnv) (a b : TEx) (t : GTy) : Prop :=
  (a.goTy env = some t ∧ b.goTy env = some t) ∨
  (a.goTy env = some t ∧ (∃ z n, b = .const z n) ∧ b.Fits env t) ∨
  (b.goTy env = some t ∧ (∃ z n, a = .const z n) ∧ a.Fits env t) ∨
  (a.goTy env = some t ∧ (∃ s n, b = .fconst s n) ∧ t.isFlt) ∨
  (b.goTy env = some t ∧ (∃ s n, a = .fconst s n) ∧ t.isFlt)

/-- Not both operands are constants (an expression of constants has been evaluated, apart from enum and bitmask values). -/
def NotBoth (a b : TEx) : Prop := ¬ (a.cval.isSome ∧ b.cval.isSome)

/-- The expression is a number known to the generator. -/
def TEx.isNumber : TEx → Bool
  | .const _ _ | .fconst _ _ => true
  | _ => false

/-- What is needed beyond the checks of the generator. Arithmetic on numbers with a known type: constants are in the range of
the result, a constant divisor is not zero, the Go types of parenthesised, bitwise and shift operands are those of their
zserio types. Other operators: the operands have the same Go type to begin with. -/
def TEx.Sound (env : GoEnv) : TEx → Prop
  | .const _ _ | .fconst _ _ | .lit _ _ | .sym _ _ | .call _ _ _ | .item _ _ _ _ | .index | .lengthof _ => True
  | .elem _ i _ => i.Sound env ∧ (∀ z, i.cval = some z → 0 ≤ z)
  | .numbits e => e.Sound env ∧ e.isNumber = false ∧ e.Fits env (.num ⟨false, 64⟩)
  | .valueof e | .paren e | .bang e => e.Sound env ∧ e.isNumber = false
  | .arith o a b => a.Sound env ∧ b.Sound env ∧ NotBoth a b ∧ ¬ (a.isNumber ∧ b.isNumber) ∧
    match (TEx.arith o a b).res with
    | .ok ⟨.integer, some t⟩ | .ok ⟨.float, some t⟩ =>
      (∀ g, env.tyName (goTypeText t) = some g →
        a.Fits env g ∧ b.Fits env g ∧ (o = .div ∨ o = .mod → (g.int env).isSome → b.cval ≠ some 0)) ∧
      (a.isNumber ∨ a.symText.isSome ∨ a.Faithful env) ∧ (b.isNumber ∨ b.symText.isSome ∨ b.Faithful env)
    | _ => ∃ g, Agree env a b g ∧ (o = .div ∨ o = .mod → b.cval ≠ some 0)
  | .bit _ a b | .isset a b => a.Sound env ∧ b.Sound env ∧ NotBoth a b ∧ ∃ g, Agree env a b g
  | .shift _ a b => a.Sound env ∧ b.Sound env ∧ NotBoth a b ∧ (∀ z, b.cval = some z → 0 ≤ z) ∧
      ∀ z n, a = .const z n → ∀ g, env.tyName (goTypeText (n.getD ⟨"uint32", 0, false⟩)) = some g → representable env z g = true
  | .cmp o a b => a.Sound env ∧ b.Sound env ∧ ∃ g, Agree env a b g ∧ (o = .eq ∨ o = .ne ∨ g ≠ .bool)
  | .logic _ a b => a.Sound env ∧ b.Sound env

/-! ## Types of numbers -/

theorem IsInt.text {t : NType} (h : t.IsInt) : ∃ s : Bool, ∃ w ∈ [8, 16, 32, 64], goTypeText t = goNumText ⟨s, w⟩ := by
  obtain ⟨r, w, f⟩ := intFacts t h
  refine ⟨t.isSigned, w, ?_, by simp [goTypeText, f.go]⟩
  rcases f.width with h | ⟨_, _, h⟩
  · rw [h]; unfold goWidthFor; split_ifs <;> simp
  · simp [h]

theorem goNumText_ne (s : Bool) (w : Nat) (hw : w ∈ [8, 16, 32, 64]) : goNumText ⟨s, w⟩ ≠ lenName ∧ goNumText ⟨s, w⟩ ≠ [] := by
  simp only [List.mem_cons, List.not_mem_nil, or_false] at hw
  rcases hw with rfl | rfl | rfl | rfl <;> cases s <;> decide

/-- What the checker needs to know of the type of a number. -/
structure NumType (env : GoEnv) (k : EKind) (t : NType) (g : GTy) : Prop where
  type : env.tyName (goTypeText t) = some g
  suits : g.Suits env k
  len : goTypeText t ≠ lenName
  nonempty : goTypeText t ≠ []

theorem goIntType_none {t : NType} (h : goIntTypes.lookup t.name = none) (h1 : t.name ≠ "int") (h2 : t.name ≠ "bit")
    (h3 : t.name ≠ "uint") : goIntType t = none := by simp [goIntType, h, h1, h2, h3]

theorem rank_none {n : String} (h : integerTypeRank.lookup n = none) : goIntTypes.lookup n = none := by
  rw [List.lookup_eq_none_iff] at h ⊢
  simp only [integerTypeRank, goIntTypes, List.mem_cons, List.not_mem_nil, or_false, forall_eq_or_imp, forall_eq] at h ⊢
  simp_all

theorem IsNum.type {env : GoEnv} (henv : env.Ok) {k : EKind} {t : NType} (h : t.IsNum env k) : ∃ g, NumType env k t g := by
  rcases h with ⟨rfl, h | h⟩ | ⟨rfl, w, h⟩
  · obtain ⟨s, w, hw, ht⟩ := IsInt.text h
    obtain ⟨h1, h2⟩ := goNumText_ne s w hw
    exact ⟨.num ⟨s, w⟩, by rw [ht]; exact henv.num s w hw, rfl, by rwa [ht], by rwa [ht]⟩
  · obtain ⟨g, hg, hi⟩ := h.type
    have ho := h.other
    simp only [List.mem_cons, List.not_mem_nil, or_false, not_or] at ho
    have ht : goTypeText t = t.name.toList := by
      rw [goTypeText, goIntType_none (rank_none h.rank) ho.1 ho.2.1 ho.2.2.1]
      simp [ho]
    refine ⟨g, by rw [ht]; exact hg, hi, ?_, ?_⟩
    · rw [ht]; intro hc
      exact ho.2.2.2.2.2.2.2.2.1 (by rw [← String.ofList_toList (s := t.name), hc]; rfl)
    · rw [ht]; intro hc
      exact ho.2.2.2.2.2.2.2.2.2 (by rw [← String.ofList_toList (s := t.name), hc])
  · cases h with
    | f16 => exact ⟨.flt 32, by rw [show goTypeText ⟨"float16", 0, false⟩ = "float32".toList by decide +kernel]; exact henv.float32, rfl, by decide +kernel, by decide +kernel⟩
    | f32 => exact ⟨.flt 32, by rw [show goTypeText ⟨"float32", 0, false⟩ = "float32".toList by decide +kernel]; exact henv.float32, rfl, by decide +kernel, by decide +kernel⟩
    | f64 => exact ⟨.flt 64, by rw [show goTypeText ⟨"float64", 0, false⟩ = "float64".toList by decide +kernel]; exact henv.float64, rfl, by decide +kernel, by decide +kernel⟩

theorem sameNType_none {a b : Option NType} (h : sameNType a b = true) : a = b := by
  cases a <;> cases b <;> simp_all [sameNType]
  exact sameNType_eq (by simp [sameNType, h])

theorem IsSub.rank {env : GoEnv} {t : NType} (h : t.IsSub env) : getIntegerTypeRank t = .error (unknownType t.name) := by
  simp [getIntegerTypeRank, h.dyn, h.bits, h.rank]

/-- The result of mixing two numbers is a number, of a floating point type if one of them is. -/
theorem mix_ok {env : GoEnv} {a b r : Operand} (ha : a.IsOk env) (hb : b.IsOk env) (hka : a.kind = .integer ∨ a.kind = .float)
    (hkb : b.kind = .integer ∨ b.kind = .float) (h : mixTypes a b = .ok r) :
    r.IsOk env ∧ (r.kind = if a.kind = .float ∨ b.kind = .float then .float else .integer) := by
  obtain ⟨ka, ta⟩ := a
  obtain ⟨kb, tb⟩ := b
  simp only at hka hkb
  unfold mixTypes at h
  split_ifs at h with h1 h2 h3
  · obtain ⟨hk, hs⟩ := h1
    simp only at hk hs
    subst hk
    cases h
    exact ⟨ha, by rcases hka with rfl | rfl <;> simp⟩
  · have key : ∀ {t : NType}, (∃ w, IsFloat t w) → (⟨.float, some t⟩ : Operand).IsOk env :=
      fun hw => ⟨fun h => by simp at h, fun _ => ⟨_, rfl, .inr ⟨rfl, hw⟩⟩⟩
    have fl : ∀ {k : EKind} {t : Option NType}, (⟨k, t⟩ : Operand).IsOk env → k = .float → ∃ t', t = some t' ∧ ∃ w, IsFloat t' w := by
      rintro k t ⟨h1, h2⟩ rfl
      obtain ⟨t', h3, ⟨h, _⟩ | ⟨_, h⟩⟩ := h2 rfl
      · cases h
      · exact ⟨t', h3, h⟩
    unfold mixFloat at h
    refine ⟨?_, ?_⟩
    · split_ifs at h with hs
      · cases h
        have := sameNType_none hs
        subst this
        rcases h2 with h2 | h2
        · obtain ⟨t', rfl, hw⟩ := fl ha h2; exact key hw
        · obtain ⟨t', rfl, hw⟩ := fl hb h2; exact key hw
      · cases ta with
        | none =>
          cases h
          rcases h2 with h2 | h2
          · obtain ⟨t', ht, _⟩ := fl ha h2; cases ht
          · obtain ⟨t', rfl, hw⟩ := fl hb h2; exact key hw
        | some ta =>
          cases tb with
          | none =>
            cases h
            rcases h2 with h2 | h2
            · obtain ⟨t', ht, hw⟩ := fl ha h2; rw [ht]; exact key hw
            · obtain ⟨t', ht, _⟩ := fl hb h2; cases ht
          | some tb =>
            simp only at h
            split_ifs at h
            · cases h; exact key ⟨_, .f64⟩
            · cases h; exact key ⟨_, .f32⟩
            · cases h; exact key ⟨_, .f16⟩
            · cases h
    · simp only at h2
      rw [if_pos h2]
      cases hm : (if sameNType ta tb then Except.ok ta else _ : Except String (Option NType)) with
      | error e => rw [hm] at h; cases h
      | ok x => rw [hm] at h; cases h; rfl
  · simp only at h2 h3
    push Not at h2 h3
    obtain ⟨rfl, rfl⟩ := h3
    simp only [reduceCtorEq, or_self, if_false]
    have key : ∀ {t : Option NType}, (∀ t', t = some t' → t'.IsInt ∨ t'.IsSub env) → (⟨.integer, t⟩ : Operand).IsOk env :=
      fun hw => ⟨fun _ t' ht => .inl ⟨rfl, hw t' ht⟩, fun h => by cases h⟩
    have un : ∀ {t : Option NType}, (⟨.integer, t⟩ : Operand).IsOk env → ∀ t', t = some t' → t'.IsInt ∨ t'.IsSub env := by
      intro t ht t' h'
      rcases ht.1 (.inl rfl) t' h' with ⟨_, h⟩ | ⟨h, _⟩
      · exact h
      · cases h
    unfold mixInt at h
    split_ifs at h with hs
    · cases h; exact ⟨ha, rfl⟩
    · cases ta with
      | none => cases h; exact ⟨hb, rfl⟩
      | some ta =>
        cases tb with
        | none => cases h; exact ⟨ha, rfl⟩
        | some tb =>
          simp only at h
          cases hm : mixInt2 ta tb with
          | error e => rw [hm] at h; cases h
          | ok x =>
            rw [hm] at h; cases h
            refine ⟨key fun t' ht => ?_, rfl⟩
            cases ht
            rcases un ha ta rfl with hia | hsa
            · rcases un hb tb rfl with hib | hsb
              · obtain ⟨ra, wa, fa⟩ := intFacts ta hia
                obtain ⟨rb, wb, fb⟩ := intFacts tb hib
                obtain ⟨t, h1, h2, _⟩ := mixInt2_facts ta tb ra wa rb wb fa fb hia hib
                rw [h1] at hm; cases hm
                exact .inl h2
              · obtain ⟨ra, wa, fa⟩ := intFacts ta hia
                simp [mixInt2, fa.rank, IsSub.rank hsb, bind, Except.bind] at hm
            · simp [mixInt2, IsSub.rank hsa, bind, Except.bind] at hm

/-! ## The checker accepts the text -/

/-- What is known of the text of an expression with result `r`. -/
structure TypedAs (env : GoEnv) (e : TEx) (r : Operand) : Prop where
  ok : r.IsOk env
  const : ∀ z n, e = .const z n → goCheck env (meant e.toPEx) = some (.const z)
  fconst : ∀ s n, e = .fconst s n → goCheck env (meant e.toPEx) = some .fconst
  typed : e.isNumber = false → ∃ g, e.goTy env = some g ∧ g.Suits env r.kind ∧ goCheck env (meant e.toPEx) = some (.typed g e.cval)

/-- `y` is what the checker finds for an operand `e` that takes part in an operation on the type `g`. -/
def Into (env : GoEnv) (e : TEx) (g : GTy) (y : GTyping) : Prop :=
  y = .typed g e.cval ∨ (∃ z n, e = .const z n ∧ y = .const z ∧ representable env z g = true) ∨
  (∃ s n, e = .fconst s n ∧ y = .fconst ∧ g.isFlt = true)

theorem Into.value {env : GoEnv} {e : TEx} {g : GTy} {y : GTyping} (h : Into env e g y) : y.value = e.cval := by
  rcases h with rfl | ⟨z, n, rfl, rfl, _⟩ | ⟨s, n, rfl, rfl, _⟩ <;> rfl

theorem Into.unify {env : GoEnv} {a b : TEx} {g : GTy} {x y : GTyping} (ha : Into env a g x) (hb : Into env b g y)
    (hn : ¬ (a.isNumber ∧ b.isNumber)) :
    Verif.unify env x y = some g := by
  rcases ha with rfl | ⟨z, n, rfl, rfl, hz⟩ | ⟨s, n, rfl, rfl, hz⟩ <;>
  rcases hb with rfl | ⟨z', n', rfl, rfl, hz'⟩ | ⟨s', n', rfl, rfl, hz'⟩ <;>
  simp_all [Verif.unify, TEx.isNumber]

theorem checkArith_ok {env : GoEnv} {o : GOp} {a b : TEx} {g : GTy} {x y : GTyping} (ha : Into env a g x) (hb : Into env b g y)
    (hn : ¬ (a.isNumber ∧ b.isNumber)) (hc : NotBoth a b) (ho : operates env o g = true)
    (hz : o = .div ∨ o = .mod → (g.int env).isSome → b.cval ≠ some 0) : checkArith env o x y = some (.typed g none) := by
  have hu := Into.unify ha hb hn
  have hcc : ∀ c d, ¬ (x = .const c ∧ y = .const d) := by
    rintro c d ⟨rfl, rfl⟩
    simp [Verif.unify] at hu
  have e : checkArith env o x y = (Verif.unify env x y).bind fun t =>
      if !operates env o t then none
      else if (o = .div || o = .mod) && (t.int env).isSome && y.value = some 0 then none
      else match x.value, y.value with
        | some a, some b => (intOp o a b).bind fun v => if representable env v t then some (.typed t (some v)) else none
        | _, _ => some (.typed t none) := by
    unfold checkArith
    split
    · rename_i c d; exact absurd ⟨rfl, rfl⟩ (hcc c d)
    · rfl
  rw [e, hu, Option.bind_some, ha.value, hb.value]
  have h0 : ¬ ((o = .div || o = .mod) && (g.int env).isSome && (b.cval = some 0 : Bool)) = true := by
    intro h
    simp only [Bool.and_eq_true, Bool.or_eq_true, decide_eq_true_eq] at h
    exact hz h.1.1 h.1.2 h.2
  simp only [ho, Bool.not_true, Bool.false_eq_true, if_false]
  rw [if_neg h0]
  split
  · rename_i p q; exact absurd ⟨by simp [p], by simp [q]⟩ hc
  · rfl

/-- A converted operand. -/
theorem convert_into {env : GoEnv} {e : TEx} {r : Operand} (h : TypedAs env e r) {g : GTy} {k : EKind} (hk : k = .integer ∨ k = .float)
    (hg : g.Suits env k) (he : r.kind = .integer ∨ r.kind = .float ∨ r.kind = .enum ∨ r.kind = .bitmask) (hf : e.Fits env g)
    (hfl : r.kind = .float → k = .float) {t : Text} (ht : t ≠ lenName) (htn : env.tyName t = some g)
    (hnf : ∀ s n, e = .fconst s n → g.isFlt = true) :
    goCheck env (.call (.name t) (meant e.toPEx)) = some (.typed g e.cval) := by
  have hnum : ((g.int env).isSome || g.isFlt) = true := by
    rcases hk with rfl | rfl
    · simp only [GTy.Suits] at hg; simp [hg]
    · simp only [GTy.Suits] at hg; simp [hg]
  simp only [goCheck, if_neg ht, htn, Option.bind_some]
  cases hn : e.isNumber with
  | true =>
    cases e with
    | const z n =>
      rw [h.const z n rfl]
      have := hf z rfl
      simp [convert, this, TEx.cval]
    | fconst s n =>
      rw [h.fconst s n rfl]
      simp [convert, hnf s n rfl, TEx.cval]
    | _ => simp [TEx.isNumber] at hn
  | false =>
    obtain ⟨s, _, hs, hc⟩ := h.typed hn
    have hsn : ((s.int env).isSome || s.isFlt) = true := by
      rcases he with he | he | he | he <;> rw [he] at hs <;> simp only [GTy.Suits] at hs <;> simp [hs]
    rw [hc, Option.bind_some]
    cases hv : e.cval with
    | none => simp only [convert, hsn, hnum, Bool.and_self, if_true]
    | some z =>
      have := hf z hv
      simp only [convert, hsn, this, Bool.and_self, if_true]

/-- What is known of a declared type. -/
structure DeclType (env : GoEnv) (d : DTy) (r : Operand) (g : GTy) : Prop where
  type : env.tyName d.goText = some g
  suits : g.Suits env r.kind
  ok : r.IsOk env
  faithful : ∀ t, r.type = some t → env.tyName (goTypeText t) = some g

theorem IsInt.kind {t : NType} (h : t.IsInt) : kindByName t.name = .integer := by
  have : t.name ∈ ["int", "bit", "uint"] ++ zserioIntBits.map (·.1) := by
    rcases h with ⟨h, _⟩ | ⟨h, _⟩
    · exact List.mem_append_left _ h
    · exact List.mem_append_right _ h
  have key : ∀ n ∈ ["int", "bit", "uint"] ++ zserioIntBits.map (·.1), kindByName n = .integer := by decide +kernel
  exact key _ this

theorem IsBuiltin.type {env : GoEnv} (henv : env.Ok) {n : NType} (h : n.IsBuiltin) :
    ∃ g, DeclType env (.builtin n) ⟨kindByName n.name, some n⟩ g := by
  have num : ∀ k, kindByName n.name = k → n.IsNum env k → (k = .integer ∨ k = .float) →
      ∃ g, DeclType env (.builtin n) ⟨kindByName n.name, some n⟩ g := by
    intro k hk hn hk'
    obtain ⟨g, hg⟩ := IsNum.type henv hn
    refine ⟨g, hg.type, hk ▸ hg.suits, ⟨fun h t ht => ?_, fun h => ⟨n, rfl, ?_⟩⟩, fun t ht => by cases ht; exact hg.type⟩
    · cases ht
      rcases hk' with hk' | hk'
      · exact hk' ▸ hn
      · simp [hk, hk'] at h
    · simp only [hk] at h; exact h ▸ hn
  rcases h with h | ⟨w, h⟩ | h | h
  · exact num .integer (IsInt.kind h) (.inl ⟨rfl, .inl h⟩) (.inl rfl)
  · exact num .float (by cases h <;> decide +kernel) (.inr ⟨rfl, w, h⟩) (.inr rfl)
  · subst h
    have ht : goTypeText ⟨"bool", 0, false⟩ = "bool".toList := by decide +kernel
    have hk : kindByName "bool" = .bool := by decide +kernel
    refine ⟨.bool, by rw [DTy.goText, ht]; exact henv.bool, by simp only [hk]; rfl, ⟨fun h => ?_, fun h => ?_⟩, fun t h => ?_⟩
    · simp [hk] at h
    · simp [hk] at h
    · cases h; rw [ht]; exact henv.bool
  · subst h
    have ht : goTypeText ⟨"string", 0, false⟩ = "string".toList := by decide +kernel
    have hk : kindByName "string" = .string := by decide +kernel
    refine ⟨.str, by rw [DTy.goText, ht]; exact henv.string, by simp only [hk]; rfl, ⟨fun h => ?_, fun h => ?_⟩, fun t h => ?_⟩
    · simp [hk] at h
    · simp [hk] at h
    · cases h; rw [ht]; exact henv.string

theorem DTy.Declared.type {env : GoEnv} (henv : env.Ok) {d : DTy} (h : d.Declared env) : ∃ g, DeclType env d d.operand g := by
  cases d with
  | builtin n => exact IsBuiltin.type henv h
  | sub name n =>
    obtain ⟨g, hg⟩ := IsBuiltin.type henv h.1
    exact ⟨g, by rw [DTy.goText, h.2]; exact hg.type, hg.suits, hg.ok, hg.faithful⟩
  | enum name => exact ⟨.named name, h.1, h.2, ⟨fun h => by simp [DTy.operand] at h, fun h => by simp [DTy.operand] at h⟩, fun t h => by simp [DTy.operand] at h⟩
  | mask name => exact ⟨.named name, h.1, h.2, ⟨fun _ t h => by simp [DTy.operand] at h, fun h => by simp [DTy.operand] at h⟩, fun t h => by simp [DTy.operand] at h⟩

theorem DTy.Declared.elemType {env : GoEnv} (henv : env.Ok) {d : DTy} (h : d.Declared env)
    (hs : ∀ name n, d = .sub name n → NType.IsSub env ⟨String.ofList name, 0, false⟩) : ∃ g, DeclType env d d.elemOperand g := by
  cases d with
  | builtin n => exact IsBuiltin.type henv h
  | sub name n =>
    have hsub := hs name n rfl
    have hn : NType.IsNum env .integer ⟨String.ofList name, 0, false⟩ := .inl ⟨rfl, .inr hsub⟩
    obtain ⟨g, hg⟩ := IsNum.type henv hn
    have ho := hsub.other
    simp only [List.mem_cons, List.not_mem_nil, or_false, not_or] at ho
    have hk : kindByName (String.ofList name) = .integer := by simp [kindByName, ho]
    have ht : goTypeText ⟨String.ofList name, 0, false⟩ = name := by
      rw [goTypeText, goIntType_none (rank_none hsub.rank) ho.1 ho.2.1 ho.2.2.1]
      simp [ho]
    exact ⟨g, ht ▸ hg.type, by simp only [DTy.elemOperand, hk]; exact hg.suits,
      ⟨fun _ t h => by cases h; exact hn, fun h => by simp [DTy.elemOperand, hk] at h⟩,
      fun t h => by cases h; exact hg.type⟩
  | enum name => exact ⟨.named name, h.1, h.2, ⟨fun h => by simp [DTy.elemOperand] at h, fun h => by simp [DTy.elemOperand] at h⟩, fun t h => by simp [DTy.elemOperand] at h⟩
  | mask name => exact ⟨.named name, h.1, h.2, ⟨fun _ t h => by simp [DTy.elemOperand] at h, fun h => by simp [DTy.elemOperand] at h⟩, fun t h => by simp [DTy.elemOperand] at h⟩

theorem goTy_sym {env : GoEnv} {x : TEx} {s : Text} (h : x.symText = some s) : x.goTy env = env.tyName s ∧ x.isNumber = false := by
  cases x <;> simp_all [TEx.symText, TEx.goTy, TEx.isNumber]

/-- An operand of an arithmetic operation on a known type, with the cast of the generator. -/
theorem operand_into {env : GoEnv} {r rx : Operand} {x : TEx} {t : NType} {g : GTy} (hr : r.type = some t)
    (hk : r.kind = .integer ∨ r.kind = .float) (ht : NumType env r.kind t g) (hx : TypedAs env x rx) (hxr : x.res = .ok rx)
    (hkx : rx.kind = .integer ∨ rx.kind = .float) (hfl : rx.kind = .float → r.kind = .float) (hfit : x.Fits env g)
    (hfa : x.isNumber ∨ x.symText.isSome ∨ x.Faithful env) :
    ∃ y, goCheck env (castGo (castOf r x rx) (meant x.toPEx)) = some y ∧ Into env x g y := by
  have hnf : ∀ s n, x = .fconst s n → g.isFlt = true := by
    rintro s n rfl
    have : rx.kind = .float := by simp only [TEx.res, Except.ok.injEq] at hxr; rw [← hxr]
    have := ht.suits
    rw [hfl ‹_›] at this
    exact this
  have he : castOf r x rx = match x.symText with
      | some s => if s ≠ goTypeText t then some (goTypeText t) else none
      | none => if rx.kind ≠ r.kind ∨ (rx.type.map goTypeText).getD [] ≠ goTypeText t then some (goTypeText t) else none := by
    unfold castOf
    rcases hk with hk | hk <;> rw [hk, hr] <;> cases x.symText <;> rfl
  have hconv : castOf r x rx = some (goTypeText t) →
      ∃ y, goCheck env (castGo (castOf r x rx) (meant x.toPEx)) = some y ∧ Into env x g y := by
    intro h
    rw [h]
    exact ⟨_, convert_into hx hk ht.suits (by rcases hkx with h | h <;> simp [h]) hfit hfl ht.len ht.type hnf, .inl rfl⟩
  have htyped : castOf r x rx = none → x.isNumber = false → x.goTy env = some g →
      ∃ y, goCheck env (castGo (castOf r x rx) (meant x.toPEx)) = some y ∧ Into env x g y := by
    intro h hn hg
    obtain ⟨g', h1, _, h3⟩ := hx.typed hn
    rw [hg, Option.some.injEq] at h1
    subst h1
    rw [h]
    exact ⟨_, h3, .inl rfl⟩
  cases hs : x.symText with
  | some s =>
    rw [hs] at he
    simp only at he
    by_cases hst : s = goTypeText t
    · rw [if_neg (by simp [hst])] at he
      obtain ⟨h1, h2⟩ := goTy_sym (env := env) hs
      exact htyped he h2 (by rw [h1, hst]; exact ht.type)
    · rw [if_pos hst] at he
      exact hconv he
  | none =>
    rw [hs] at he
    simp only at he
    split_ifs at he with hc
    · exact hconv he
    · push Not at hc
      cases hn : x.isNumber with
      | true =>
        rw [he]
        cases x with
        | const z n => exact ⟨_, hx.const z n rfl, .inr (.inl ⟨z, n, rfl, rfl, hfit z rfl⟩)⟩
        | fconst s n => exact ⟨_, hx.fconst s n rfl, .inr (.inr ⟨s, n, rfl, rfl, hnf s n rfl⟩)⟩
        | _ => simp [TEx.isNumber] at hn
      | false =>
        refine htyped he hn ?_
        rcases hfa with h | h | h
        · rw [hn] at h; cases h
        · rw [hs] at h; cases h
        · cases hty : rx.type with
          | none => rw [hty] at hc; exact absurd hc.2.symm ht.nonempty
          | some t' =>
            rw [hty] at hc
            rw [h rx t' hxr hty, show goTypeText t' = goTypeText t from hc.2]
            exact ht.type

/-- Operands that agree, without casts. -/
theorem agree_into {env : GoEnv} {a b : TEx} {ra rb : Operand} {g : GTy} (h : Agree env a b g) (ha : TypedAs env a ra)
    (hb : TypedAs env b rb) : ∃ x y, goCheck env (meant a.toPEx) = some x ∧ goCheck env (meant b.toPEx) = some y ∧
      Into env a g x ∧ Into env b g y ∧ ¬ (a.isNumber ∧ b.isNumber) := by
  have ty : ∀ {e : TEx} {r : Operand}, TypedAs env e r → e.goTy env = some g →
      goCheck env (meant e.toPEx) = some (.typed g e.cval) ∧ e.isNumber = false := by
    intro e r he hg
    have hn : e.isNumber = false := by cases e <;> simp_all [TEx.isNumber, TEx.goTy]
    obtain ⟨g', h1, _, h3⟩ := he.typed hn
    rw [hg, Option.some.injEq] at h1
    subst h1
    exact ⟨h3, hn⟩
  rcases h with ⟨h1, h2⟩ | ⟨h1, ⟨z, n, rfl⟩, h2⟩ | ⟨h1, ⟨z, n, rfl⟩, h2⟩ | ⟨h1, ⟨z, n, rfl⟩, h2⟩ | ⟨h1, ⟨z, n, rfl⟩, h2⟩
  · obtain ⟨p, hp⟩ := ty ha h1
    obtain ⟨q, hq⟩ := ty hb h2
    exact ⟨_, _, p, q, .inl rfl, .inl rfl, by simp [hp]⟩
  · obtain ⟨p, hp⟩ := ty ha h1
    exact ⟨_, _, p, hb.const z n rfl, .inl rfl, .inr (.inl ⟨z, n, rfl, rfl, h2 z rfl⟩), by simp [hp]⟩
  · obtain ⟨p, hp⟩ := ty hb h1
    exact ⟨_, _, ha.const z n rfl, p, .inr (.inl ⟨z, n, rfl, rfl, h2 z rfl⟩), .inl rfl, by simp [hp]⟩
  · obtain ⟨p, hp⟩ := ty ha h1
    exact ⟨_, _, p, hb.fconst z n rfl, .inl rfl, .inr (.inr ⟨z, n, rfl, rfl, h2⟩), by simp [hp]⟩
  · obtain ⟨p, hp⟩ := ty hb h1
    exact ⟨_, _, ha.fconst z n rfl, p, .inr (.inr ⟨z, n, rfl, rfl, h2⟩), .inl rfl, by simp [hp]⟩

/-- The operands of an arithmetic expression. -/
theorem arithOperand_cases {o : GOp} {a b r : Operand} (h : arithOperand o a b = .ok r) :
    (a.kind = .string ∧ b.kind = .string ∧ o = .add ∧ r = ⟨.string, none⟩) ∨
    ((a.kind = .integer ∨ a.kind = .float) ∧ (b.kind = .integer ∨ b.kind = .float) ∧ mixTypes a b = .ok r ∧
      (o = .mod → a.kind = .integer ∧ b.kind = .integer)) := by
  unfold arithOperand at h
  split_ifs at h with h1 h2 h3 h4 h5
  · exact .inl ⟨h1.1, h1.2, h2, by cases h; rfl⟩
  · exact .inr ⟨.inl h3.1, .inl h3.2, h, fun _ => h3⟩
  · exact .inr ⟨by rcases h4 with h | h | h <;> simp [h], by rcases h4 with h | h | h <;> simp [h], h, fun hm => absurd hm h5⟩

theorem bind_ok {α β : Type} {x : Except String α} {f : α → Except String β} {r : β} (h : (x >>= f) = .ok r) :
    ∃ a, x = .ok a ∧ f a = .ok r := by
  cases x with
  | error e => cases h
  | ok a => exact ⟨a, rfl, h⟩

theorem suits_numeric {env : GoEnv} {k : EKind} {g : GTy} (h : g.Suits env k) (hk : k = .integer ∨ k = .float) {o : GOp} (ho : o.isArith)
    (hm : o = .mod → k = .integer) : operates env o g = true := by
  rcases hk with rfl | rfl
  · simp only [GTy.Suits] at h; simp [operates, h]
  · simp only [GTy.Suits] at h
    have : o ≠ .mod := fun hc => by cases hm hc
    cases o <;> simp_all [operates, GOp.isArith]

theorem int_isNum (env : GoEnv) (name : String) (h : name ∈ zserioIntBits.map (·.1)) : NType.IsNum env .integer ⟨name, 0, false⟩ :=
  .inl ⟨rfl, .inl (.inr ⟨h, rfl, rfl⟩)⟩

theorem noType_ok (env : GoEnv) (k : EKind) (h : k ≠ .float) : (⟨k, none⟩ : Operand).IsOk env :=
  ⟨fun _ t ht => (by cases ht), fun hk => absurd hk h⟩

theorem agree_int {env : GoEnv} {a b : TEx} {ra rb : Operand} {g : GTy} (hag : Agree env a b g) (hta : TypedAs env a ra)
    (htb : TypedAs env b rb) (hka : ra.kind = .integer ∨ ra.kind = .bitmask ∨ ra.kind = .enum)
    (hkb : rb.kind = .integer ∨ rb.kind = .bitmask ∨ rb.kind = .enum) : (g.int env).isSome = true ∧ (a.goTy env).or (b.goTy env) = some g := by
  have hint : ∀ {e : TEx} {re : Operand}, TypedAs env e re → (re.kind = .integer ∨ re.kind = .bitmask ∨ re.kind = .enum) → e.goTy env = some g → (g.int env).isSome := by
    intro e re he hk hg
    have hn : e.isNumber = false := by cases e <;> simp_all [TEx.isNumber, TEx.goTy]
    obtain ⟨g', h1, h2, _⟩ := he.typed hn
    rw [hg, Option.some.injEq] at h1
    subst h1
    rcases hk with hk | hk | hk <;> rw [hk] at h2 <;> exact h2
  rcases hag with h | h | h | h | h
  · exact ⟨hint hta hka h.1, by rw [h.1]; rfl⟩
  · exact ⟨hint hta hka h.1, by rw [h.1]; rfl⟩
  · obtain ⟨h1, ⟨z, n, rfl⟩, _⟩ := h; exact ⟨hint htb hkb h1, by rw [h1]; rfl⟩
  · exact ⟨hint hta hka h.1, by rw [h.1]; rfl⟩
  · obtain ⟨h1, ⟨z, n, rfl⟩, _⟩ := h; exact ⟨hint htb hkb h1, by rw [h1]; rfl⟩

theorem bitOperand_ok {a b r : Operand} (h : bitOperand a b = .ok r) : (a.kind = .integer ∨ a.kind = .bitmask) ∧
    (b.kind = .integer ∨ b.kind = .bitmask) ∧ r = ⟨a.kind, if a.type = none then b.type else a.type⟩ := by
  unfold bitOperand at h
  by_cases hk : (a.kind ≠ .bitmask ∧ a.kind ≠ .integer) ∨ (b.kind ≠ .bitmask ∧ b.kind ≠ .integer)
  · rw [if_pos hk] at h; cases h
  · rw [if_neg hk] at h
    injection h with h
    refine ⟨?_, ?_, h.symm⟩
    · by_contra hc; exact hk (.inl ⟨fun h => hc (.inr h), fun h => hc (.inl h)⟩)
    · by_contra hc; exact hk (.inr ⟨fun h => hc (.inr h), fun h => hc (.inl h)⟩)

theorem shiftOperand_ok {a b r : Operand} (h : shiftOperand a b = .ok r) : (a.kind = .integer ∨ a.kind = .bitmask) ∧
    (b.kind = .integer ∨ b.kind = .bitmask) ∧ r = ⟨a.kind, some (a.type.getD ⟨"uint32", 0, false⟩)⟩ := by
  unfold shiftOperand at h
  by_cases hk : (a.kind ≠ .bitmask ∧ a.kind ≠ .integer) ∨ (b.kind ≠ .bitmask ∧ b.kind ≠ .integer)
  · rw [if_pos hk] at h; cases h
  · rw [if_neg hk] at h
    injection h with h
    refine ⟨?_, ?_, h.symm⟩
    · by_contra hc; exact hk (.inl ⟨fun h => hc (.inr h), fun h => hc (.inl h)⟩)
    · by_contra hc; exact hk (.inr ⟨fun h => hc (.inr h), fun h => hc (.inl h)⟩)

theorem int_suits {env : GoEnv} (henv : env.Ok) : ((GTy.named "int".toList).int env).isSome = true := by
  rw [GTy.int, henv.int]; rfl

theorem int64_type {env : GoEnv} (henv : env.Ok) : env.tyName int64Name = some (.num ⟨true, 64⟩) := by
  rw [show int64Name = goNumText ⟨true, 64⟩ by decide +kernel]; exact henv.num true 64 (by decide)

theorem uint64_type {env : GoEnv} (henv : env.Ok) : env.tyName uint64Name = some (.num ⟨false, 64⟩) := by
  rw [show uint64Name = goNumText ⟨false, 64⟩ by decide +kernel]; exact henv.num false 64 (by decide)

/-- Expressions that satisfy the conditions are well typed. -/
theorem sound_typed {env : GoEnv} (henv : env.Ok) (e : TEx) : ∀ r, e.Declared env → e.res = .ok r → e.Sound env → TypedAs env e r := by
  induction e with
  | const z n =>
    intro r hd hr _
    cases hr
    refine ⟨⟨fun _ t ht => hd t ht, fun h => by cases h⟩, fun z' n' h => ?_, fun _ _ h => (by cases h), fun h => by cases h⟩
    cases h
    simp only [TEx.toPEx, meant]
    split_ifs with hz
    · simp only [goCheck, Option.bind_some, Option.some.injEq, GTyping.const.injEq]; omega
    · simp only [goCheck, Option.some.injEq, GTyping.const.injEq]; omega
  | fconst t n =>
    intro r hd hr _
    cases hr
    refine ⟨⟨fun h => (by simp at h), fun _ => ⟨n, rfl, .inr ⟨rfl, hd.2⟩⟩⟩, fun _ _ h => (by cases h), fun _ _ h => ?_, fun h => by cases h⟩
    cases h
    exact hd.1
  | lit t s =>
    intro r hd hr _
    cases hr
    refine ⟨noType_ok env _ (by cases s <;> simp), fun _ _ h => (by cases h), fun _ _ h => (by cases h), fun _ => ⟨_, rfl, ?_, hd⟩⟩
    cases s <;> rfl
  | sym p d =>
    intro r hd hr _
    cases hr
    obtain ⟨g, hg⟩ := hd.1.type henv
    refine ⟨hg.ok, fun _ _ h => (by cases h), fun _ _ h => (by cases h), fun _ => ⟨g, hg.type, hg.suits, ?_⟩⟩
    simp only [TEx.toPEx, TEx.cval]
    rw [hd.2, hg.type]; rfl
  | call p d r' =>
    intro r hd hr _
    cases hr
    obtain ⟨_, h2, h3, g, h4, h5⟩ := hd
    refine ⟨h3, fun _ _ h => (by cases h), fun _ _ h => (by cases h), fun _ => ⟨g, h4, h5, ?_⟩⟩
    simp only [TEx.toPEx, TEx.cval, meant]
    rw [h2, h4]; rfl
  | elem p i d ih =>
    intro r hd hr hs
    simp only [TEx.res] at hr
    obtain ⟨ri, hi, hr⟩ := bind_ok hr
    split_ifs at hr with hk
    cases hr
    push Not at hk
    obtain ⟨g, hg⟩ := hd.2.1.elemType henv hd.2.2.2
    have hti := ih ri hd.1 hi hs.1
    refine ⟨hg.ok, fun _ _ h => (by cases h), fun _ _ h => (by cases h), fun _ => ⟨g, hg.type, hg.suits, ?_⟩⟩
    simp only [TEx.toPEx, TEx.cval, meant, goCheck]
    rw [hd.2.2.1, hg.type, Option.bind_some]
    cases hn : i.isNumber with
    | true =>
      cases i with
      | const z n =>
        rw [hti.const z n rfl]
        simp [isIndex, hs.2 z rfl]
      | fconst s n => cases hi; cases hk
      | _ => simp [TEx.isNumber] at hn
    | false =>
      obtain ⟨gi, _, h2, h3⟩ := hti.typed hn
      rw [hk] at h2
      simp only [GTy.Suits] at h2
      rw [h3, Option.bind_some, if_pos]
      simp only [isIndex, h2, Bool.true_and, Option.all_eq_true, decide_eq_true_eq]
      exact fun z hz => hs.2 z hz
  | item t type m z =>
    intro r hd hr _
    cases hr
    refine ⟨noType_ok env _ (by cases m <;> simp), fun _ _ h => (by cases h), fun _ _ h => (by cases h), fun _ => ⟨_, rfl, ?_, hd.1⟩⟩
    cases m <;> exact hd.2
  | index =>
    intro r hd hr _
    cases hr
    refine ⟨noType_ok env _ (by simp), fun _ _ h => (by cases h), fun _ _ h => (by cases h), fun _ => ⟨_, rfl, ?_, hd⟩⟩
    exact int_suits henv
  | lengthof p =>
    intro r hd hr _
    cases hr
    have hn := int_isNum env "int64" (by decide +kernel)
    refine ⟨⟨fun _ t ht => by cases ht; exact hn, fun h => by cases h⟩, fun _ _ h => (by cases h), fun _ _ h => (by cases h), fun _ => ⟨_, rfl, rfl, ?_⟩⟩
    obtain ⟨x, hx⟩ := Option.isSome_iff_exists.1 hd
    simp only [TEx.toPEx, meant, goCheck]
    rw [if_neg (by decide : int64Name ≠ lenName), int64_type henv, Option.bind_some, if_pos trivial, hx, Option.map_some, Option.bind_some]
    simp only [convert, int_suits henv, TEx.cval, Bool.true_or, Bool.true_and]
    simp [GTy.int]
  | numbits e ih =>
    intro r hd hr hs
    simp only [TEx.res] at hr
    obtain ⟨re, he, hr⟩ := bind_ok hr
    split_ifs at hr with hk
    cases hr
    push Not at hk
    have ht := ih re hd he hs.1
    refine ⟨noType_ok env _ (by simp), fun _ _ h => (by cases h), fun _ _ h => (by cases h), fun _ => ⟨_, rfl, ?_, ?_⟩⟩
    · exact int_suits henv
    · have := convert_into ht (g := .num ⟨false, 64⟩) (k := .integer) (.inl rfl) rfl (.inl hk) hs.2.2 (fun h => by rw [hk] at h; cases h)
        (t := uint64Name) (by decide) (uint64_type henv) (fun s n h => by subst h; exact absurd hs.2.1 (by simp [TEx.isNumber]))
      simp only [TEx.toPEx, meant]
      rw [goCheck, if_pos ⟨rfl, rfl⟩, this]
      simp [unify, TEx.cval]
  | valueof e ih =>
    intro r hd hr hs
    simp only [TEx.res] at hr
    obtain ⟨re, he, hr⟩ := bind_ok hr
    split_ifs at hr with hk
    cases hr
    have ht := ih re hd he hs.1
    obtain ⟨g, h1, h2, h3⟩ := ht.typed hs.2
    refine ⟨noType_ok env _ (by simp), fun _ _ h => (by cases h), fun _ _ h => (by cases h), fun _ => ⟨g, h1, ?_, h3⟩⟩
    by_cases hk' : re.kind = .enum
    · rw [hk'] at h2; exact h2
    · have : re.kind = .bitmask := by by_contra hc; exact hk ⟨hk', hc⟩
      rw [this] at h2; exact h2
  | paren e ih =>
    intro r hd hr hs
    have ht := ih r hd hr hs.1
    exact ⟨ht.ok, fun _ _ h => (by cases h), fun _ _ h => (by cases h), fun _ => ht.typed hs.2⟩
  | bang e ih =>
    intro r hd hr hs
    simp only [TEx.res] at hr
    obtain ⟨re, he, hr⟩ := bind_ok hr
    split_ifs at hr with hk
    cases hr
    push Not at hk
    obtain ⟨g, h1, h2, h3⟩ := (ih re hd he hs.1).typed hs.2
    rw [hk] at h2
    cases h2
    refine ⟨noType_ok env _ (by simp), fun _ _ h => (by cases h), fun _ _ h => (by cases h), fun _ => ⟨_, rfl, rfl, ?_⟩⟩
    simp only [TEx.toPEx, meant, goCheck, h3, Option.bind_some, TEx.cval]
  | arith o a b iha ihb =>
    intro r hd hr hs
    have hr' := hr
    simp only [TEx.res] at hr
    obtain ⟨ra, hra, hr⟩ := bind_ok hr
    obtain ⟨rb, hrb, hr⟩ := bind_ok hr
    obtain ⟨ho, hda, hdb⟩ := hd
    obtain ⟨hsa, hsb, hnb, hnn, hs⟩ := hs
    have hta := iha ra hda hra hsa
    have htb := ihb rb hdb hrb hsb
    have hca : ∀ x rx, x.res = .ok rx → arithCast o a b x = castOf r x rx := by
      intro x rx hx; simp only [arithCast, hra, hrb, hx, hr]
    have hcheck : ∀ {g x y}, goCheck env (castGo (castOf r a ra) (meant a.toPEx)) = some x → goCheck env (castGo (castOf r b rb) (meant b.toPEx)) = some y →
        Into env a g x → Into env b g y → operates env o g = true → (o = .div ∨ o = .mod → (g.int env).isSome → b.cval ≠ some 0) →
        goCheck env (meant (TEx.arith o a b).toPEx) = some (.typed g none) := by
      intro g x y hx hy ia ib hop hz
      simp only [TEx.toPEx, meant, goCheck]
      rw [hca a ra hra, hca b rb hrb, hx, hy, Option.bind_some, Option.bind_some]
      simp only [ho, Bool.true_or, if_true]
      exact checkArith_ok ia ib hnn hnb hop hz
    rcases arithOperand_cases hr with ⟨hka, hkb, rfl, rfl⟩ | ⟨hka, hkb, hmix, hmod⟩
    · simp only [hr'] at hs
      obtain ⟨g, hag, hz⟩ := hs
      obtain ⟨x, y, hx, hy, ia, ib, _⟩ := agree_into hag hta htb
      have hgs : g = .str := by
        have str : ∀ {e : TEx} {re : Operand}, TypedAs env e re → re.kind = .string → e.goTy env = some g → g = .str := by
          intro e re he hk hg
          have hn : e.isNumber = false := by cases e <;> simp_all [TEx.isNumber, TEx.goTy]
          obtain ⟨g', h1, h2, _⟩ := he.typed hn
          rw [hg, Option.some.injEq] at h1
          subst h1
          rw [hk] at h2
          exact h2
        rcases hag with h | h | h | h | h
        · exact str hta hka h.1
        · exact str hta hka h.1
        · exact str htb hkb h.1
        · exact str hta hka h.1
        · exact str htb hkb h.1
      subst hgs
      refine ⟨noType_ok env _ (by simp), fun _ _ h => (by cases h), fun _ _ h => (by cases h), fun _ => ⟨.str, ?_, rfl, ?_⟩⟩
      · simp only [TEx.goTy, hr']
        rcases hag with h | h | h | h | h
        · rw [h.1]; rfl
        · rw [h.1]; rfl
        · obtain ⟨h1, ⟨z, n, rfl⟩, _⟩ := h; rw [h1]; rfl
        · rw [h.1]; rfl
        · obtain ⟨h1, ⟨z, n, rfl⟩, _⟩ := h; rw [h1]; rfl
      · exact hcheck hx hy ia ib (by simp [operates]) (fun h _ => hz h)
    · obtain ⟨hok, hkr⟩ := mix_ok hta.ok htb.ok hka hkb hmix
      have hkr' : r.kind = .integer ∨ r.kind = .float := by rw [hkr]; split_ifs <;> simp
      have hmod' : o = .mod → r.kind = .integer := by
        intro h; obtain ⟨p, q⟩ := hmod h; rw [hkr, p, q]; rfl
      have hfa : ra.kind = .float → r.kind = .float := fun h => by rw [hkr, h]; simp
      have hfb : rb.kind = .float → r.kind = .float := fun h => by rw [hkr, h]; simp
      cases hrt : r.type with
      | some t =>
        have hgt : (TEx.arith o a b).goTy env = env.tyName (goTypeText t) ∧
            (∀ g, env.tyName (goTypeText t) = some g →
              a.Fits env g ∧ b.Fits env g ∧ (o = .div ∨ o = .mod → (g.int env).isSome → b.cval ≠ some 0)) ∧
            (a.isNumber ∨ a.symText.isSome ∨ a.Faithful env) ∧ (b.isNumber ∨ b.symText.isSome ∨ b.Faithful env) := by
          obtain ⟨k, ty⟩ := r
          simp only at hrt hkr'
          subst hrt
          rcases hkr' with rfl | rfl
          · rw [hr'] at hs; exact ⟨by rw [TEx.goTy, hr'], hs⟩
          · rw [hr'] at hs; exact ⟨by rw [TEx.goTy, hr'], hs⟩
        obtain ⟨hgt, hs1, hs2, hs3⟩ := hgt
        obtain ⟨g, hg⟩ := IsNum.type henv (hok.num hkr' hrt)
        obtain ⟨f1, f2, f3⟩ := hs1 g hg.type
        obtain ⟨x, hx, ix⟩ := operand_into hrt hkr' hg hta hra hka hfa f1 hs2
        obtain ⟨y, hy, iy⟩ := operand_into hrt hkr' hg htb hrb hkb hfb f2 hs3
        exact ⟨hok, fun _ _ h => (by cases h), fun _ _ h => (by cases h), fun _ =>
          ⟨g, by rw [hgt]; exact hg.type, hg.suits, hcheck hx hy ix iy (suits_numeric hg.suits hkr' ho hmod') f3⟩⟩
      | none =>
        have hki : r.kind = .integer := by
          rcases hkr' with h | h
          · exact h
          · obtain ⟨t, ht, _⟩ := hok.2 h; rw [hrt] at ht; cases ht
        have hgt : (TEx.arith o a b).goTy env = (a.goTy env).or (b.goTy env) ∧ ∃ g, Agree env a b g ∧ (o = .div ∨ o = .mod → b.cval ≠ some 0) := by
          obtain ⟨k, ty⟩ := r
          simp only at hrt hki
          subst hrt hki
          rw [hr'] at hs
          exact ⟨by rw [TEx.goTy, hr'], hs⟩
        obtain ⟨hgt, g, hag, hz⟩ := hgt
        have hka' : ra.kind = .integer := by rcases hka with h | h; exact h; rw [hfa h] at hki; cases hki
        have hkb' : rb.kind = .integer := by rcases hkb with h | h; exact h; rw [hfb h] at hki; cases hki
        have hgi := agree_int hag hta htb (.inl hka') (.inl hkb')
        obtain ⟨x, y, hx, hy, ia, ib, _⟩ := agree_into hag hta htb
        have hcast : ∀ e re, castOf r e re = none := by
          intro e re; simp only [castOf, hrt, hki]
        refine ⟨hok, fun _ _ h => (by cases h), fun _ _ h => (by cases h), fun _ => ⟨g, by rw [hgt]; exact hgi.2, by rw [hki]; exact hgi.1, ?_⟩⟩
        exact hcheck (by rw [hcast]; exact hx) (by rw [hcast]; exact hy) ia ib (by simp [operates, hgi.1]) (fun h _ => hz h)
  | bit o a b iha ihb =>
    intro r hd hr hs
    simp only [TEx.res] at hr
    obtain ⟨ra, hra, hr⟩ := bind_ok hr
    obtain ⟨rb, hrb, hr⟩ := bind_ok hr
    obtain ⟨ho, hda, hdb⟩ := hd
    obtain ⟨hsa, hsb, hnb, g, hag⟩ := hs
    have hta := iha ra hda hra hsa
    have htb := ihb rb hdb hrb hsb
    obtain ⟨x, y, hx, hy, ia, ib, hnn⟩ := agree_into hag hta htb
    obtain ⟨hka, hkb, rfl⟩ := bitOperand_ok hr
    obtain ⟨hgi, hgt⟩ := agree_int hag hta htb (by rcases hka with h | h <;> simp [h]) (by rcases hkb with h | h <;> simp [h])
    refine ⟨⟨fun hk t ht => ?_, fun h => ?_⟩, fun _ _ h => (by cases h), fun _ _ h => (by cases h), fun _ => ⟨g, hgt, ?_, ?_⟩⟩
    · simp only at ht
      split_ifs at ht
      · exact htb.ok.1 hkb t ht
      · exact hta.ok.1 hka t ht
    · simp only at h; rcases hka with h' | h' <;> rw [h'] at h <;> cases h
    · rcases hka with h | h <;> simp only [h] <;> exact hgi
    · simp only [TEx.toPEx, meant, goCheck, castGo]
      rw [hx, hy, Option.bind_some, Option.bind_some]
      simp only [ho, Bool.or_true, if_true]
      exact checkArith_ok ia ib hnn hnb (by simp [operates, hgi]) (fun h => by rcases h with h | h <;> subst h <;> cases ho)
  | shift o a b iha ihb =>
    intro r hd hr hs
    simp only [TEx.res] at hr
    obtain ⟨ra, hra, hr⟩ := bind_ok hr
    obtain ⟨rb, hrb, hr⟩ := bind_ok hr
    obtain ⟨ho, hda, hdb⟩ := hd
    obtain ⟨hsa, hsb, hnb, hpos, hfit⟩ := hs
    have hta := iha ra hda hra hsa
    have htb := ihb rb hdb hrb hsb
    obtain ⟨hka, hkb, rfl⟩ := shiftOperand_ok hr
    have hu32 := int_isNum env "uint32" (by decide +kernel)
    have hok : (⟨ra.kind, some (ra.type.getD ⟨"uint32", 0, false⟩)⟩ : Operand).IsOk env := by
      refine ⟨fun _ t ht => ?_, fun h => by simp only at h; rcases hka with h' | h' <;> rw [h'] at h <;> cases h⟩
      simp only [Option.some.injEq] at ht
      cases hty : ra.type with
      | none => rw [hty] at ht; subst ht; exact hu32
      | some t' => rw [hty] at ht; subst ht; exact hta.ok.1 hka _ hty
    have hno : (o.isArith || o.isBit) = false := by cases o <;> simp_all [GOp.isShift, GOp.isArith, GOp.isBit]
    -- the shift count
    have hcount : ∃ y, goCheck env (meant b.toPEx) = some y ∧ y.value = b.cval ∧ ∀ g, (g.int env).isSome = true → a.cval = none ∨ b.cval = none →
        checkShift env o (.typed g a.cval) y = some (.typed g none) := by
      have fin : ∀ (g : GTy) (c d : Option Int), c = none ∨ d = none → (match c, d with
          | some a, some b => (intOp o a b).bind fun v => if representable env v g then some (.typed g (some v)) else none
          | _, _ => some (GTyping.typed g none)) = some (.typed g none) := by
        rintro g c d (rfl | rfl)
        · rfl
        · cases c <;> rfl
      cases hn : b.isNumber with
      | true =>
        cases b with
        | const z n =>
          refine ⟨_, htb.const z n rfl, rfl, fun g hg hab => ?_⟩
          have := hpos z rfl
          simp only [checkShift, hg, this, decide_true, Bool.and_self, if_true]
          exact fin g a.cval (some z) hab
        | fconst s n => cases hrb; rcases hkb with h | h <;> cases h
        | _ => simp [TEx.isNumber] at hn
      | false =>
        obtain ⟨gb, _, h2, h3⟩ := htb.typed hn
        have hgb : (gb.int env).isSome = true := by rcases hkb with h | h <;> rw [h] at h2 <;> exact h2
        refine ⟨_, h3, rfl, fun g hg hab => ?_⟩
        have hall : (b.cval.all (decide <| 0 ≤ ·)) = true := by
          simp only [Option.all_eq_true, decide_eq_true_eq]; exact fun z hz => hpos z hz
        simp only [checkShift, hg, hgb, hall, Bool.and_self, if_true]
        exact fin g a.cval b.cval hab
    obtain ⟨y, hy, _, hsh⟩ := hcount
    have hab : a.cval = none ∨ b.cval = none := by
      cases h1 : a.cval with
      | none => exact .inl rfl
      | some z => cases h2 : b.cval with
        | none => exact .inr rfl
        | some z' => exact absurd ⟨by simp [h1], by simp [h2]⟩ hnb
    cases hn : a.isNumber with
    | true =>
      cases a with
      | const z n =>
        cases hra
        have hnum : (n.getD ⟨"uint32", 0, false⟩).IsNum env .integer := by
          cases n with
          | none => exact hu32
          | some t => exact hda t rfl
        obtain ⟨g, hg⟩ := IsNum.type henv hnum
        have hcv := convert_into hta (g := g) (k := .integer) (.inl rfl) hg.suits (.inl rfl) (fun z' hz' => by cases hz'; exact hfit z n rfl g hg.type)
          (fun h => by cases h) hg.len hg.type (fun s n h => by cases h)
        refine ⟨hok, fun _ _ h => (by cases h), fun _ _ h => (by cases h), fun _ => ⟨g, hg.type, hg.suits, ?_⟩⟩
        have e : meant (TEx.shift o (.const z n) b).toPEx = .bin o (.call (.name (goTypeText (n.getD ⟨"uint32", 0, false⟩))) (meant (TEx.const z n).toPEx)) (meant b.toPEx) := rfl
        rw [e, goCheck, hcv, hy, Option.bind_some, Option.bind_some]
        simp only [hno, Bool.false_eq_true, if_false, ho, if_true]
        exact hsh g hg.suits hab
      | fconst s n => cases hra; rcases hka with h | h <;> cases h
      | _ => simp [TEx.isNumber] at hn
    | false =>
      obtain ⟨g, h1, h2, h3⟩ := hta.typed hn
      have hgi : (g.int env).isSome = true := by rcases hka with h | h <;> rw [h] at h2 <;> exact h2
      have hcast : shiftCast a = none := by cases a <;> first | rfl | simp [TEx.isNumber] at hn
      have hgt : (TEx.shift o a b).goTy env = a.goTy env := by cases a <;> first | rfl | simp [TEx.isNumber] at hn
      refine ⟨hok, fun _ _ h => (by cases h), fun _ _ h => (by cases h), fun _ => ⟨g, by rw [hgt, h1], h2, ?_⟩⟩
      simp only [TEx.toPEx, meant, hcast, castGo, goCheck]
      rw [h3, hy, Option.bind_some, Option.bind_some]
      simp only [hno, Bool.false_eq_true, if_false, ho, if_true]
      exact hsh g hgi hab
  | cmp o a b iha ihb =>
    intro r hd hr hs
    simp only [TEx.res] at hr
    obtain ⟨ra, hra, hr⟩ := bind_ok hr
    obtain ⟨rb, hrb, hr⟩ := bind_ok hr
    obtain ⟨ho, hda, hdb⟩ := hd
    obtain ⟨hsa, hsb, g, hag, hb⟩ := hs
    obtain ⟨x, y, hx, hy, ia, ib, hnn⟩ := agree_into hag (iha ra hda hra hsa) (ihb rb hdb hrb hsb)
    have hr : r = ⟨.bool, none⟩ := by
      unfold cmpOperand at hr
      split_ifs at hr
      cases hr; rfl
    subst hr
    refine ⟨noType_ok env _ (by simp), fun _ _ h => (by cases h), fun _ _ h => (by cases h), fun _ => ⟨.bool, rfl, rfl, ?_⟩⟩
    have h1 : (o.isArith || o.isBit) = false := by cases o <;> simp_all [GOp.isCmp, GOp.isArith, GOp.isBit]
    have h2 : o.isShift = false := by cases o <;> simp_all [GOp.isCmp, GOp.isShift]
    simp only [TEx.toPEx, meant, goCheck, castGo]
    rw [hx, hy, Option.bind_some, Option.bind_some]
    simp only [h1, h2, ho, Bool.false_eq_true, if_false, if_true]
    have hu := Into.unify ia ib hnn
    unfold checkCmp
    split
    · rfl
    · rfl
    · rfl
    · rfl
    · rw [hu, Option.bind_some, if_pos hb]; rfl
  | logic o a b iha ihb =>
    intro r hd hr hs
    simp only [TEx.res] at hr
    obtain ⟨ra, hra, hr⟩ := bind_ok hr
    obtain ⟨rb, hrb, hr⟩ := bind_ok hr
    obtain ⟨ho, hda, hdb⟩ := hd
    split_ifs at hr with hk
    cases hr
    push Not at hk
    have bool : ∀ {e : TEx} {re : Operand}, TypedAs env e re → e.res = .ok re → re.kind = .bool → ∃ c, goCheck env (meant e.toPEx) = some (.typed .bool c) := by
      intro e re he hre hk
      cases hn : e.isNumber with
      | true => cases e <;> first | (cases hre; cases hk) | simp [TEx.isNumber] at hn
      | false =>
        obtain ⟨g, _, h2, h3⟩ := he.typed hn
        rw [hk] at h2
        cases h2
        exact ⟨_, h3⟩
    obtain ⟨c, hx⟩ := bool (iha ra hda hra hs.1) hra hk.1
    obtain ⟨d, hy⟩ := bool (ihb rb hdb hrb hs.2) hrb hk.2
    refine ⟨noType_ok env _ (by simp), fun _ _ h => (by cases h), fun _ _ h => (by cases h), fun _ => ⟨.bool, rfl, rfl, ?_⟩⟩
    have h1 : (o.isArith || o.isBit) = false := by cases o <;> simp_all [GOp.isLogic, GOp.isArith, GOp.isBit]
    have h2 : o.isShift = false := by cases o <;> simp_all [GOp.isLogic, GOp.isShift]
    have h3 : o.isCmp = false := by cases o <;> simp_all [GOp.isLogic, GOp.isCmp]
    simp only [TEx.toPEx, meant, goCheck, castGo]
    rw [hx, hy, Option.bind_some, Option.bind_some]
    simp only [h1, h2, h3, Bool.false_eq_true, if_false]
    rfl
  | isset a b iha ihb =>
    intro r hd hr hs
    simp only [TEx.res] at hr
    obtain ⟨ra, hra, hr⟩ := bind_ok hr
    obtain ⟨rb, hrb, hr⟩ := bind_ok hr
    obtain ⟨hda, hdb⟩ := hd
    obtain ⟨hsa, hsb, hnb, g, hag⟩ := hs
    have hta := iha ra hda hra hsa
    have htb := ihb rb hdb hrb hsb
    obtain ⟨x, y, hx, hy, ia, ib, hnn⟩ := agree_into hag hta htb
    split_ifs at hr with hk
    cases hr
    push Not at hk
    obtain ⟨hgi, _⟩ := agree_int hag hta htb (.inr (.inl hk.1)) (.inr (.inl hk.2))
    refine ⟨noType_ok env _ (by simp), fun _ _ h => (by cases h), fun _ _ h => (by cases h), fun _ => ⟨.bool, rfl, rfl, ?_⟩⟩
    have hc := checkArith_ok (o := .band) ia ib hnn hnb (by simp [operates, hgi]) (fun h => by rcases h with h | h <;> cases h)
    have h0 : representable env 0 g = true := by
      obtain ⟨n, hn⟩ := Option.isSome_iff_exists.1 hgi
      simp only [representable, hn]
      rw [decide_eq_true_eq, GoNum.Holds]
      have := Int.pow_pos (n := 2) (m := n.width - 1) (by omega)
      have := Int.pow_pos (n := 2) (m := n.width) (by omega)
      split <;> omega
    simp only [TEx.toPEx, meant, goCheck]
    rw [hx, hy, Option.bind_some, Option.bind_some]
    have e : (GOp.band.isArith || GOp.band.isBit) = true := rfl
    simp only [e, if_true, hc, Option.bind_some]
    simp [GOp.isArith, GOp.isBit, GOp.isShift, GOp.isCmp, checkCmp, unify, h0, TEx.cval]

/-! ## C66 -/

/-- **C66 (part).** Every expression the generator accepts, that keeps to `Sound` and to the precedences of Go (C55), becomes a
text that the Go compiler accepts, and the type of the Go expression suits the kind of the expression. -/
theorem C66_compile_partial (env : GoEnv) (henv : env.Ok) (e : TEx) (r : Operand) (hd : e.Declared env) (hr : e.res = .ok r)
    (hs : e.Sound env) (hp : e.toPEx.Safe) (hn : e.isNumber = false) :
    ∃ ts t, printGo e.toPEx = some ts ∧ (∃ g, Derives 1 ts g) ∧ e.goTy env = some t ∧ t.Suits env r.kind ∧
      ∀ p g, Derives p ts g → goCheck env g.strip = some (.typed t e.cval) := by
  obtain ⟨ts, h1, h2, h3⟩ := C55_read_partial e.toPEx hp
  obtain ⟨t, h4, h5, h6⟩ := (sound_typed henv e r hd hr hs).typed hn
  exact ⟨ts, t, h1, h2, h4, h5, fun p g hg => by rw [h3 p g hg]; exact h6⟩

/-- A field or parameter of a number type. -/
def DTy.IsNumber (d : DTy) (n : NType) : Prop := (d = .builtin n ∨ ∃ name, d = .sub name n) ∧ (n.IsInt ∨ ∃ w, IsFloat n w)

/-- Arithmetic on fields and parameters of number types; `l` are the types of the operands. -/
inductive TEx.Arith : TEx → List NType → Prop
  | sym {p : PEx} {d : DTy} {n : NType} : d.IsNumber n → TEx.Arith (.sym p d) [n]
  | paren {e : TEx} {l : List NType} : e.Arith l → e.paren.Arith l
  | arith {o : GOp} {a b : TEx} {l m : List NType} : a.Arith l → b.Arith m → TEx.Arith (.arith o a b) (l ++ m)

/-- The Go type of an arithmetic expression with operands of the types `l`: with floating point operands it is the largest of
their types, otherwise an integer type, signed if all operands are signed, with the bits of every operand. -/
def IsResult (l : List NType) (g : GTy) : Prop :=
  ((∃ n ∈ l, IsFloat n 64) ∧ g = .flt 64) ∨
  ((∃ n ∈ l, ∃ w, IsFloat n w) ∧ (¬ ∃ n ∈ l, IsFloat n 64) ∧ g = .flt 32) ∨
  ((∀ n ∈ l, n.IsInt) ∧ ∃ w ∈ [8, 16, 32, 64], g = .num ⟨l.all (·.isSigned), w⟩ ∧ ∀ n ∈ l, n.valueBits ≤ w)

/-- What is known about the operand an arithmetic expression evaluates to. -/
inductive ArithRes (l : List NType) : Operand → Prop
  | int {t : NType} {r w : Nat} : t.IsInt → IntFacts t r w → t.isSigned = l.all (·.isSigned) → (∀ n ∈ l, n.IsInt) →
      (∀ n ∈ l, n.valueBits ≤ goWidthFor r) → ArithRes l ⟨.integer, some t⟩
  | flt {t : NType} {w : Nat} : IsFloat t w → (∃ n ∈ l, ∃ w, IsFloat n w) → ((∃ n ∈ l, IsFloat n 64) ↔ w = 64) →
      ArithRes l ⟨.float, some t⟩

theorem mix_rank {a b : NType} {ra wa rb wb : Nat} (ha : IntFacts a ra wa) (hb : IntFacts b rb wb) (hai : a.IsInt) (hbi : b.IsInt) :
    ∃ t r w, mixTypes ⟨.integer, some a⟩ ⟨.integer, some b⟩ = .ok ⟨.integer, some t⟩ ∧ t.IsInt ∧ IntFacts t r w ∧
      t.isSigned = (a.isSigned && b.isSigned) ∧ goWidthFor ra ≤ goWidthFor r ∧ goWidthFor rb ≤ goWidthFor r := by
  have uns : ∀ {t : NType} {r w : Nat}, IntFacts t r w → t.isSigned = true → ∃ t' r' w', makeUnsigned t = .ok t' ∧ t'.IsInt ∧
      IntFacts t' r' w' ∧ t'.isSigned = false ∧ goWidthFor r' = goWidthFor r := by
    intro t r w f hs
    obtain ⟨t', h1, h2, h3, h4⟩ := f.unsigned hs
    obtain ⟨r', w', f'⟩ := intFacts t' h2
    have h5 := f'.go
    rw [h3] at h5
    injection h5 with h5
    injection h5 with h6 h7
    refine ⟨t', r', w', h1, h2, f', h6.symm, ?_⟩
    have e1 : w' = goWidthFor r' := by rcases f'.width with h | ⟨h, _⟩; exacts [h, absurd h h4]
    have e2 : w = goWidthFor r := by
      rcases f.width with h | ⟨h, _⟩
      · exact h
      · subst h; exact absurd hs (by decide +kernel)
    omega
  cases hs : sameNType (some a) (some b) with
  | true =>
    have := sameNType_eq hs
    subst this
    have e : goWidthFor rb = goWidthFor ra := by
      have := ha.rank.symm.trans hb.rank
      injection this with this; rw [this]
    exact ⟨a, ra, wa, by simp [mixTypes, hs], hai, ha, by simp, Nat.le_refl _, by omega⟩
  | false =>
    rw [mixTypes_int _ _ hs]
    simp only [mixInt2, ha.rank, hb.rank, ha.signed, hb.signed]
    show ∃ t r w, Except.map _ (if rb ≤ ra then _ else _) = _ ∧ _
    by_cases hr : rb ≤ ra
    · have hm := goWidthFor_mono hr
      simp only [if_pos hr]
      by_cases hs : a.isSigned = (a.isSigned && b.isSigned)
      · simp only [if_pos hs]
        exact ⟨a, ra, wa, rfl, hai, ha, hs, Nat.le_refl _, hm⟩
      · simp only [if_neg hs]
        cases h1 : a.isSigned <;> cases h2 : b.isSigned <;> simp [h1, h2] at hs
        obtain ⟨t', r', w', h3, h4, h5, h6, h7⟩ := uns ha h1
        exact ⟨t', r', w', by rw [h3]; rfl, h4, h5, by simp [h6], by omega, by omega⟩
    · have hm := goWidthFor_mono (Nat.le_of_lt (Nat.lt_of_not_le hr))
      simp only [if_neg hr]
      by_cases hs : b.isSigned = (a.isSigned && b.isSigned)
      · simp only [if_pos hs]
        exact ⟨b, rb, wb, rfl, hbi, hb, hs, hm, Nat.le_refl _⟩
      · simp only [if_neg hs]
        cases h1 : a.isSigned <;> cases h2 : b.isSigned <;> simp [h1, h2] at hs
        obtain ⟨t', r', w', h3, h4, h5, h6, h7⟩ := uns hb h2
        exact ⟨t', r', w', by rw [h3]; rfl, h4, h5, by simp [h6], by omega, by omega⟩

theorem IsFloat.not_int {t : NType} {w : Nat} (h : IsFloat t w) : ¬ t.IsInt := fun hi => by
  obtain ⟨h1, h2, h3⟩ := IsInt.not_float hi
  cases h <;> simp_all

theorem IsFloat.width {t : NType} {w w' : Nat} (h : IsFloat t w) (h' : IsFloat t w') : w = w' := by
  have key : ∀ {t t' : NType} {w w' : Nat}, IsFloat t w → IsFloat t' w' → t.name = t'.name → w = w' := by
    intro t t' w w' h h' e
    cases h <;> cases h' <;> first | rfl | (simp at e)
  exact key h h' rfl

theorem ArithRes.mix {l m : List NType} {a b : Operand} (ha : ArithRes l a) (hb : ArithRes m b) :
    ∃ r, mixTypes a b = .ok r ∧ ArithRes (l ++ m) r := by
  cases ha with
  | @int ta ra wa ia fa sa la va =>
    cases hb with
    | @int tb rb wb ib fb sb lb vb =>
      obtain ⟨t, r, w, h1, h2, h3, h4, h5, h6⟩ := mix_rank fa fb ia ib
      refine ⟨_, h1, .int h2 h3 (by rw [h4, sa, sb, List.all_append]) ?_ ?_⟩
      · intro n hn; rcases List.mem_append.1 hn with h | h
        exacts [la n h, lb n h]
      · intro n hn; rcases List.mem_append.1 hn with h | h
        exacts [(va n h).trans h5, (vb n h).trans h6]
    | @flt tb wb fb eb db =>
      obtain ⟨n, hn, hw⟩ := eb
      refine ⟨_, (C32_float_integer tb wb fb (some ta) (fun t ht => by cases ht; exact ia)).2, .flt fb
        ⟨n, List.mem_append_right _ hn, hw⟩ ?_⟩
      rw [← db]
      constructor
      · rintro ⟨n, hn, hf⟩
        rcases List.mem_append.1 hn with h | h
        · exact absurd (la n h) hf.not_int
        · exact ⟨n, h, hf⟩
      · rintro ⟨n, hn, hf⟩; exact ⟨n, List.mem_append_right _ hn, hf⟩
  | @flt ta wa fa ea da =>
    cases hb with
    | @int tb rb wb ib fb sb lb vb =>
      obtain ⟨n, hn, hw⟩ := ea
      refine ⟨_, (C32_float_integer ta wa fa (some tb) (fun t ht => by cases ht; exact ib)).1, .flt fa
        ⟨n, List.mem_append_left _ hn, hw⟩ ?_⟩
      rw [← da]
      constructor
      · rintro ⟨n, hn, hf⟩
        rcases List.mem_append.1 hn with h | h
        · exact ⟨n, h, hf⟩
        · exact absurd (lb n h) hf.not_int
      · rintro ⟨n, hn, hf⟩; exact ⟨n, List.mem_append_left _ hn, hf⟩
    | @flt tb wb fb eb db =>
      obtain ⟨t, h1, _, h3⟩ := C32_float_float ta tb wa wb fa fb
      obtain ⟨n, hn, hw⟩ := ea
      refine ⟨_, h1, .flt h3 ⟨n, List.mem_append_left _ hn, hw⟩ ?_⟩
      have : max wa wb = 64 ↔ wa = 64 ∨ wb = 64 := by cases fa <;> cases fb <;> decide
      rw [this, ← da, ← db]
      constructor
      · rintro ⟨n, hn, hf⟩
        rcases List.mem_append.1 hn with h | h
        exacts [.inl ⟨n, h, hf⟩, .inr ⟨n, h, hf⟩]
      · rintro (⟨n, hn, hf⟩ | ⟨n, hn, hf⟩)
        exacts [⟨n, List.mem_append_left _ hn, hf⟩, ⟨n, List.mem_append_right _ hn, hf⟩]

theorem ArithRes.cases {l : List NType} {r : Operand} (h : ArithRes l r) :
    ∃ t, (r = ⟨.integer, some t⟩ ∨ r = ⟨.float, some t⟩) := by
  cases h
  · exact ⟨_, .inl rfl⟩
  · exact ⟨_, .inr rfl⟩

/-- Arithmetic on fields: what it evaluates to, and that `Sound` holds. -/
theorem arith_sound {env : GoEnv} (henv : env.Ok) {e : TEx} {l : List NType} (h : e.Arith l) :
    ∀ r, e.Declared env → e.res = .ok r → ArithRes l r ∧ e.Sound env ∧ e.isNumber = false ∧ e.cval = none ∧ e.Faithful env := by
  induction h with
  | @sym p d n hn =>
    intro r hd hr
    cases hr
    have ho : d.operand = ⟨kindByName n.name, some n⟩ := by
      rcases hn.1 with rfl | ⟨name, rfl⟩ <;> rfl
    refine ⟨?_, trivial, rfl, rfl, ?_⟩
    · rw [ho]
      rcases hn.2 with h | ⟨w, h⟩
      · rw [IsInt.kind h]
        obtain ⟨r, w, f⟩ := intFacts n h
        refine .int h f (by simp) (by simpa using h) ?_
        simp only [List.mem_singleton, forall_eq]
        exact f.value.trans (goWidthFor_ge _ f.le)
      · have hk : kindByName n.name = .float := by cases h <;> decide +kernel
        rw [hk]
        refine .flt h ⟨n, by simp, w, h⟩ ?_
        simp only [List.mem_singleton, exists_eq_left]
        exact ⟨fun h' => h.width h', fun hw => hw ▸ h⟩
    · intro r t hr ht
      cases hr
      obtain ⟨g, hg⟩ := DTy.Declared.type henv hd.1
      exact hg.type.trans (hg.faithful t ht).symm
  | @paren e l _ ih =>
    intro r hd hr
    obtain ⟨h1, h2, h3, h4, h5⟩ := ih r hd hr
    exact ⟨h1, ⟨h2, h3⟩, rfl, h4, h5⟩
  | @arith o a b l m _ _ iha ihb =>
    intro r hd hr
    have hr0 := hr
    simp only [TEx.res] at hr
    obtain ⟨ra, hra, hr⟩ := bind_ok hr
    obtain ⟨rb, hrb, hr⟩ := bind_ok hr
    obtain ⟨ho, hda, hdb⟩ := hd
    obtain ⟨a1, a2, a3, a4, a5⟩ := iha ra hda hra
    obtain ⟨b1, b2, b3, b4, b5⟩ := ihb rb hdb hrb
    obtain ⟨r', h1, h2⟩ := a1.mix b1
    have hm : r = r' := by
      rcases arithOperand_cases hr with ⟨h, _⟩ | ⟨_, _, h, _⟩
      · obtain ⟨t, rfl | rfl⟩ := a1.cases <;> cases h
      · rw [h1] at h; cases h; rfl
    subst hm
    obtain ⟨t, ht⟩ := h2.cases
    refine ⟨h2, ⟨a2, b2, fun h => by simp [a4] at h, fun h => by simp [a3] at h, ?_⟩, rfl, rfl, ?_⟩
    · rcases ht with rfl | rfl <;> rw [hr0] <;> simp only <;>
      exact ⟨fun g _ => ⟨fun z hz => (by rw [a4] at hz; cases hz), fun z hz => (by rw [b4] at hz; cases hz), fun _ _ hz => (by rw [b4] at hz; cases hz)⟩,
        .inr (.inr a5), .inr (.inr b5)⟩
    · intro r2 t2 hr2 ht2
      rw [hr0] at hr2
      cases hr2
      rcases ht with rfl | rfl <;> cases ht2 <;> simp only [TEx.goTy, hr0]

/-- The Go type of arithmetic on fields. -/
theorem arith_isResult {env : GoEnv} (henv : env.Ok) {e : TEx} {l : List NType} {r : Operand} {t : GTy} (h1 : ArithRes l r)
    (hr : e.res = .ok r) (h5 : e.Faithful env) (q3 : e.goTy env = some t) : IsResult l t := by
  cases h1 with
  | @int t' rk w hi f hs hl hv =>
    have ht := h5 _ t' hr rfl
    rw [q3] at ht
    have hw : w ∈ [8, 16, 32, 64] := by
      rcases f.width with h | ⟨_, _, h⟩
      · rw [h]; unfold goWidthFor; split_ifs <;> simp
      · simp [h]
    refine .inr (.inr ⟨hl, w, hw, ?_, fun n hn => (hv n hn).trans f.for_le⟩)
    have : goTypeText t' = goNumText ⟨t'.isSigned, w⟩ := by simp [goTypeText, f.go]
    rw [this, henv.num _ w hw] at ht
    injection ht with ht
    rw [ht, hs]
  | @flt t' w hf he hd' =>
    have ht := h5 _ t' hr rfl
    rw [q3] at ht
    cases hf with
    | f16 =>
      rw [show goTypeText ⟨"float16", 0, false⟩ = "float32".toList by decide +kernel, henv.float32] at ht
      injection ht with ht
      exact .inr (.inl ⟨he, fun h => absurd (hd'.1 h) (by decide), ht⟩)
    | f32 =>
      rw [show goTypeText ⟨"float32", 0, false⟩ = "float32".toList by decide +kernel, henv.float32] at ht
      injection ht with ht
      exact .inr (.inl ⟨he, fun h => absurd (hd'.1 h) (by decide), ht⟩)
    | f64 =>
      rw [show goTypeText ⟨"float64", 0, false⟩ = "float64".toList by decide +kernel, henv.float64] at ht
      injection ht with ht
      exact .inl ⟨hd'.2 rfl, ht⟩

/-- **C66, arithmetic.** Every arithmetic expression over fields and parameters of number types, whatever their types, becomes
a Go expression of the type that has room for the values of all operands. -/
theorem C66_arithmetic (env : GoEnv) (henv : env.Ok) (e : TEx) (l : List NType) (h : e.Arith l) (hd : e.Declared env) (r : Operand)
    (hr : e.res = .ok r) (hp : e.toPEx.Safe) :
    ∃ ts t, printGo e.toPEx = some ts ∧ (∃ g, Derives 1 ts g) ∧ IsResult l t ∧
      ∀ p g, Derives p ts g → goCheck env g.strip = some (.typed t none) := by
  obtain ⟨h1, h2, h3, h4, h5⟩ := arith_sound henv h r hd hr
  obtain ⟨ts, t, q1, q2, q3, _, q5⟩ := C66_compile_partial env henv e r hd hr h2 hp h3
  exact ⟨ts, t, q1, q2, arith_isResult henv h1 hr h5 q3, fun p g hg => by rw [← h4]; exact q5 p g hg⟩

/-- Two fields of integer types. -/
theorem fields_typed {env : GoEnv} (henv : env.Ok) {p : PEx} {d : DTy} {n : NType} (hn : d.IsNumber n) (hi : n.IsInt)
    (hd : (TEx.sym p d).Declared env) : ∃ w s, env.tyName d.goText = some (.num ⟨s, w⟩) ∧
      goCheck env (meant p) = some (.typed (.num ⟨s, w⟩) none) := by
  obtain ⟨s, w, hw, ht⟩ := IsInt.text hi
  have : env.tyName d.goText = some (.num ⟨s, w⟩) := by
    rcases hn.1 with rfl | ⟨name, rfl⟩
    · rw [DTy.goText, ht]; exact henv.num s w hw
    · rw [DTy.goText, hd.1.2, ht]; exact henv.num s w hw
  exact ⟨w, s, this, by rw [hd.2, this]; rfl⟩

/-- **C66, comparisons and bitwise operators.** The generator puts in no casts: what two fields of integer types become compiles
exactly if their Go types are the same. -/
theorem C66_same_type_iff (env : GoEnv) (henv : env.Ok) (o : GOp) (p q : PEx) (d d' : DTy) (n n' : NType) (hn : d.IsNumber n)
    (hn' : d'.IsNumber n') (hi : n.IsInt) (hi' : n'.IsInt) (hd : (TEx.sym p d).Declared env) (hd' : (TEx.sym q d').Declared env) :
    (o.isCmp = true → ((goCheck env (meant (TEx.cmp o (.sym p d) (.sym q d')).toPEx)).isSome = true ↔ env.tyName d.goText = env.tyName d'.goText)) ∧
    (o.isBit = true → ((goCheck env (meant (TEx.bit o (.sym p d) (.sym q d')).toPEx)).isSome = true ↔ env.tyName d.goText = env.tyName d'.goText)) := by
  obtain ⟨w, s, h1, h2⟩ := fields_typed henv hn hi hd
  obtain ⟨w', s', h1', h2'⟩ := fields_typed henv hn' hi' hd'
  rw [h1, h1']
  constructor
  · intro ho
    have e1 : (o.isArith || o.isBit) = false := by cases o <;> simp_all [GOp.isCmp, GOp.isArith, GOp.isBit]
    have e2 : o.isShift = false := by cases o <;> simp_all [GOp.isCmp, GOp.isShift]
    simp only [TEx.toPEx, meant, castGo, goCheck, h2, h2', Option.bind_some, e1, e2, ho, Bool.false_eq_true, if_false, if_true]
    simp only [checkCmp, unify]
    by_cases h : (⟨s, w⟩ : GoNum) = ⟨s', w'⟩
    · rw [h]; simp
    · simp [h]
  · intro ho
    simp only [TEx.toPEx, meant, castGo, goCheck, h2, h2', Option.bind_some, ho, Bool.or_true, if_true]
    simp only [checkArith, unify]
    have e : (decide (o = .div) || decide (o = .mod)) = false := by cases o <;> simp_all [GOp.isBit]
    by_cases h : (⟨s, w⟩ : GoNum) = ⟨s', w'⟩
    · rw [h]; simp [operates, GTy.int, e, GTyping.value]
    · simp [h]

/-! ## Expressions that do not compile -/

/-- A struct with the fields A (uint8), B (uint16), I (int8), F (bool), C and D (enums), M (bitmask), a function Get() of type
uint16 and an array L of uint8. -/
def demoEnv : GoEnv where
  tyName t := ([("uint8", GTy.num ⟨false, 8⟩), ("uint16", .num ⟨false, 16⟩), ("uint32", .num ⟨false, 32⟩), ("uint64", .num ⟨false, 64⟩),
    ("int8", .num ⟨true, 8⟩), ("int16", .num ⟨true, 16⟩), ("int32", .num ⟨true, 32⟩), ("int64", .num ⟨true, 64⟩),
    ("float32", .flt 32), ("float64", .flt 64), ("bool", .bool), ("string", .str), ("Color", .named "Color".toList),
    ("Shape", .named "Shape".toList), ("Mask", .named "Mask".toList)].map fun x => (x.1.toList, x.2)).lookup t
  under t := ([("int", (⟨true, 64⟩ : GoNum)), ("Color", ⟨false, 8⟩), ("Shape", ⟨false, 8⟩), ("Mask", ⟨false, 32⟩)].map
    fun x => (x.1.toList, x.2)).lookup t
  prim g := match g with
    | .sel (.name _) t => (([("A", GTy.num ⟨false, 8⟩), ("B", .num ⟨false, 16⟩), ("I", .num ⟨true, 8⟩), ("F", .bool),
      ("C", .named "Color".toList), ("D", .named "Shape".toList), ("M", .named "Mask".toList)].map
        fun x => (x.1.toList, x.2)).lookup t).map (.typed · none)
    | .call0 _ => some (.typed (.num ⟨false, 16⟩) none)
    | .name t => if t = "true".toList then some (.typed .bool none) else some (.typed (.named "Mask".toList) (some 4))
    | _ => none
  elem _ := some (.num ⟨false, 8⟩)

theorem demo_ok : demoEnv.Ok where
  num := by intro s w hw; simp only [List.mem_cons, List.not_mem_nil, or_false] at hw; rcases hw with rfl | rfl | rfl | rfl <;> cases s <;> decide +kernel
  float32 := by decide +kernel
  float64 := by decide +kernel
  bool := by decide +kernel
  string := by decide +kernel
  int := by decide +kernel

def fieldA : TEx := .sym (.member ['A']) (.builtin ⟨"uint8", 0, false⟩)
def fieldB : TEx := .sym (.member ['B']) (.builtin ⟨"uint16", 0, false⟩)
def fieldI : TEx := .sym (.member ['I']) (.builtin ⟨"int8", 0, false⟩)
def fieldF : TEx := .sym (.member ['F']) (.builtin ⟨"bool", 0, false⟩)
def fieldC : TEx := .sym (.member ['C']) (.enum "Color".toList)
def fieldD : TEx := .sym (.member ['D']) (.enum "Shape".toList)
def fieldM : TEx := .sym (.member ['M']) (.mask "Mask".toList)
def callGet : TEx := .call (.member "Get".toList) (.builtin ⟨"uint16", 0, false⟩) ⟨.integer, some ⟨"uint8", 0, false⟩⟩

theorem fieldA_declared : fieldA.Declared demoEnv := ⟨.inl (.inr ⟨by decide +kernel, rfl, rfl⟩), by decide +kernel⟩
theorem fieldB_declared : fieldB.Declared demoEnv := ⟨.inl (.inr ⟨by decide +kernel, rfl, rfl⟩), by decide +kernel⟩
theorem fieldI_declared : fieldI.Declared demoEnv := ⟨.inl (.inr ⟨by decide +kernel, rfl, rfl⟩), by decide +kernel⟩
theorem fieldF_declared : fieldF.Declared demoEnv := ⟨.inr (.inr (.inl rfl)), by decide +kernel⟩
theorem fieldC_declared : fieldC.Declared demoEnv := ⟨⟨by decide +kernel, by decide +kernel⟩, by decide +kernel⟩
theorem fieldD_declared : fieldD.Declared demoEnv := ⟨⟨by decide +kernel, by decide +kernel⟩, by decide +kernel⟩
theorem fieldM_declared : fieldM.Declared demoEnv := ⟨⟨by decide +kernel, by decide +kernel⟩, by decide +kernel⟩
theorem callGet_declared : callGet.Declared demoEnv := by
  refine ⟨.inl (.inr ⟨by decide +kernel, rfl, rfl⟩), by decide +kernel, ⟨fun _ t ht => ?_, fun h => by cases h⟩, .num ⟨false, 16⟩, by decide +kernel, rfl⟩
  cases ht; exact int_isNum _ _ (by decide +kernel)

/-- The generator accepts the expression, but what it prints does not compile. -/
def Refused (env : GoEnv) (e : TEx) : Prop :=
  e.Declared env ∧ (∃ r, e.res = .ok r) ∧ e.toPEx.Safe ∧ goCheck env (meant e.toPEx) = none

/-- `a < b` and `a & b` with a uint8 `a` and a uint16 `b`; both are legal in zserio. -/
theorem C66_violated_compare : Refused demoEnv (.cmp .lt fieldA fieldB) ∧ Refused demoEnv (.bit .band fieldA fieldB) :=
  ⟨⟨⟨rfl, fieldA_declared, fieldB_declared⟩, ⟨_, rfl⟩, by simp [TEx.toPEx, PEx.Safe, PEx.level, goPrec, fieldA, fieldB], by decide +kernel⟩,
   ⟨⟨rfl, fieldA_declared, fieldB_declared⟩, ⟨_, rfl⟩, by simp [TEx.toPEx, PEx.Safe, PEx.level, goPrec, fieldA, fieldB], by decide +kernel⟩⟩

/-- `a + 300`, `a / 0` and `a - -1` with a uint8 `a`: the constant is cast to uint8. -/
theorem C66_violated_constant : Refused demoEnv (.arith .add fieldA (.const 300 none)) ∧
    Refused demoEnv (.arith .div fieldA (.const 0 none)) ∧ Refused demoEnv (.arith .sub fieldA (.const (-1) none)) := by
  have hc : ∀ z, (TEx.const z none).Declared demoEnv := fun z t ht => by cases ht
  refine ⟨⟨⟨rfl, fieldA_declared, hc _⟩, ⟨_, rfl⟩, ?_, by decide +kernel⟩, ⟨⟨rfl, fieldA_declared, hc _⟩, ⟨_, rfl⟩, ?_, by decide +kernel⟩,
    ⟨⟨rfl, fieldA_declared, hc _⟩, ⟨_, rfl⟩, ?_, by decide +kernel⟩⟩
  · simp [TEx.toPEx, PEx.Safe, PEx.level, goPrec, fieldA]
  · simp [TEx.toPEx, PEx.Safe, PEx.level, goPrec, fieldA]
  · simp [TEx.toPEx, PEx.Safe, PEx.level, goPrec, fieldA]

/-- `valueof(c) + valueof(d)` with two enums: `valueof` changes nothing in Go, so that the types of the enums stay. -/
theorem C66_violated_valueof : Refused demoEnv (.arith .add (.valueof fieldC) (.valueof fieldD)) := by
  refine ⟨⟨rfl, fieldC_declared, fieldD_declared⟩, ⟨_, rfl⟩, ?_, by decide +kernel⟩
  simp [TEx.toPEx, PEx.Safe, PEx.level, goPrec, fieldC, fieldD]

/-- `(get()) + a` with a function of type uint16 that returns an expression of type uint8, and a uint8 `a`: in parentheses the
declared type of the function is forgotten. Without them, the result is cast. -/
theorem C66_violated_call : Refused demoEnv (.arith .add (.paren callGet) fieldA) ∧
    goCheck demoEnv (meant (TEx.arith .add callGet fieldA).toPEx) = some (.typed (.num ⟨false, 8⟩) none) := by
  refine ⟨⟨⟨rfl, callGet_declared, fieldA_declared⟩, ⟨_, rfl⟩, ?_, by decide +kernel⟩, by decide +kernel⟩
  simp [TEx.toPEx, PEx.Safe, PEx.level, goPrec, fieldA, callGet]

/-- `f < f` with a bool: Go does not order truth values. -/
theorem C66_violated_bool : Refused demoEnv (.cmp .lt fieldF fieldF) :=
  ⟨⟨rfl, fieldF_declared, fieldF_declared⟩, ⟨_, rfl⟩, by simp [TEx.toPEx, PEx.Safe, PEx.level, goPrec, fieldF], by decide +kernel⟩

/-- An element of an array of a subtype of `bool` counts as an integer: the generator refuses `flags[0] && f`, which is legal. -/
theorem C66_violated_element : ∃ m, (TEx.logic .land (.elem (.member "Flags".toList) (.const 0 none) (.sub "Flag".toList ⟨"bool", 0, false⟩))
    fieldF).res = .error m := ⟨_, rfl⟩

/-! ## The hypotheses can be met -/

/-- `(a + i) * b`: uint8, int8 and uint16 make a uint16. -/
example : ∃ ts t, printGo (TEx.arith .mul (.paren (.arith .add fieldA fieldI)) fieldB).toPEx = some ts ∧ IsResult [⟨"uint8", 0, false⟩, ⟨"int8", 0, false⟩, ⟨"uint16", 0, false⟩] t ∧
    ∀ p g, Derives p ts g → goCheck demoEnv g.strip = some (.typed t none) := by
  have hA : fieldA.Arith [⟨"uint8", 0, false⟩] := .sym ⟨.inl rfl, .inl (.inr ⟨by decide +kernel, rfl, rfl⟩)⟩
  have hI : fieldI.Arith [⟨"int8", 0, false⟩] := .sym ⟨.inl rfl, .inl (.inr ⟨by decide +kernel, rfl, rfl⟩)⟩
  have hB : fieldB.Arith [⟨"uint16", 0, false⟩] := .sym ⟨.inl rfl, .inl (.inr ⟨by decide +kernel, rfl, rfl⟩)⟩
  obtain ⟨ts, t, h1, _, h3, h4⟩ := C66_arithmetic demoEnv demo_ok _ _ (.arith (o := .mul) (.paren (.arith (o := .add) hA hI)) hB)
    ⟨rfl, ⟨rfl, fieldA_declared, fieldI_declared⟩, fieldB_declared⟩ ⟨.integer, some ⟨"uint16", 0, false⟩⟩ (by decide +kernel) (by
      simp [TEx.toPEx, PEx.Safe, PEx.level, goPrec, fieldA, fieldB, fieldI])
  exact ⟨ts, t, h1, h3, h4⟩

/-- `lengthof(l) > @index && isset(m, Mask.X)` is not sound (int64 against int), `(a << 2) + 3 == b % 7` is not either (uint8
against uint16); `(a + i) * b == 3 && isset(m, Mask.X)` is. -/
example : (TEx.logic .land (.cmp .eq (.arith .mul (.paren (.arith .add fieldA fieldI)) fieldB) (.const 3 none))
    (.isset fieldM (.item "MaskX".toList "Mask".toList true 4))).Sound demoEnv ∧
    goCheck demoEnv (meant (TEx.logic .land (.cmp .eq (.arith .mul (.paren (.arith .add fieldA fieldI)) fieldB) (.const 3 none))
      (.isset fieldM (.item "MaskX".toList "Mask".toList true 4))).toPEx) = some (.typed .bool none) := by
  have hA : fieldA.Arith [⟨"uint8", 0, false⟩] := .sym ⟨.inl rfl, .inl (.inr ⟨by decide +kernel, rfl, rfl⟩)⟩
  have hI : fieldI.Arith [⟨"int8", 0, false⟩] := .sym ⟨.inl rfl, .inl (.inr ⟨by decide +kernel, rfl, rfl⟩)⟩
  have hB : fieldB.Arith [⟨"uint16", 0, false⟩] := .sym ⟨.inl rfl, .inl (.inr ⟨by decide +kernel, rfl, rfl⟩)⟩
  refine ⟨⟨⟨(arith_sound demo_ok (.arith (o := .mul) (.paren (.arith (o := .add) hA hI)) hB) ⟨.integer, some ⟨"uint16", 0, false⟩⟩
    ⟨rfl, ⟨rfl, fieldA_declared, fieldI_declared⟩, fieldB_declared⟩ (by decide +kernel)).2.1, trivial, .num ⟨false, 16⟩, ?_, .inl rfl⟩,
    trivial, trivial, fun h => (by simp [fieldM, TEx.cval] at h), .named "Mask".toList, .inl ⟨by decide +kernel, rfl⟩⟩, by decide +kernel⟩
  refine .inr (.inl ⟨by decide +kernel, ⟨3, none, rfl⟩, fun z hz => ?_⟩)
  cases hz; decide +kernel

end Verif
