import Verif.Generate
import Verif.Props.SelectEnum
import Verif.Props.GoNames
import Verif.Props.Scope
import Verif.Props.GoValues
import Verif.Props.Literals

/-!
# C90: expressions of structures

What conditions, array lengths, bit widths and type arguments mean, on the schema as it is written, and that the generated Go expressions have
these values.
-/

namespace Verif

/-! ## Specification -/

/-- The name that a declaration of a schema declares. -/
def CDirective.declared : CDirective → List Char
  | .const _ n _ | .subtype _ n | .enum _ n _ | .bitmask _ n _ | .instantiate _ n => n.text
  | .other d => d.name.text
  | .structure h _ _ | .choice h _ _ _ _ | .union h _ _ => h.name.text

/-- The Go type of the numbers of an integer type. -/
def Elem.goNum : Elem → Option GoNum
  | .bits w _ => some ⟨false, w⟩
  | .sbits w _ => some ⟨true, w⟩
  | .varint | .varint64 => some ⟨true, 64⟩
  | .varint16 => some ⟨true, 16⟩
  | .varint32 => some ⟨true, 32⟩
  | .varuint | .varuint64 | .varsize => some ⟨false, 64⟩
  | .varuint16 => some ⟨false, 16⟩
  | .varuint32 => some ⟨false, 32⟩
  | _ => none

/-- The declaration an expression is in: its parameters, its fields (if it is a structure), and the number of fields before the field it belongs
to. -/
structure Place where
  schema : CPackage
  params : List CParam
  fields : List CField
  before : Nat

/-- The name, if it is that of a type with a format of its own. -/
def CDirective.typeName : CDirective → Option (List Char)
  | .enum _ n _ | .bitmask _ n _ => some n.text
  | .structure h _ _ | .choice h _ _ _ _ | .union h _ _ => some h.name.text
  | _ => none

/-- The types of a schema, in the order of the file; a type has the number of its position. -/
def CPackage.typeNames (p : CPackage) : List (List Char) := p.directives.filterMap CDirective.typeName

/-- What a type refers to, through `d` subtypes. -/
inductive RefersTo (p : CPackage) : CTypeRef → Nat → FTy → Prop
  | builtin {b : CBuiltin} {k : Elem} : TypeDenotes ⟨.builtin b, .none⟩ 0 k → RefersTo p (.builtin b) 0 (.prim k)
  | own {n : Ident} {i : Nat} : p.typeNames[i]? = some n.text → RefersTo p (.named n [] []) 0 (.comp i)
  | subtype {n : Ident} {r : CTypeRef} {d : Nat} {ty : FTy} :
      .subtype r n ∈ p.directives → RefersTo p r d ty → RefersTo p (.named n [] []) (d + 1) ty

/-- The values of a parameter or field of type `r`: those of a builtin type, or those of the enum or bitmask with number `i` (`mask` tells
which), which are values of the builtin type it is declared with.  Names of types do not begin with a lower-case letter (C73). -/
inductive MemberType (p : CPackage) (r : CTypeRef) : Elem → Option (Nat × Bool) → Prop
  | builtin {d : Nat} {k : Elem} : RefersTo p r d (.prim k) → d ≤ 99 → (∀ n, r = .named n [] [] → ¬ StartsLower n.text) → MemberType p r k none
  | enum {d i : Nat} {k : Elem} {b : CBuiltin} {n : Ident} {is : List CEnumItem} : RefersTo p r d (.comp i) → d ≤ 99 →
      (∀ n, r = .named n [] [] → ¬ StartsLower n.text) → p.typeNames[i]? = some n.text → .enum ⟨.builtin b, .none⟩ n is ∈ p.directives →
      TypeDenotes ⟨.builtin b, .none⟩ 0 k → MemberType p r k (some (i, false))
  | bitmask {d i : Nat} {k : Elem} {b : CBuiltin} {n : Ident} {vs : List CBitmaskValue} : RefersTo p r d (.comp i) → d ≤ 99 →
      (∀ n, r = .named n [] [] → ¬ StartsLower n.text) → p.typeNames[i]? = some n.text → .bitmask ⟨.builtin b, .none⟩ n vs ∈ p.directives →
      TypeDenotes ⟨.builtin b, .none⟩ 0 k → MemberType p r k (some (i, true))

/-- The name `n` is that of parameter `i`.  Names that are also declared in the package would stand for that (C76). -/
inductive NamesParam (a : Place) (n : Ident) (i : Nat) (k : Elem) (o : Option (Nat × Bool)) : Prop
  | mk {c : CParam} : a.params[i]? = some c → c.name = n → MemberType a.schema c.type k o →
      n.text ∉ a.schema.directives.map CDirective.declared → NamesParam a n i k o

/-- The name `n` is that of field `i`, which comes earlier and is neither optional nor an array.  Names that are also declared
in the package would stand for that (C76). -/
inductive NamesField (a : Place) (n : Ident) (i : Nat) (k : Elem) (o : Option (Nat × Bool)) : Prop
  | mk {c : CField} : a.fields[i]? = some c → i < a.before → c.typeId.name = n → c.optional = false → c.typeId.array = none →
      c.typeId.type.args = .none → MemberType a.schema c.typeId.type.type k o →
      n.text ∉ a.schema.directives.map CDirective.declared → NamesField a n i k o

/-- The name `n` is that of field `i`, which comes earlier, is an array and not optional.  Names of types do not begin with a lower-case letter (C73). -/
inductive NamesArray (a : Place) (n : Ident) (i : Nat) : Prop
  | mk {c : CField} {d : Nat} {ty : FTy} : a.fields[i]? = some c → i < a.before → c.typeId.name = n → c.optional = false → c.typeId.array ≠ none →
      RefersTo a.schema c.typeId.type.type d ty → d ≤ 99 → (∀ n, c.typeId.type.type = .named n [] [] → ¬ StartsLower n.text) →
      n.text ∉ a.schema.directives.map CDirective.declared → NamesArray a n i

/-- The number of elements. -/
def Val.size : Val → Nat
  | .list vs => vs.length
  | _ => 0

/-- The token of a kind of integer literals. -/
def LitKind.token : LitKind → TokenKind
  | .binary => .binary
  | .octal => .octal
  | .decimal => .decimal
  | .hexadecimal => .hexadecimal

/-- Integer literals, also in parentheses, with their values (C56). -/
inductive LitMeans : CExpr → Int → Prop
  | literal {l : LitKind} {text : Text} {ds : List Nat} : LitText l text ds → ds ≠ [] → (∀ d ∈ ds, d < l.base) →
      (l = .binary → text.getLast? = some 'b') → Nat.ofDigits l.base ds.reverse < 2 ^ 63 →
      LitMeans (.literal l.token text) (Nat.ofDigits l.base ds.reverse : Nat)
  | parenthesized {e : CExpr} {z : Int} : LitMeans e z → LitMeans (.parenthesized e) z

/-- The number of an item of an enum: the literal that is written, otherwise the next number after that of the item before, or 0. -/
inductive ItemValue (is : List CEnumItem) : Nat → Int → Prop
  | given {j : Nat} {c : CEnumItem} {e : CExpr} {z : Int} : is[j]? = some c → c.value = some e → LitMeans e z → ItemValue is j z
  | first {c : CEnumItem} : is[0]? = some c → c.value = none → ItemValue is 0 0
  | next {j : Nat} {c : CEnumItem} {z : Int} : is[j + 1]? = some c → c.value = none → ItemValue is j z → z + 1 < 2 ^ 63 → ItemValue is (j + 1) (z + 1)

/-- The item `n` of the enum that type `r` refers to has the number `z`; `written` tells whether the number is written there.  The items of the
enum have different names, and all of them have numbers. -/
inductive ItemMeans (p : CPackage) (r : CTypeRef) (n : Ident) (written : Bool) (z : Int) : Prop
  | mk {d i j : Nat} {t : CTypeInst} {m : Ident} {is : List CEnumItem} {c : CEnumItem} : RefersTo p r d (.comp i) → d ≤ 99 → p.typeNames[i]? = some m.text →
      .enum t m is ∈ p.directives → (is.map fun c => c.name.text).Nodup → (∀ j < is.length, ∃ z, ItemValue is j z) →
      is[j]? = some c → c.name = n → c.value.isSome = written → ItemValue is j z → ItemMeans p r n written z

/-- The item `n` of the enum `t`, which has number `i` and values of type `g`, is a Go constant: its number `z` is not written, and it is one of
`g`.  No other item of the schema gets the same Go name (C74). -/
inductive ItemConstant (p : CPackage) (t n : Ident) (i : Nat) (g : GoNum) (z : Int) : Prop
  | mk {j : Nat} {b : CBuiltin} {is : List CEnumItem} {c : CEnumItem} {k : Elem} : p.typeNames[i]? = some t.text → ¬ StartsLower t.text →
      .enum ⟨.builtin b, .none⟩ t is ∈ p.directives → TypeDenotes ⟨.builtin b, .none⟩ 0 k → k.goNum = some g → (is.map fun c => c.name.text).Nodup →
      (∀ j < is.length, ∃ z, ItemValue is j z) → is[j]? = some c → c.name = n → c.value = none → ItemValue is j z → g.Holds z →
      (∀ ty m is c, .enum ty m is ∈ p.directives → c ∈ is → enumItemGoName (title m.text) c.name.text = enumItemGoName (title t.text) n.text →
        m.text = t.text ∧ c.name.text = n.text) → ItemConstant p t n i g z

/-- The number of a value of a bitmask: the literal that is written, otherwise the least power of two above the value before, or 1. -/
inductive FlagValue (vs : List CBitmaskValue) : Nat → Int → Prop
  | given {j : Nat} {c : CBitmaskValue} {e : CExpr} {z : Int} : vs[j]? = some c → c.value = some e → LitMeans e z → FlagValue vs j z
  | first {c : CBitmaskValue} : vs[0]? = some c → c.value = none → FlagValue vs 0 1
  | next {j k : Nat} {c : CBitmaskValue} {z : Int} : vs[j + 1]? = some c → c.value = none → FlagValue vs j z → z < 2 ^ k → (∀ m : Nat, z < 2 ^ m → k ≤ m) →
      k ≤ 62 → FlagValue vs (j + 1) (2 ^ k)

/-- The value `n` of the bitmask `t`, which has number `i` and values of type `g`, is the Go constant of the number `z`.  No other item or value
of the schema gets the same Go name (C74). -/
inductive FlagConstant (p : CPackage) (t n : Ident) (i : Nat) (g : GoNum) (z : Int) : Prop
  | mk {j : Nat} {b : CBuiltin} {vs : List CBitmaskValue} {c : CBitmaskValue} {k : Elem} : p.typeNames[i]? = some t.text → ¬ StartsLower t.text →
      .bitmask ⟨.builtin b, .none⟩ t vs ∈ p.directives → TypeDenotes ⟨.builtin b, .none⟩ 0 k → k.goNum = some g → (vs.map fun c => c.name.text).Nodup →
      (∀ j < vs.length, ∃ z, FlagValue vs j z) → vs[j]? = some c → c.name = n → FlagValue vs j z → g.Holds z →
      (∀ ty m vs c, .bitmask ty m vs ∈ p.directives → c ∈ vs → title m.text ++ title c.name.text = title t.text ++ title n.text →
        m.text = t.text ∧ c.name.text = n.text) →
      (∀ ty m is c, .enum ty m is ∈ p.directives → c ∈ is → enumItemGoName (title m.text) c.name.text ≠ title t.text ++ title n.text) →
      FlagConstant p t n i g z

/-- The type of a number in a Go expression: none yet for constants, an integer type, that of an enum or bitmask, or that of an enum for the constant
of an item. -/
inductive NumTy where
  | const
  | num (g : GoNum)
  | own (i : Nat) (mask : Bool) (g : GoNum)
  | item (i : Nat) (g : GoNum)
deriving DecidableEq

/-- The type of numbers of a parameter or field. -/
def NumTy.of : Option (Nat × Bool) → GoNum → NumTy
  | none, g => .num g
  | some (i, mask), g => .own i mask g

/-- The integer type behind it. -/
def NumTy.int : NumTy → Option GoNum
  | .const => none
  | .num g => some g
  | .own _ _ g => some g
  | .item _ g => some g

/-- Numbers that are combined to one of type `t` with `g` behind it: of the same type, or one of them a constant that is a number of the type. -/
inductive Combined : NumTy → (Env → Int) → NumTy → (Env → Int) → GoNum → Prop
  | same {g : GoNum} {f f' : Env → Int} : Combined (.num g) f (.num g) f' g
  | right {g : GoNum} {f f' : Env → Int} : (∀ env, g.Holds (f' env)) → Combined (.num g) f .const f' g
  | left {g : GoNum} {f f' : Env → Int} : (∀ env, g.Holds (f env)) → Combined .const f (.num g) f' g

/-- Numbers of different types are combined in the larger one, without sign unless both have one (C32).  Numbers of the largest type without sign together
with those of 32 bits are left out: `varsize` counts as a type of 31 bits. -/
inductive Mixed : GoNum → GoNum → GoNum → Prop
  | mk {g g' : GoNum} : ¬ (g = ⟨false, 64⟩ ∧ g'.width = 32) → ¬ (g' = ⟨false, 64⟩ ∧ g.width = 32) →
      Mixed g g' ⟨g.signed && g'.signed, max g.width g'.width⟩

/-- Sums and differences. -/
def AddOp.apply : AddOp → Int → Int → Int
  | .plus, x, y => x + y
  | .minus, x, y => x - y

/-- Products, and quotients rounded towards zero with their remainders. -/
def MulOp.apply : MulOp → Int → Int → Int
  | .multiply, x, y => x * y
  | .divide, x, y => x.tdiv y
  | .modulo, x, y => x.tmod y

/-- Shifts to the left multiply, shifts to the right divide and round down. -/
def ShiftOp.apply : ShiftOp → Int → Int → Int
  | .left, x, y => x * 2 ^ y.toNat
  | .right, x, y => x / 2 ^ y.toNat

/-- How tightly operators bind, in Go. -/
def CExpr.tight : CExpr → Nat
  | .logicalOr _ _ => 1
  | .logicalAnd _ _ => 2
  | .relational _ _ _ | .equality _ _ _ | .isSet _ _ => 3
  | .additive _ _ _ | .bitwiseOr _ _ | .bitwiseXor _ _ => 4
  | .multiplicative _ _ _ | .bitwiseAnd _ _ | .shift _ _ _ => 5
  | _ => 6

/-- The number an expression denotes, depending on the values of parameters and fields, with its Go type if it is not constant.
Arithmetic is that of the type: what is too large or too small for it wraps around (C67).  Divisors and numbers of bits to shift by are constants.  Operands that bind less tightly
in Go are in parentheses (C55). -/
inductive NumMeans (a : Place) : CExpr → NumTy → (Env → Int) → Prop
  | field {n : Ident} {i : Nat} {k : Elem} {o : Option (Nat × Bool)} {g : GoNum} : NamesField a n i k o → k.goNum = some g →
      NumMeans a (.identifier n) (NumTy.of o g) (fun env => Wire.num k (k.val (env.fields.getD i .none)))
  | param {n : Ident} {i : Nat} {k : Elem} {o : Option (Nat × Bool)} {g : GoNum} : NamesParam a n i k o → k.goNum = some g →
      NumMeans a (.identifier n) (NumTy.of o g) (fun env => Wire.num k (k.val (env.params.getD i .none)))
  | literal {e : CExpr} {z : Int} : LitMeans e z → NumMeans a e .const (fun _ => z)
  | item {t n : Ident} {z : Int} : ItemMeans a.schema (.named t [] []) n true z → NumMeans a (.dot (.identifier t) n) .const (fun _ => z)
  | constant {t n : Ident} {i : Nat} {g : GoNum} {z : Int} : ItemConstant a.schema t n i g z → NumMeans a (.dot (.identifier t) n) (.item i g) (fun _ => z)
  | lengthof {n : Ident} {i : Nat} : NamesArray a n i →
      NumMeans a (.lengthof (.identifier n)) (.num ⟨true, 64⟩) (fun env => wrapTo ⟨true, 64⟩ (env.fields.getD i .none).size)
  | parenthesized {e : CExpr} {g : NumTy} {f : Env → Int} : NumMeans a e g f → NumMeans a (.parenthesized e) g f
  | additive {op : AddOp} {x y : CExpr} {t t' : NumTy} {g : GoNum} {f f' : Env → Int} : NumMeans a x t f → NumMeans a y t' f' →
      Combined t f t' f' g → 4 ≤ x.tight → 5 ≤ y.tight →
      NumMeans a (.additive op x y) (.num g) (fun env => wrapTo g (op.apply (f env) (f' env)))
  | additiveMixed {op : AddOp} {x y : CExpr} {g g' w : GoNum} {f f' : Env → Int} : NumMeans a x (.num g) f → NumMeans a y (.num g') f' →
      Mixed g g' w → 4 ≤ x.tight → 5 ≤ y.tight → NumMeans a (.additive op x y) (.num w) (fun env => wrapTo w (op.apply (f env) (f' env)))
  | multiplyMixed {x y : CExpr} {g g' w : GoNum} {f f' : Env → Int} : NumMeans a x (.num g) f → NumMeans a y (.num g') f' →
      Mixed g g' w → 5 ≤ x.tight → 6 ≤ y.tight → NumMeans a (.multiplicative .multiply x y) (.num w) (fun env => wrapTo w (f env * f' env))
  | multiplicative {op : MulOp} {x y : CExpr} {t t' : NumTy} {g : GoNum} {f f' : Env → Int} : NumMeans a x t f → NumMeans a y t' f' →
      Combined t f t' f' g → 5 ≤ x.tight → 6 ≤ y.tight → (op ≠ .multiply → t' = .const ∧ ∀ env, f' env ≠ 0) →
      NumMeans a (.multiplicative op x y) (.num g) (fun env => wrapTo g (op.apply (f env) (f' env)))
  | bitwiseAnd {x y : CExpr} {t t' : NumTy} {g : GoNum} {f f' : Env → Int} : NumMeans a x t f → NumMeans a y t' f' →
      Combined t f t' f' g → 5 ≤ x.tight → 6 ≤ y.tight → NumMeans a (.bitwiseAnd x y) (.num g) (fun env => wrapTo g ((f env).land (f' env)))
  | bitwiseOr {x y : CExpr} {t t' : NumTy} {g : GoNum} {f f' : Env → Int} : NumMeans a x t f → NumMeans a y t' f' →
      Combined t f t' f' g → 4 ≤ x.tight → 5 ≤ y.tight → NumMeans a (.bitwiseOr x y) (.num g) (fun env => wrapTo g ((f env).lor (f' env)))
  | bitwiseXor {x y : CExpr} {t t' : NumTy} {g : GoNum} {f f' : Env → Int} : NumMeans a x t f → NumMeans a y t' f' →
      Combined t f t' f' g → 4 ≤ x.tight → 5 ≤ y.tight → NumMeans a (.bitwiseXor x y) (.num g) (fun env => wrapTo g ((f env).xor (f' env)))
  | shift {op : ShiftOp} {x y : CExpr} {g : GoNum} {f f' : Env → Int} : NumMeans a x (.num g) f → NumMeans a y .const f' → 5 ≤ x.tight → 6 ≤ y.tight →
      NumMeans a (.shift op x y) (.num g) (fun env => wrapTo g (op.apply (f env) (f' env)))

/-- Numbers that Go compares: of the same type, or one of them a constant that is a number of the type of the other (C66). -/
inductive Comparable : NumTy → (Env → Int) → NumTy → (Env → Int) → Prop
  | same {t : NumTy} {f f' : Env → Int} : t ≠ .const → Comparable t f t f'
  | right {t : NumTy} {g : GoNum} {f f' : Env → Int} : t.int = some g → (∀ vs, g.Holds (f' vs)) → Comparable t f .const f'
  | left {t : NumTy} {g : GoNum} {f f' : Env → Int} : t.int = some g → (∀ vs, g.Holds (f vs)) → Comparable .const f t f'
  | itemRight {i : Nat} {g : GoNum} {f f' : Env → Int} : Comparable (.own i false g) f (.item i g) f'
  | itemLeft {i : Nat} {g : GoNum} {f f' : Env → Int} : Comparable (.item i g) f (.own i false g) f'

/-- The comparison operators. -/
def RelOp.holds : RelOp → Int → Int → Bool
  | .lt, x, y => decide (x < y)
  | .le, x, y => decide (x ≤ y)
  | .gt, x, y => decide (x > y)
  | .ge, x, y => decide (x ≥ y)

def EqOp.holds : EqOp → Int → Int → Bool
  | .eq, x, y => decide (x = y)
  | .ne, x, y => decide (x ≠ y)

/-- When a condition is true, depending on the values of parameters and fields.  Operands that bind less tightly are in parentheses.  The value that
`isset` is asked for has a single bit (C67). -/
inductive CondMeans (a : Place) : CExpr → (Env → Bool) → Prop
  | field {n : Ident} {i : Nat} : NamesField a n i .bool none → CondMeans a (.identifier n) (fun env => (env.fields.getD i .none).asBool)
  | param {n : Ident} {i : Nat} : NamesParam a n i .bool none → CondMeans a (.identifier n) (fun env => (env.params.getD i .none).asBool)
  | parenthesized {e : CExpr} {f : Env → Bool} : CondMeans a e f → CondMeans a (.parenthesized e) f
  | relational {op : RelOp} {x y : CExpr} {g g' : NumTy} {f f' : Env → Int} : NumMeans a x g f → NumMeans a y g' f' →
      Comparable g f g' f' → CondMeans a (.relational op x y) (fun vs => op.holds (f vs) (f' vs))
  | equality {op : EqOp} {x y : CExpr} {g g' : NumTy} {f f' : Env → Int} : NumMeans a x g f → NumMeans a y g' f' →
      Comparable g f g' f' → CondMeans a (.equality op x y) (fun vs => op.holds (f vs) (f' vs))
  | and {x y : CExpr} {f f' : Env → Bool} : CondMeans a x f → CondMeans a y f' → 2 ≤ x.tight → 3 ≤ y.tight →
      CondMeans a (.logicalAnd x y) (fun vs => f vs && f' vs)
  | or {x y : CExpr} {f f' : Env → Bool} : CondMeans a x f → CondMeans a y f' → 2 ≤ y.tight →
      CondMeans a (.logicalOr x y) (fun vs => f vs || f' vs)
  | not {x : CExpr} {f : Env → Bool} : CondMeans a x f → 6 ≤ x.tight → CondMeans a (.unary .bang x) (fun vs => !f vs)
  | isset {x : CExpr} {t n : Ident} {i k : Nat} {g : GoNum} {f : Env → Int} : NumMeans a x (.own i true g) f → 5 ≤ x.tight →
      FlagConstant a.schema t n i g (2 ^ k) → CondMeans a (.isSet x (.dot (.identifier t) n)) (fun vs => decide ((f vs).land (2 ^ k) = 2 ^ k))

/-- The condition of a field; without one the field is always there. -/
inductive ClauseMeans (a : Place) : Option CExpr → (Env → Bool) → Prop
  | no : ClauseMeans a none (fun _ => true)
  | yes {e : CExpr} {f : Env → Bool} : CondMeans a e f → ClauseMeans a (some e) f

/-- Whether a field is an array, whether it is packed, and its length if it is not automatic: a number of a type other than
those with 64 bits and without sign. -/
inductive ArrayOf (a : Place) (packed : Bool) : Option (Option CExpr) → Option Bool → (Env → Option Int) → Prop
  | no : ArrayOf a packed none none (fun _ => none)
  | auto : ArrayOf a packed (some none) (some packed) (fun _ => none)
  | fixed {e : CExpr} {g : NumTy} {f : Env → Int} : NumMeans a e g f → g.int ≠ some ⟨false, 64⟩ →
      ArrayOf a packed (some (some e)) (some packed) (fun env => some (f env))

/-- The value of an argument for a parameter: numbers that the type of the parameter has, truth values, and for the elements of an array (`isArray`) the
index of the element, as a number of the type of the parameter (so that high bits are lost if the array is too long for it). -/
inductive ArgMeans (a : Place) (isArray : Bool) : CParam → CTypeArg → (Env → Nat → Val) → Prop
  | num {r : CTypeRef} {n : Ident} {k : Elem} {o : Option (Nat × Bool)} {w : GoNum} {e : CExpr} {g : NumTy} {f : Env → Int} :
      MemberType a.schema r k o → k.goNum = some w → NumMeans a e g f → (∀ env, w.Holds (f env)) →
      ArgMeans a isArray ⟨r, n⟩ (.expression e) (fun env _ => .bits w.width (BitVec.ofInt w.width (f env)))
  | bool {r : CTypeRef} {n : Ident} {e : CExpr} {f : Env → Bool} : MemberType a.schema r .bool none → CondMeans a e f →
      ArgMeans a isArray ⟨r, n⟩ (.expression e) (fun env _ => .bool (f env))
  | index {r : CTypeRef} {n : Ident} {k : Elem} {o : Option (Nat × Bool)} {w : GoNum} : isArray = true → MemberType a.schema r k o → k.goNum = some w →
      ArgMeans a isArray ⟨r, n⟩ (.expression .index) (fun _ i => .bits w.width (BitVec.ofNat w.width i))

/-- All arguments of a type. -/
inductive ArgsMean (a : Place) (isArray : Bool) : List CParam → List CTypeArg → (Env → Nat → List Val) → Prop
  | nil : ArgsMean a isArray [] [] (fun _ _ => [])
  | cons {c : CParam} {cs : List CParam} {x : CTypeArg} {xs : List CTypeArg} {v : Env → Nat → Val} {vs : Env → Nat → List Val} : ArgMeans a isArray c x v →
      ArgsMean a isArray cs xs vs → ArgsMean a isArray (c :: cs) (x :: xs) (fun env i => v env i :: vs env i)

/-! ## What becomes of fields -/

/-- A type behind resolution, in package `P`. -/
def finalRef (P : List Char) : CTypeRef → ATypeRef
  | .builtin b => visitBuiltinText b.text
  | .named n _ _ => .mk false P n.text 0 [] [] none

/-- The same with what follows it. -/
def finalInst (P : List Char) (t : CTypeInst) : ATypeRef :=
  match finalRef P t.type with
  | .mk b p n bits targs args length =>
    match t.args with
    | .none => .mk b p n bits targs args length
    | .typeArgs first rest => .mk b p n bits targs ((first :: rest).map visitTypeArg) length
    | .dynamicLength e => .mk b p n bits targs args (some (visitExpr e))

/-- A parameter behind resolution. -/
def finalParam (P : List Char) (c : CParam) : AParam := ⟨c.name.text, finalRef P c.type⟩

/-- Type, name and range behind resolution. -/
def finalTypeId (P : List Char) (t : CFieldTypeId) : AField :=
  ⟨t.name.text, false, 0, finalInst P t.type, none, none, none, t.array.map fun l => ⟨t.packed, l.map visitExpr⟩⟩

/-- A field behind resolution. -/
def finalField (P : List Char) (f : CField) : AField :=
  { finalTypeId P f.typeId with
    optional := f.optional
    alignment := (match f.alignment with | none => 0 | some e => (visitAlignment e).getD 0)
    initializer := f.initializer.map visitExpr
    optionalClause := f.optionalClause.map visitExpr
    constraint := f.constraint.map visitExpr }

/-! ## Builtin types in expressions -/

/-- The type with a name and a size, as expressions have it. -/
def nativeType (t : ATypeRef) : Option NType :=
  if t.isBuiltin && !t.dynamic then some ⟨String.ofList t.name, t.bits, false⟩ else none

/-- The integer types of Go. -/
def goNums : List GoNum := [⟨false, 8⟩, ⟨false, 16⟩, ⟨false, 32⟩, ⟨false, 64⟩, ⟨true, 8⟩, ⟨true, 16⟩, ⟨true, 32⟩, ⟨true, 64⟩]

/-- The ranks of types whose values are those of a Go type. -/
def rankOk (g : GoNum) (r : Nat) : Bool := decide (r ≤ g.width) && (decide (g.width < 2 * r) || decide (g.width = 8) || (decide (g = ⟨false, 64⟩) && decide (16 < r)))

/-- A type of a schema whose values are those of a Go type. -/
structure NumBase (n : NType) (g : GoNum) : Prop where
  go : goIntType n = some g
  sign : (signedToUnsigned.lookup n.name).isSome = g.signed
  rank : ∃ r, getIntegerTypeRank n = .ok r ∧ rankOk g r = true

/-- The same, with the type without sign that it has. -/
structure NumNative (n : NType) (g : GoNum) : Prop extends NumBase n g where
  twin : g.signed = true → ∃ m, makeUnsigned n = .ok m ∧ NumBase m ⟨false, g.width⟩

theorem NumBase.unsigned {n : NType} {g : GoNum} (h : NumBase n g) (hg : g.signed = false) : NumNative n g :=
  ⟨h, fun e => by rw [hg] at e; cases e⟩

/-- `NumBase`, to be evaluated. -/
def baseOk (n : NType) (g : GoNum) : Bool :=
  decide (goIntType n = some g) && decide ((signedToUnsigned.lookup n.name).isSome = g.signed) &&
    (match getIntegerTypeRank n with | .ok r => rankOk g r | .error _ => false)

theorem baseOk_base {n : NType} {g : GoNum} (h : baseOk n g = true) : NumBase n g := by
  simp only [baseOk, Bool.and_eq_true, decide_eq_true_eq] at h
  obtain ⟨⟨h1, h2⟩, h3⟩ := h
  refine ⟨h1, h2, ?_⟩
  cases hr : getIntegerTypeRank n with
  | ok r => rw [hr] at h3; exact ⟨r, rfl, h3⟩
  | error => rw [hr] at h3; cases h3

/-- A number type. -/
def numOk (t : ATypeRef) (g : GoNum) : Bool :=
  match nativeType t with
  | some n => decide (kindByName n.name = .integer) && decide (predeclared (goTypeText n) = some (.num g)) && baseOk n g &&
    (!g.signed || (match makeUnsigned n with | .ok m => baseOk m ⟨false, g.width⟩ | .error _ => false)) && decide (g ∈ goNums)
  | none => false

theorem numOk_bits : ∀ n < 65, 1 ≤ n → numOk (Meaning.unsignedBits n).ref ⟨false, roomFor n⟩ = true ∧
    numOk (Meaning.signedBits n).ref ⟨true, roomFor n⟩ = true := by decide +kernel

theorem numOk_word (w : BuiltinWord) : ∀ k g, wordElem w = some k → k.goNum = some g → numOk (.mk true [] w.text 0 [] [] none) g = true := by
  intro k g h1 h2
  cases w <;> cases h1 <;> cases h2 <;> decide +kernel

theorem denotes_visit {b : CBuiltin} {k : Elem} (h : TypeDenotes ⟨.builtin b, .none⟩ 0 k) :
    (∃ n, 1 ≤ n ∧ n < 65 ∧ visitBuiltinText b.text = (Meaning.unsignedBits n).ref ∧ k = .bits (roomFor n) n) ∨
    (∃ n, 1 ≤ n ∧ n < 65 ∧ visitBuiltinText b.text = (Meaning.signedBits n).ref ∧ k = .sbits (roomFor n) n) ∨
    ∃ w, wordElem w = some k ∧ visitBuiltinText b.text = .mk true [] w.text 0 [] [] none := by
  have h := h.ref
  rw [visitTypeInst_plain] at h
  generalize visitBuiltinText b.text = t at h
  generalize hm : (0 : Int) = m at h
  cases h with
  | unsigned n m h1 h2 => exact .inl ⟨n, h1, by omega, rfl, rfl⟩
  | signed n m h1 h2 => exact .inr (.inl ⟨n, h1, by omega, rfl, rfl⟩)
  | word w m k h => exact .inr (.inr ⟨w, h, rfl⟩)
  | unsignedOf e n h1 h2 => omega
  | signedOf e n h1 h2 => omega

theorem numType {b : CBuiltin} {k : Elem} {g : GoNum} (h : TypeDenotes ⟨.builtin b, .none⟩ 0 k) (hk : k.goNum = some g) :
    ∃ n, nativeType (visitBuiltinText b.text) = some n ∧ kindByName n.name = .integer ∧ goIntType n = some g ∧
      predeclared (goTypeText n) = some (.num g) ∧ NumNative n g ∧ g ∈ goNums := by
  have key : numOk (visitBuiltinText b.text) g = true := by
    rcases denotes_visit h with ⟨n, h1, h2, e, rfl⟩ | ⟨n, h1, h2, e, rfl⟩ | ⟨w, hw, e⟩
    · cases hk; rw [e]; exact (numOk_bits n h2 h1).1
    · cases hk; rw [e]; exact (numOk_bits n h2 h1).2
    · rw [e]; exact numOk_word w k g hw hk
  unfold numOk at key
  cases hn : nativeType (visitBuiltinText b.text) with
  | none => rw [hn] at key; cases key
  | some n =>
    rw [hn] at key
    simp only [Bool.and_eq_true, decide_eq_true_eq] at key
    obtain ⟨⟨⟨⟨k1, k3⟩, k4⟩, k5⟩, k6⟩ := key
    have hb := baseOk_base k4
    refine ⟨n, rfl, k1, hb.go, k3, ⟨hb, fun hs => ?_⟩, k6⟩
    rw [hs] at k5
    cases hr : makeUnsigned n with
    | ok m => rw [hr] at k5; exact ⟨m, rfl, baseOk_base k5⟩
    | error => rw [hr] at k5; cases k5

theorem int_value {k : Elem} {g : GoNum} (hk : k.goNum = some g) (v : Val) :
    (if g.signed then (v.asBits g.width).toInt else ((v.asBits g.width).toNat : Int)) = Wire.num k (k.val v) := by
  cases k <;> cases hk <;> rfl

theorem boolType {b : CBuiltin} (h : TypeDenotes ⟨.builtin b, .none⟩ 0 .bool) :
    nativeType (visitBuiltinText b.text) = some ⟨"bool", 0, false⟩ := by
  rcases denotes_visit h with ⟨n, h1, h2, e, h⟩ | ⟨n, h1, h2, e, h⟩ | ⟨w, hw, e⟩
  · cases h
  · cases h
  · rw [e]
    cases w <;> cases hw
    decide +kernel

theorem goNum_mem {b : CBuiltin} {k : Elem} {g : GoNum} (h : TypeDenotes ⟨.builtin b, .none⟩ 0 k) (hk : k.goNum = some g) : g ∈ goNums := by
  obtain ⟨_, _, _, _, _, _, h⟩ := numType h hk
  exact h

/-- Numbers of a type are numbers of its Go type. -/
theorem num_held {k : Elem} {g : GoNum} (hk : k.goNum = some g) (hg : g ∈ goNums) (v : Val) : g.Holds (Wire.num k (k.val v)) := by
  rw [← int_value hk]
  unfold GoNum.Holds
  have h1 := BitVec.two_mul_toInt_lt (x := v.asBits g.width)
  have h2 := BitVec.le_two_mul_toInt (x := v.asBits g.width)
  have h3 := (v.asBits g.width).isLt
  revert h1 h2 h3
  generalize v.asBits g.width = x
  simp only [goNums, List.mem_cons, List.not_mem_nil, or_false] at hg
  intro h1 h2 h3
  rcases hg with rfl | rfl | rfl | rfl | rfl | rfl | rfl | rfl <;>
    simp only [Bool.false_eq_true, if_false, if_true] at h1 h2 h3 ⊢ <;> norm_num at h1 h2 h3 ⊢ <;> omega

/-- A number that is not of the largest type without sign is an `int`. -/
theorem held_int {g : GoNum} (hg : g ∈ goNums) (hne : g ≠ ⟨false, 64⟩) {z : Int} (h : g.Holds z) : GoNum.Holds ⟨true, 64⟩ z := by
  unfold GoNum.Holds at h ⊢
  simp only [goNums, List.mem_cons, List.not_mem_nil, or_false] at hg
  rcases hg with rfl | rfl | rfl | rfl | rfl | rfl | rfl | rfl <;> first
    | exact absurd rfl hne
    | (simp only [Bool.false_eq_true, if_false, if_true] at h ⊢; norm_num at h ⊢; omega)

theorem wrapTo_held {g : GoNum} (hg : g ∈ goNums) (z : Int) : g.Holds (wrapTo g z) := by
  unfold GoNum.Holds wrapTo
  simp only [goNums, List.mem_cons, List.not_mem_nil, or_false] at hg
  rcases hg with rfl | rfl | rfl | rfl | rfl | rfl | rfl | rfl <;>
    simp only [Bool.false_eq_true, if_false, if_true] <;> norm_num <;> omega

/-! ## Names -/

/-- The Go type of numbers. -/
def NumTy.go (P : List Char) (p : CPackage) : NumTy → Option GTy
  | .const => none
  | .num g => some (.num g)
  | .own i _ _ | .item i _ => some (.named (P ++ '.' :: p.typeNames.getD i []))

/-- The kind of expressions of numbers. -/
def NumTy.kind : NumTy → EKind
  | .const | .num _ | .item _ _ => .integer
  | .own _ mask _ => if mask then .bitmask else .enum

/-- What is found for numbers of a type: only builtin types are kept. -/
def NativeType (r : Operand) : NumTy → Prop
  | .num g => ∃ n, r.type = some n ∧ NumNative n g
  | _ => r.type = none

/-- What is found for a parameter or field that is a number. -/
structure NumberType (P : List Char) (p : CPackage) (q : APackage) (r : ATypeRef) (t : NumTy) : Prop where
  kind : ∃ d, exprType q r = some d ∧ d.operand.kind = t.kind ∧ NativeType d.operand t
  go : ∃ g, t.go P p = some g ∧ goTypeOf q r = some g ∧ g.int (goTypes q) = t.int

/-- What is found for an item. -/
inductive ItemFound (q : APackage) (cur : Cur) (t n : List Char) (written : Bool) (z : Int) : Prop
  | mk {first : Found} {e : ADecl} {i : AItem} : e ∈ enumsOf q q.name → i ∈ e.enumItems → evalSymbol [q] (enumsOf q) 1 cur q (.leaf .id t) = some (first, .enum) →
      dotSymbol [q] (enumsOf q) 1 cur q (first, .enum) n = some (⟨.item e i, n, [], []⟩, .integer) → i.name = n →
      itemNumber none e.enumItems n = some (z, written) → ItemFound q cur t n written z

/-- What is found for an item that is a Go constant. -/
structure ConstantFound (P : List Char) (q : APackage) (owner : Option (List Char)) (t n : List Char) (z : Int) : Prop where
  eval : evalTEx q owner (.two .dot (Tok.text .dot) (.leaf .id t) (.leaf .unevaluatable n)) =
    some (.item (enumItemGoName (title t) n) (P ++ '.' :: t) false z)
  go : goConstant q (enumItemGoName (title t) n) = some (P ++ '.' :: t, z)

/-- What is found for a value of a bitmask. -/
structure FlagFound (P : List Char) (q : APackage) (owner : Option (List Char)) (t n : List Char) (z : Int) : Prop where
  eval : evalTEx q owner (.two .dot (Tok.text .dot) (.leaf .id t) (.leaf .unevaluatable n)) =
    some (.item (title t ++ title n) (P ++ '.' :: t) true z)
  go : goConstant q (title t ++ title n) = some (P ++ '.' :: t, z)

/-- The package and the scope in which the expressions of a declaration are evaluated. -/
structure Inside (a : Place) (P : List Char) (q : APackage) (owner : Option (List Char)) (ms : Members) : Prop where
  nodup : (q.decls.map ADecl.name).Nodup
  imports : q.imports = []
  declared : q.decls.map ADecl.name = a.schema.directives.map CDirective.declared
  scope : (a.params = [] ∧ a.fields = []) ∨ ∃ d ∈ q.decls, owner = some d.name ∧ d.kind ∈ [DeclKind.struct, .union, .choice] ∧
    (d.inside.map Prod.fst).Nodup ∧ (∀ x ∈ ms.params, (x.name, SSym.param x) ∈ d.scopeEntries) ∧
    ∀ c ∈ a.fields, ((finalField P c).name, SSym.field (finalField P c)) ∈ d.scopeEntries
  numbers : ∀ {r : CTypeRef} {k : Elem} {o : Option (Nat × Bool)} {g : GoNum}, MemberType a.schema r k o → k.goNum = some g →
    NumberType P a.schema q (finalRef P r) (.of o g)
  bools : ∀ {r : CTypeRef}, MemberType a.schema r .bool none → (∃ d, exprType q (finalRef P r) = some d ∧ d.operand.kind = .bool) ∧
    goTypeOf q (finalRef P r) = some .bool
  items : ∀ {r : CTypeRef} {n : Ident} {w : Bool} {z : Int}, ItemMeans a.schema r n w z → ∀ cur, ∃ t, r = .named t [] [] ∧ ItemFound q cur t.text n.text w z
  constants : ∀ {t n : Ident} {i : Nat} {g : GoNum} {z : Int}, ItemConstant a.schema t n i g z → ∀ owner, ConstantFound P q owner t.text n.text z
  flags : owner.isSome → ∀ {t n : Ident} {i : Nat} {g : GoNum} {z : Int}, FlagConstant a.schema t n i g z → FlagFound P q owner t.text n.text z
  refs : ∀ {r : CTypeRef} {d : Nat} {ty : FTy}, RefersTo a.schema r d ty → d ≤ 99 → (followRef q 99 false (finalRef P r)).isSome = true
  goes : ∀ {r : CTypeRef} {d : Nat} {ty : FTy}, RefersTo a.schema r d ty → (∀ n, r = .named n [] [] → ¬ StartsLower n.text) →
    q.namesGoType (capRef (finalRef P r)) = true
  titles : ((ms.params.map AParam.name ++ ms.fields.map AField.name).map title).Nodup
  params : ∀ (i : Nat) c, a.params[i]? = some c → ms.params[i]? = some (finalParam P c)
  fields : ∀ (i : Nat) c, a.fields[i]? = some c → ms.fields[i]? = some (finalField P c)

section Names

variable {a : Place} {P : List Char} {q : APackage} {owner : Option (List Char)} {ms : Members}

theorem Inside.named (h : Inside a P q owner ms) {n : List Char} {s : SSym} {d : ADecl} (hd : d ∈ q.decls)
    (hk : d.kind ∈ [DeclKind.struct, .union, .choice]) (hin : (d.inside.map Prod.fst).Nodup) (hs : (n, s) ∈ d.scopeEntries)
    (hn : n ∉ a.schema.directives.map CDirective.declared) : memberNamed q (some d.name) n = some s := by
  have hnone : q.typeSymbol n = none := typeSymbol_none h.nodup _ (by
    intro e he hc
    refine hn ?_
    rw [← h.declared, ← hc]
    exact List.mem_map_of_mem he)
  have hc := (compoundSymbol_iff h.nodup hd hk hin n ⟨s, n, q.name, d.name⟩).2 ⟨s, hs, rfl⟩
  have hi : importedOf [q] q = [] := by simp [importedOf, h.imports]
  simp only [memberNamed, getSymbolIn, getTypeSymbol, getCurrentSymbol, hi, List.findSome?_cons, List.findSome?_nil, hnone, hc, Option.map_some]

/-- Looking up the position of a name, when no name occurs twice. -/
theorem find_zipIdx {α : Type} {f : α → List Char} {l : List α} (hn : (l.map f).Nodup) {i : Nat} {x : α} (hx : l[i]? = some x) :
    l.zipIdx.find? (fun y => f y.1 == f x) = some (x, i) := by
  obtain ⟨hi, e⟩ := List.getElem?_eq_some_iff.1 hx
  have hm : (x, i) ∈ l.zipIdx := by
    rw [List.mem_zipIdx_iff_getElem?]
    exact hx
  cases hy : l.zipIdx.find? fun y => f y.1 == f x with
  | none =>
    rw [List.find?_eq_none] at hy
    exact absurd (hy _ hm) (by simp)
  | some y =>
    have h1 := List.find?_some hy
    simp only [beq_iff_eq] at h1
    have h2 := List.mem_of_find?_eq_some hy
    obtain ⟨y, j⟩ := y
    rw [List.mem_zipIdx_iff_getElem?] at h2
    obtain ⟨hj, e'⟩ := List.getElem?_eq_some_iff.1 h2
    have : (l.map f)[j]'(by simpa using hj) = (l.map f)[i]'(by simpa using hi) := by
      simp only [List.getElem_map, e, e']
      exact h1
    have hij := (hn.getElem_inj_iff).1 this
    subst hij
    rw [e] at e'
    rw [e']

theorem Inside.paramTitles (h : Inside a P q owner ms) : (ms.params.map fun x => title x.name).Nodup := by
  have := h.titles
  rw [List.map_append, List.nodup_append, List.map_map] at this
  exact this.1

theorem Inside.fieldTitles (h : Inside a P q owner ms) : (ms.fields.map fun x => title x.name).Nodup := by
  have := h.titles
  rw [List.map_append, List.nodup_append, List.map_map, List.map_map] at this
  exact this.2.1

theorem Inside.apart (h : Inside a P q owner ms) {f : AField} (hf : f ∈ ms.fields) : goParamNamed ms.params (title f.name) = none := by
  unfold goParamNamed
  rw [List.find?_eq_none]
  rintro ⟨x, i⟩ hx hc
  simp only [beq_iff_eq] at hc
  have ht := h.titles
  rw [List.map_append, List.nodup_append, List.map_map, List.map_map] at ht
  exact ht.2.2 _ (List.mem_map_of_mem (List.fst_mem_of_mem_zipIdx hx)) _ (List.mem_map_of_mem hf) hc

/-- A name of an earlier field in an expression. -/
theorem Inside.field (h : Inside a P q owner ms) {n : Ident} {i : Nat} {k : Elem} {o : Option (Nat × Bool)} (hf : NamesField a n i k o) :
    ∃ (f : AField) (r : CTypeRef), f.optional = false ∧ f.array = none ∧ f.type = finalRef P r ∧ f.name = n.text ∧
      MemberType a.schema r k o ∧ memberNamed q owner n.text = some (.field f) ∧ goParamNamed ms.params (title n.text) = none ∧
      goFieldNamed ms.fields (title n.text) = some (f, i) := by
  obtain @⟨c, h1, h2, h3, h4, h5, h6, h7, h8⟩ := hf
  have hfs := h.fields i c h1
  have hname : (finalField P c).name = n.text := congrArg Ident.text h3
  have ht : (finalField P c).type = finalRef P c.typeId.type.type := by
    have : (finalField P c).type = finalInst P c.typeId.type := rfl
    rw [this]
    unfold finalInst
    rw [h6]
    cases finalRef P c.typeId.type.type
    rfl
  have ha : (finalField P c).array = none := by
    have : (finalField P c).array = c.typeId.array.map fun l => ⟨c.typeId.packed, l.map visitExpr⟩ := rfl
    rw [this, h5]
    rfl
  rcases h.scope with ⟨_, e⟩ | ⟨d, d1, d2, d3, d4, d5, d6⟩
  · rw [e] at h1; simp at h1
  refine ⟨_, _, h4, ha, ht, hname, h7, ?_, ?_, ?_⟩
  · have := d6 c (List.mem_of_getElem? h1)
    rw [hname] at this
    rw [d2]
    exact h.named d1 d3 d4 this h8
  · rw [← hname]
    exact h.apart (List.mem_of_getElem? hfs)
  · rw [← hname]
    exact find_zipIdx (f := fun x : AField => title x.name) h.fieldTitles hfs

/-- A name of a parameter in an expression. -/
theorem Inside.param (h : Inside a P q owner ms) {n : Ident} {i : Nat} {k : Elem} {o : Option (Nat × Bool)} (hf : NamesParam a n i k o) :
    ∃ (f : AParam) (c : CParam), a.params[i]? = some c ∧ f = finalParam P c ∧ f.type = finalRef P c.type ∧ f.name = n.text ∧
      MemberType a.schema c.type k o ∧ memberNamed q owner n.text = some (.param f) ∧ goParamNamed ms.params (title n.text) = some (f, i) := by
  obtain @⟨c, h1, h3, h7, h8⟩ := hf
  have hfs := h.params i c h1
  have hname : (finalParam P c).name = n.text := congrArg Ident.text h3
  rcases h.scope with ⟨e, _⟩ | ⟨d, d1, d2, d3, d4, d5, d6⟩
  · rw [e] at h1; simp at h1
  refine ⟨_, c, h1, rfl, rfl, hname, h7, ?_, ?_⟩
  · have := d5 _ (List.mem_of_getElem? hfs)
    rw [hname] at this
    rw [d2]
    exact h.named d1 d3 d4 this h8
  · rw [← hname]
    exact find_zipIdx (f := fun x : AParam => title x.name) h.paramTitles hfs

theorem followRef_inst (p : APackage) (k : Nat) (cast : Bool) (P : List Char) (t : CTypeInst) :
    (followRef p k cast (finalInst P t)).isSome = (followRef p k cast (finalRef P t.type)).isSome := by
  have key : ∀ t t' : ATypeRef, t.isBuiltin = t'.isBuiltin → t.pkg = t'.pkg → t.name = t'.name →
      (followRef p k cast t).isSome = (followRef p k cast t').isSome := by
    intro t t' h1 h2 h3
    rw [followRef.eq_def, followRef.eq_def p k cast t']
    dsimp only
    rw [h1, h2, h3]
    split
    · rfl
    · split
      · split
        · rfl
        · split <;> rfl
        · rfl
      · rfl
  unfold finalInst
  cases h : finalRef P t.type
  cases t.args <;> exact key _ _ rfl rfl rfl

theorem namesGo_inst (p : APackage) (P : List Char) (t : CTypeInst) : p.namesGoType (capRef (finalInst P t)) = p.namesGoType (capRef (finalRef P t.type)) := by
  have key : ∀ t t' : ATypeRef, t.isBuiltin = t'.isBuiltin → t.pkg = t'.pkg → t.name = t'.name → p.namesGoType (capRef t) = p.namesGoType (capRef t') := by
    rintro ⟨b, k, n, _, _, _, _⟩ ⟨b', k', n', _, _, _, _⟩ h1 h2 h3
    cases h1
    cases h2
    cases h3
    cases b <;> rfl
  unfold finalInst
  cases h : finalRef P t.type
  cases t.args <;> exact key _ _ rfl rfl rfl

/-- The name of an earlier array in an expression. -/
theorem Inside.array (h : Inside a P q owner ms) {n : Ident} {i : Nat} (hf : NamesArray a n i) :
    ∃ f : AField, f.optional = false ∧ f.array.isSome = true ∧ f.name = n.text ∧ (followRef q 99 false f.type).isSome = true ∧
      q.namesGoType (capRef f.type) = true ∧ memberNamed q owner n.text = some (.field f) ∧ goParamNamed ms.params (title n.text) = none ∧
      goFieldNamed ms.fields (title n.text) = some (f, i) := by
  obtain @⟨c, d, ty, h1, h2, h3, h4, h5, h6, h7, h9, h8⟩ := hf
  have hfs := h.fields i c h1
  have hname : (finalField P c).name = n.text := congrArg Ident.text h3
  have ht : (finalField P c).type = finalInst P c.typeId.type := rfl
  have ha : (finalField P c).array = c.typeId.array.map fun l => ⟨c.typeId.packed, l.map visitExpr⟩ := rfl
  rcases h.scope with ⟨_, e⟩ | ⟨d, d1, d2, d3, d4, d5, d6⟩
  · rw [e] at h1; simp at h1
  refine ⟨_, h4, ?_, hname, ?_, ?_, ?_, ?_, ?_⟩
  · rw [ha]
    cases hc : c.typeId.array with
    | none => exact absurd hc h5
    | some => rfl
  · rw [ht, followRef_inst]
    exact h.refs h6 h7
  · rw [ht, namesGo_inst]
    exact h.goes h6 h9
  · have := d6 c (List.mem_of_getElem? h1)
    rw [hname] at this
    rw [d2]
    exact h.named d1 d3 d4 this h8
  · rw [← hname]
    exact h.apart (List.mem_of_getElem? hfs)
  · rw [← hname]
    exact find_zipIdx (f := fun x : AField => title x.name) h.fieldTitles hfs

/-! ## Numbers and conditions -/

/-- What Go finds for an expression. -/
structure Computes (q : APackage) (ms : Members) (x : TEx) (kind : EKind) (level : Nat) (t : GTyping) (value : Env → GVal) : Prop where
  res : ∃ r, x.res = .ok r ∧ r.kind = kind
  safe : x.toPEx.Safe
  level : level ≤ x.toPEx.level
  check : goCheck (goScope q ms) (meant x.toPEx) = some t
  eval : ∀ vs, goEval (goScope q ms) (goMemberValues q ms vs) (meant x.toPEx) = some (value vs)

theorem LitKind.token_tok (l : LitKind) : litKind l.token.tok = some l ∧ l.token.tok ≠ .id := by
  cases l <;> exact ⟨rfl, by decide⟩

/-- How Go types a number. -/
def numTyping (P : List Char) (p : CPackage) (g : NumTy) (f : Env → Int) : GTyping :=
  match g.go P p with
  | some t => .typed t (match g with | .item _ _ => some (f ⟨[], []⟩) | _ => none)
  | none => .const (f ⟨[], []⟩)

theorem int_scope (t : GTy) : t.int (goScope q ms) = t.int (goTypes q) := by
  cases t <;> rfl

theorem of_ne_const (o : Option (Nat × Bool)) (g : GoNum) : NumTy.of o g ≠ .const ∧ (NumTy.of o g).int = some g := by
  cases o with
  | none => exact ⟨by simp [NumTy.of], rfl⟩
  | some o => exact ⟨by simp [NumTy.of], rfl⟩

theorem LitMeans.value {e : CExpr} {z : Int} (h : LitMeans e z) : literalValue (visitExpr e) = some z ∧
    evalTEx q owner (visitExpr e) = some (.const z none) ∧ 0 ≤ z ∧ z < 2 ^ 63 := by
  induction h with
  | @literal l text ds h1 h2 h3 h4 h5 =>
    have hv := C56_value_partial l text ds h1 h2 h3 h4 h5
    refine ⟨?_, ?_, by omega, by exact_mod_cast h5⟩
    · simp only [visitExpr, literalValue, l.token_tok.1, hv]
    · simp only [visitExpr, evalTEx, if_neg l.token_tok.2, l.token_tok.1, hv]
  | @parenthesized e z _ ih =>
    refine ⟨?_, ?_, ih.2.2⟩
    · simp only [visitExpr, visitOne, literalValue, ih.1]
    · simp only [visitExpr, visitOne, evalTEx, ih.2.1]
      rfl

theorem ItemValue.bound {is : List CEnumItem} {j : Nat} {z : Int} (h : ItemValue is j z) : 0 ≤ z ∧ z < 2 ^ 63 := by
  induction h with
  | given _ _ h => exact (h.value (q := ⟨[], [], []⟩) (owner := none)).2.2
  | first => exact ⟨by omega, by norm_num⟩
  | next _ _ _ h ih => exact ⟨by omega, h⟩

theorem ItemMeans.bound {p : CPackage} {r : CTypeRef} {n : Ident} {w : Bool} {z : Int} (h : ItemMeans p r n w z) : 0 ≤ z ∧ z < 2 ^ 63 := by
  obtain ⟨_, _, _, _, _, _, _, _, _, h⟩ := h
  exact h.bound

theorem MemberType.denotes {p : CPackage} {r : CTypeRef} {k : Elem} {o : Option (Nat × Bool)} (h : MemberType p r k o) :
    ∃ b, TypeDenotes ⟨.builtin b, .none⟩ 0 k := by
  cases h with
  | @builtin d _ h hd hn =>
    clear hd hn
    generalize ht : FTy.prim k = ty at h
    induction h with
    | builtin h => cases ht; exact ⟨_, h⟩
    | own => cases ht
    | subtype _ _ ih => exact ih ht
  | enum _ _ _ _ _ h => exact ⟨_, h⟩
  | bitmask _ _ _ _ _ h => exact ⟨_, h⟩

/-- A constant. -/
theorem const_computes {z : Int} (h0 : 0 ≤ z) : Computes q ms (.const z none) .integer 7 (.const z) (fun _ => .int z) := by
  have hnn : ¬ z < 0 := by omega
  have hz : (z.natAbs : Int) = z := by omega
  refine ⟨⟨_, rfl, rfl⟩, trivial, ?_, ?_, fun vs => ?_⟩
  · simp only [TEx.toPEx, PEx.level, if_neg hnn, Nat.le_refl]
  · simp only [TEx.toPEx, meant, if_neg hnn, goCheck, hz]
  · simp only [TEx.toPEx, meant, if_neg hnn, goEval, hz]

/-- The item of an enum in a dot expression. -/
theorem ItemMeans.eval (h : Inside a P q owner ms) {t n : Ident} {z : Int} (hm : ItemMeans a.schema (.named t [] []) n true z) :
    evalTEx q owner (visitExpr (.dot (.identifier t) n)) = some (.const z none) := by
  obtain ⟨t', e, hf⟩ := h.items hm fun _ => owner
  cases e
  obtain @⟨first, _, _, _, _, f1, f2, f3, f4⟩ := hf
  have : evalSymbol [q] (enumsOf q) 1 (fun _ => owner) q (.two .dot (Tok.text .dot) (.leaf .id t.text) (.leaf .unevaluatable n.text)) = dotSymbol [q] (enumsOf q) 1 (fun _ => owner) q (first, .enum) n.text := by
    rw [evalSymbol, f1]
  simp only [visitExpr, visitTwo, evalTEx, if_true, dotEx, this, f2, f3, f4]

/-- The operands of a binary operator, with their casts. -/
theorem cast_operand {g : GoNum} (hg : g ∈ goNums) {c : Option Text} (hc : c = none ∨ c = some (goNumText g)) {e : GEx} {t : NumTy} {f : Env → Int}
    (ht : t = .num g ∨ t = .const) (hh : ∀ vs, g.Holds (f vs))
    (hcheck : goCheck (goScope q ms) e = some (numTyping P a.schema t f))
    (heval : ∀ vs, goEval (goScope q ms) (goMemberValues q ms vs) e = some (.int (f vs))) :
    (∃ T, goCheck (goScope q ms) (castGo c e) = some T ∧ (t = .num g → T = .typed (.num g) none) ∧
      (t = .const → T = .const (f ⟨[], []⟩) ∨ T = .typed (.num g) (some (f ⟨[], []⟩)))) ∧
    ∀ vs, goEval (goScope q ms) (goMemberValues q ms vs) (castGo c e) = some (.int (f vs)) := by
  have hp : ∀ g ∈ goNums, goNumText g ≠ lenName ∧ predeclared (goNumText g) = some (.num g) := by decide +kernel
  obtain ⟨p1, p2⟩ := hp g hg
  have hty : (goScope q ms).tyName (goNumText g) = some (.num g) := p2
  rcases hc with rfl | rfl
  · refine ⟨⟨_, hcheck, ?_, ?_⟩, heval⟩
    · rintro rfl; rfl
    · rintro rfl; exact .inl rfl
  · refine ⟨?_, fun vs => ?_⟩
    · rcases ht with rfl | rfl
      · refine ⟨.typed (.num g) none, ?_, fun _ => rfl, nofun⟩
        have : numTyping P a.schema (.num g) f = .typed (.num g) none := rfl
        rw [this] at hcheck
        simp only [castGo, goCheck, if_neg p1, hty, hcheck, Option.bind_some]
        rfl
      · refine ⟨.typed (.num g) (some (f ⟨[], []⟩)), ?_, nofun, fun _ => .inr rfl⟩
        have : numTyping P a.schema .const f = .const (f ⟨[], []⟩) := rfl
        rw [this] at hcheck
        simp only [castGo, goCheck, if_neg p1, hty, hcheck, Option.bind_some, convert, representable, GTy.int, hh ⟨[], []⟩, decide_true, if_true]
    · simp only [castGo, goEval, if_neg p1, hty, heval, Option.bind_some, GTy.int, GVal.toInt, Option.map_some, wrapTo_holds (hh vs)]

/-- An operator on numbers of one type. -/
theorem checkArith_typed {env : GoEnv} {o : GOp} {g : GoNum} {T T' : GTyping} (hu : unify env T T' = some (.num g))
    (hd : o = .div ∨ o = .mod → T'.value ≠ some 0) (hv : T.value = none ∨ T'.value = none) : checkArith env o T T' = some (.typed (.num g) none) := by
  have hop : operates env o (.num g) = true := rfl
  have hdiv : ((o = .div || o = .mod) && ((GTy.num g).int env).isSome && T'.value = some 0 : Bool) = false := by
    by_cases h : o = .div ∨ o = .mod
    · simp [hd h]
    · simp only [not_or] at h
      simp [h.1, h.2]
  have key : (some (GTy.num g)).bind (fun t =>
      if !operates env o t then none
      else if (o = .div || o = .mod) && (t.int env).isSome && T'.value = some 0 then none
      else match T.value, T'.value with
        | some a, some b => (intOp o a b).bind fun v => if representable env v t then some (GTyping.typed t (some v)) else none
        | _, _ => some (.typed t none)) = some (.typed (.num g) none) := by
    simp only [Option.bind_some, hop, Bool.not_true, Bool.false_eq_true, if_false, hdiv]
    rcases hv with h | h <;> rw [h]
    cases T.value <;> rfl
  cases T <;> cases T' <;> first
    | (cases hu)
    | (rw [checkArith, hu]; exact key; all_goals simp)

/-- The type of a result. -/
theorem mix_native {rx ry : Operand} {t t' : NumTy} {f f' : Env → Int} {g : GoNum} (hc : Combined t f t' f' g) (kx : rx.kind = t.kind)
    (ky : ry.kind = t'.kind) (hx : NativeType rx t) (hy : NativeType ry t') :
    (∃ n, mixTypes rx ry = .ok ⟨.integer, some n⟩ ∧ NumNative n g) ∧ ∃ n, bitOperand rx ry = .ok ⟨.integer, some n⟩ ∧ NumNative n g := by
  obtain ⟨rk, rt⟩ := rx
  obtain ⟨sk, st⟩ := ry
  cases hc with
  | same =>
    obtain ⟨n, rfl, hn⟩ := hx
    obtain ⟨m, rfl, hm⟩ := hy
    cases kx
    cases ky
    refine ⟨?_, n, rfl, hn⟩
    unfold mixTypes
    by_cases hs : sameNType (some n) (some m) = true
    · exact ⟨n, by simp [hs], hn⟩
    · obtain ⟨r, hr⟩ := hn.rank
      obtain ⟨r', hr'⟩ := hm.rank
      obtain ⟨hr, _⟩ := hr
      obtain ⟨hr', _⟩ := hr'
      have e : mixInt2 n m = .ok (if r' ≤ r then n else m) := by
        simp only [mixInt2, hr, hr', hn.sign, hm.sign, bind, Except.bind, Bool.and_self, if_true]
        split <;> rfl
      refine ⟨if r' ≤ r then n else m, ?_, by split <;> assumption⟩
      simp [hs, mixInt, e, Except.map]
  | right =>
    obtain ⟨n, rfl, hn⟩ := hx
    cases hy
    cases kx
    cases ky
    exact ⟨⟨n, by simp [mixTypes, sameNType, mixInt, Except.map], hn⟩, n, rfl, hn⟩
  | left =>
    obtain ⟨n, rfl, hn⟩ := hy
    cases hx
    cases kx
    cases ky
    exact ⟨⟨n, by simp [mixTypes, sameNType, mixInt, Except.map], hn⟩, n, rfl, hn⟩

theorem Combined.cases {t t' : NumTy} {f f' : Env → Int} {g : GoNum} (h : Combined t f t' f' g) :
    (t = .num g ∨ t = .const) ∧ (t' = .num g ∨ t' = .const) ∧ (t = .num g ∨ t' = .num g) ∧ (t = .const → ∀ vs, g.Holds (f vs)) ∧
      (t' = .const → ∀ vs, g.Holds (f' vs)) ∧ (t.int.isNone && t'.int.isNone) = false := by
  cases h with
  | same => exact ⟨.inl rfl, .inl rfl, .inl rfl, nofun, nofun, rfl⟩
  | right h => exact ⟨.inl rfl, .inr rfl, .inl rfl, nofun, fun _ => h, rfl⟩
  | left h => exact ⟨.inr rfl, .inl rfl, .inr rfl, fun _ => h, nofun, rfl⟩

/-- What is known of the code for a number. -/
structure Numeric (a : Place) (P : List Char) (q : APackage) (ms : Members) (x : TEx) (level : Nat) (g : NumTy) (f : Env → Int) : Prop where
  resolved : x.isResolved = g.int.isNone
  computes : Computes q ms x g.kind level (numTyping P a.schema g f) (fun vs => .int (f vs))
  native : ∃ r, x.res = .ok r ∧ r.kind = g.kind ∧ NativeType r g
  go : ∀ t, g.go P a.schema = some t → t.int (goTypes q) = g.int
  const : g = .const → 7 ≤ x.toPEx.level ∧ ∀ vs, f vs = f ⟨[], []⟩ ∧ GoNum.Holds ⟨true, 64⟩ (f vs)
  held : ∀ w, g.int = some w → w ∈ goNums ∧ ∀ vs, w.Holds (f vs)

/-- Go code for a binary operator on numbers. -/
theorem operator_computes {x y : TEx} {l l' : Nat} {t t' : NumTy} {f f' : Env → Int} {g : GoNum} (hx : Numeric a P q ms x l t f)
    (hy : Numeric a P q ms y l' t' f') (hc : Combined t f t' f' g) {o : GOp} (ho : o.isArith = true ∨ o.isBit = true)
    (hl : goPrec o ≤ l) (hl' : goPrec o + 1 ≤ l') (hd : o = .div ∨ o = .mod → t' = .const ∧ ∀ env, f' env ≠ 0)
    {r : Env → Int} (hr : ∀ vs, intOp o (f vs) (f' vs) = some (r vs)) :
    Numeric a P q ms (if o.isArith then .arith o x y else .bit o x y) (goPrec o) (.num g) fun vs => wrapTo g (r vs) := by
  obtain ⟨c1, c2, c3, c4, c5, c6⟩ := hc.cases
  obtain ⟨rx, x1, x2, x3⟩ := hx.native
  obtain ⟨ry, y1, y2, y3⟩ := hy.native
  obtain ⟨⟨n, m1, m2⟩, ⟨n', m1', m2'⟩⟩ := mix_native hc x2 y2 x3 y3
  have kx : rx.kind = .integer := by rw [x2]; rcases c1 with rfl | rfl <;> rfl
  have ky : ry.kind = .integer := by rw [y2]; rcases c2 with rfl | rfl <;> rfl
  have hg : g ∈ goNums := by
    rcases c3 with rfl | rfl
    · exact (hx.held g rfl).1
    · exact (hy.held g rfl).1
  have hhx : ∀ vs, g.Holds (f vs) := by
    rcases c1 with h | h
    · subst h; exact (hx.held g rfl).2
    · exact c4 h
  have hhy : ∀ vs, g.Holds (f' vs) := by
    rcases c2 with h | h
    · subst h; exact (hy.held g rfl).2
    · exact c5 h
  have har : arithOperand o rx ry = .ok ⟨.integer, some n⟩ := by simp [arithOperand, kx, ky, m1]
  have htext : goTypeText n = goNumText g := by simp [goTypeText, m2.go]
  have hcast : ∀ z rz, castOf ⟨.integer, some n⟩ z rz = none ∨ castOf ⟨.integer, some n⟩ z rz = some (goNumText g) := by
    intro z rz
    simp only [castOf, htext]
    split <;> split <;> simp
  -- the printed expression
  obtain ⟨ca, cb, hp, hca, hcb⟩ : ∃ ca cb, (if o.isArith then TEx.arith o x y else .bit o x y).toPEx = .bin o ca cb x.toPEx y.toPEx ∧
      (ca = none ∨ ca = some (goNumText g)) ∧ (cb = none ∨ cb = some (goNumText g)) := by
    cases hb : o.isArith with
    | true =>
      refine ⟨arithCast o x y x, arithCast o x y y, rfl, ?_, ?_⟩
      · simp only [arithCast, x1, y1, har]; exact hcast _ _
      · simp only [arithCast, x1, y1, har]; exact hcast _ _
    | false => exact ⟨none, none, rfl, .inl rfl, .inl rfl⟩
  obtain ⟨⟨T, t1, t2, t3⟩, t4⟩ := cast_operand hg hca c1 hhx hx.computes.check hx.computes.eval
  obtain ⟨⟨T', t1', t2', t3'⟩, t4'⟩ := cast_operand hg hcb c2 hhy hy.computes.check hy.computes.eval
  have hrep : ∀ z, g.Holds z → representable (goScope q ms) z (.num g) = true := fun z hz => by simp [representable, GTy.int, hz]
  have hca : checkArith (goScope q ms) o T T' = some (.typed (.num g) none) := by
    refine checkArith_typed ?_ ?_ ?_
    · rcases c1 with h1 | h1
      · rw [t2 h1]
        rcases c2 with h2 | h2
        · rw [t2' h2]; simp [unify]
        · rcases t3' h2 with e | e <;> rw [e] <;> simp [unify, hrep _ (hhy _)]
      · rcases c3 with h | h2
        · rw [h1] at h; cases h
        · rw [t2' h2]
          rcases t3 h1 with e | e <;> rw [e] <;> simp [unify, hrep _ (hhx _)]
    · intro h
      obtain ⟨d1, d2⟩ := hd h
      rcases t3' d1 with e | e <;> rw [e] <;> simp [GTyping.value, d2]
    · rcases c3 with h | h
      · rw [t2 h]; exact .inl rfl
      · rw [t2' h]; exact .inr rfl
  have hno : o.isLogic = false ∧ o.isCmp = false ∧ (o.isArith || o.isBit) = true := by
    cases o <;> first | exact ⟨rfl, rfl, rfl⟩ | (rcases ho with h | h <;> cases h)
  have hcheck : goCheck (goScope q ms) (meant (.bin o ca cb x.toPEx y.toPEx)) = some (.typed (.num g) none) := by
    simp only [meant, goCheck, t1, t1', Option.bind_some, hno.2.2, if_true, hca]
  have hres : ∃ r, (if o.isArith then TEx.arith o x y else .bit o x y).res = .ok r ∧ r.kind = .integer ∧ ∃ n, r.type = some n ∧ NumNative n g := by
    cases hb : o.isArith with
    | true => exact ⟨_, by simp [TEx.res, x1, y1, har, bind, Except.bind]; rfl, rfl, n, rfl, m2⟩
    | false => exact ⟨_, by simp [TEx.res, x1, y1, m1', bind, Except.bind]; rfl, rfl, n', rfl, m2'⟩
  refine ⟨by cases o.isArith <;> rfl, ⟨?_, ?_, ?_, ?_, fun vs => ?_⟩, hres, ?_, nofun, ?_⟩
  · obtain ⟨r, r1, r2, _⟩ := hres
    exact ⟨r, r1, r2⟩
  · rw [hp]
    exact ⟨hx.computes.safe, hy.computes.safe, fun _ => Nat.le_trans hl hx.computes.level, fun _ => Nat.le_trans hl' hy.computes.level⟩
  · rw [hp]; exact Nat.le_refl _
  · rw [hp]; exact hcheck
  · rw [hp]
    have hcheck := hcheck
    simp only [meant] at hcheck ⊢
    simp only [goEval, t4, t4', Option.bind_some, hno.1, hno.2.1, Bool.false_eq_true, if_false, hcheck, GTy.int, GVal.toInt, hr, Option.map_some]
  · rintro s ⟨⟩; rfl
  · rintro w ⟨⟩
    exact ⟨hg, fun vs => wrapTo_held hg _⟩

/-- Conversion depends on the low bits only. -/
theorem wrapTo_mod {w : GoNum} (hw : 1 ≤ w.width) {x y : Int} (h : (2 ^ w.width : Int) ∣ x - y) : wrapTo w x = wrapTo w y := by
  have e : (2 * 2 ^ (w.width - 1) : Int) = 2 ^ w.width := by
    rw [mul_comm, ← pow_succ]
    congr 1
    omega
  unfold wrapTo
  rw [e]
  have h1 : x % 2 ^ w.width = y % 2 ^ w.width := Int.emod_eq_emod_iff_emod_sub_eq_zero.2 (Int.emod_eq_zero_of_dvd h)
  split
  · rw [Int.add_emod, h1, ← Int.add_emod]
  · exact h1

theorem wrapTo_dvd {w : GoNum} (hw : 1 ≤ w.width) (z : Int) : (2 ^ w.width : Int) ∣ wrapTo w z - z := by
  have e : (2 * 2 ^ (w.width - 1) : Int) = 2 ^ w.width := by
    rw [mul_comm, ← pow_succ]
    congr 1
    omega
  unfold wrapTo
  rw [e]
  split
  · have := Int.emod_add_mul_ediv (z + 2 ^ (w.width - 1)) (2 ^ w.width)
    exact ⟨-((z + 2 ^ (w.width - 1)) / 2 ^ w.width), by linarith⟩
  · have := Int.emod_add_mul_ediv z (2 ^ w.width)
    exact ⟨-(z / 2 ^ w.width), by linarith⟩

/-- Arithmetic on the low bits. -/
theorem wrapTo_apply {w : GoNum} (hw : 1 ≤ w.width) (x y : Int) :
    wrapTo w (wrapTo w x + wrapTo w y) = wrapTo w (x + y) ∧ wrapTo w (wrapTo w x - wrapTo w y) = wrapTo w (x - y) ∧
      wrapTo w (wrapTo w x * wrapTo w y) = wrapTo w (x * y) := by
  obtain ⟨k, hk⟩ := wrapTo_dvd hw x
  obtain ⟨l, hl⟩ := wrapTo_dvd hw y
  have ex : wrapTo w x = x + 2 ^ w.width * k := by linarith
  have ey : wrapTo w y = y + 2 ^ w.width * l := by linarith
  refine ⟨wrapTo_mod hw ⟨k + l, ?_⟩, wrapTo_mod hw ⟨k - l, ?_⟩, wrapTo_mod hw ⟨k * y + l * x + 2 ^ w.width * k * l, ?_⟩⟩ <;> rw [ex, ey] <;> ring

theorem goNums_width {g : GoNum} (hg : g ∈ goNums) : 1 ≤ g.width := by
  have : ∀ g ∈ goNums, 1 ≤ g.width := by decide
  exact this g hg

/-- The type that numbers of different types are combined in. -/
theorem Mixed.native {g g' w : GoNum} (h : Mixed g g' w) (hg : g ∈ goNums) (hg' : g' ∈ goNums) {n m : NType} (hn : NumNative n g) (hm : NumNative m g') :
    w ∈ goNums ∧ ∃ k, mixTypes ⟨.integer, some n⟩ ⟨.integer, some m⟩ = .ok ⟨.integer, some k⟩ ∧ NumNative k w := by
  obtain ⟨r, hr, ho⟩ := hn.rank
  obtain ⟨r', hr', ho'⟩ := hm.rank
  obtain ⟨x1, x2⟩ := h
  have hw : (⟨g.signed && g'.signed, max g.width g'.width⟩ : GoNum) ∈ goNums := by
    have : ∀ g ∈ goNums, ∀ g' ∈ goNums, (⟨g.signed && g'.signed, max g.width g'.width⟩ : GoNum) ∈ goNums := by decide
    exact this g hg g' hg'
  refine ⟨hw, ?_⟩
  by_cases hs : sameNType (some n) (some m) = true
  · simp only [sameNType, Bool.and_eq_true, decide_eq_true_eq, Bool.not_eq_true'] at hs
    have hnm : n = m := by
      obtain ⟨a, b, c⟩ := n
      obtain ⟨a', b', c'⟩ := m
      simp only [NType.mk.injEq]
      exact ⟨hs.1.1.1, hs.1.1.2, hs.1.2.trans hs.2.symm⟩
    subst hnm
    have hgg : g = g' := by
      have := hn.go.symm.trans hm.go
      simpa using this
    subst hgg
    refine ⟨n, by simp [mixTypes, sameNType, hs.1.2], ?_⟩
    simpa using hn
  have key : ∃ k, mixInt2 n m = .ok k ∧ NumNative k ⟨g.signed && g'.signed, max g.width g'.width⟩ := by
    simp only [mixInt2, hr, hr', hn.sign, hm.sign, bind, Except.bind]
    have hmax : (r' ≤ r → max g.width g'.width = g.width) ∧ (¬ r' ≤ r → max g.width g'.width = g'.width) := by
      simp only [rankOk, Bool.and_eq_true, Bool.or_eq_true, decide_eq_true_eq] at ho ho'
      have w1 : g.width ∈ [8, 16, 32, 64] := by
        have : ∀ g ∈ goNums, g.width ∈ [8, 16, 32, 64] := by decide
        exact this g hg
      have w2 : g'.width ∈ [8, 16, 32, 64] := by
        have : ∀ g ∈ goNums, g.width ∈ [8, 16, 32, 64] := by decide
        exact this g' hg'
      obtain ⟨s, w⟩ := g
      obtain ⟨s', w'⟩ := g'
      simp only [GoNum.mk.injEq, List.mem_cons, List.not_mem_nil, or_false] at *
      rcases w1 with rfl | rfl | rfl | rfl <;> rcases w2 with rfl | rfl | rfl | rfl <;> cases s <;> cases s' <;>
        simp only [Nat.reduceEqDiff, and_true, true_and, and_false, false_and, not_true_eq_false, not_false_eq_true, or_false, false_or, or_true, reduceCtorEq] at x1 x2 ho ho' <;>
        first | exact x1.elim | exact x2.elim | exact ⟨fun _ => by omega, fun _ => by omega⟩
    by_cases hrr : r' ≤ r
    · rw [if_pos hrr, hmax.1 hrr]
      by_cases hsg : g.signed = (g.signed && g'.signed)
      · rw [if_pos hsg]
        exact ⟨n, rfl, by rw [← hsg]; exact hn⟩
      · rw [if_neg hsg]
        have h1 : g.signed = true := by revert hsg; cases g.signed <;> simp
        have h2 : g'.signed = false := by revert hsg; rw [h1]; cases g'.signed <;> simp
        obtain ⟨k, k1, k2⟩ := hn.twin h1
        exact ⟨k, k1, by rw [h1, h2]; exact k2.unsigned rfl⟩
    · rw [if_neg hrr, hmax.2 hrr]
      by_cases hsg : g'.signed = (g.signed && g'.signed)
      · rw [if_pos hsg]
        exact ⟨m, rfl, by rw [← hsg]; exact hm⟩
      · rw [if_neg hsg]
        have h1 : g'.signed = true := by revert hsg; cases g'.signed <;> simp
        have h2 : g.signed = false := by revert hsg; rw [h1]; cases g.signed <;> simp
        obtain ⟨k, k1, k2⟩ := hm.twin h1
        exact ⟨k, k1, by rw [h1, h2]; exact k2.unsigned rfl⟩
  obtain ⟨k, k1, k2⟩ := key
  exact ⟨k, by simp [mixTypes, hs, mixInt, k1, Except.map], k2⟩

/-- The symbols that expressions are evaluated to. -/
theorem evalTEx_symText {e : AExpr} {x : TEx} (he : evalTEx q owner e = some x) {s : Text} (hs : x.symText = some s) :
    ∃ pe d, x = .sym pe d ∧ ∀ name n, d = .sub name n → ∃ t, name = title t := by
  have member : ∀ s x, memberEx q s = some x → ∃ pe d, x = .sym pe d ∧ ∀ name n, d = .sub name n → ∃ t, name = title t := by
    have ty : ∀ t d, exprType q t = some d → ∀ name n, d = DTy.sub name n → ∃ t, name = title t := by
      rintro t d h name n rfl
      unfold exprType at h
      split at h
      · split at h
        · split at h
          · cases h
          · split at h
            · cases h; exact ⟨_, rfl⟩
            · cases h
        · split at h <;> cases h
      · cases h
    intro s x hm
    cases s with
    | param p =>
      simp only [memberEx, Option.map_eq_some_iff] at hm
      obtain ⟨d, h1, rfl⟩ := hm
      exact ⟨_, d, rfl, ty _ d h1⟩
    | field f =>
      simp only [memberEx] at hm
      split at hm
      · cases hm
      · simp only [Option.map_eq_some_iff] at hm
        obtain ⟨d, h1, rfl⟩ := hm
        exact ⟨_, d, rfl, ty _ d h1⟩
    | _ => cases hm
  cases e with
  | leaf k t =>
    simp only [evalTEx] at he
    split at he
    · obtain ⟨s', h1, h2⟩ := Option.bind_eq_some_iff.1 he
      exact member _ _ h2
    · split at he
      · split at he
        · cases he; cases hs
        · cases he
      · cases he
  | one k t a =>
    simp only [evalTEx] at he
    split at he
    · unfold lengthEx at he
      split at he
      · split at he
        · split at he
          · split at he
            · cases he; cases hs
            · cases he
          · cases he
        · cases he
      · cases he
    split at he
    · split at he
      · cases he
        split at hs
        · rename_i y _ _ hy
          cases y <;> first | (cases hy; done) | cases hs
        · cases hs
      · split at he
        · split at he
          · cases he
          · cases he; cases hs
        · cases he
    · cases he
  | two k t a b =>
    simp only [evalTEx] at he
    split at he
    · unfold dotEx at he
      split at he
      · split at he
        · split at he
          · cases he; cases hs
          · split at he
            · split at he
              · cases he; cases hs
              · cases he
            · cases he
          · cases he
        · unfold flagEx at he
          split at he
          · split at he
            · simp only [Option.map_eq_some_iff] at he
              obtain ⟨z, _, rfl⟩ := he
              cases hs
            · cases he
          · cases he
        · cases he
      · cases he
    · split at he
      · split at he
        · cases he
        · unfold binaryTEx at he
          split at he
          · cases he; cases hs
          split at he
          · cases he; cases hs
          · cases he; cases hs
          · split at he
            · cases he
            · cases he; cases hs
          · cases he; cases hs
          · split at he
            · cases he; cases hs
            · cases he
          · cases he
      · cases he
  | three => cases he

/-- Operands of another type are converted. -/
theorem cast_mixed {e : AExpr} {x : TEx} {l : Nat} {g w : GoNum} {f : Env → Int} (he : evalTEx q owner e = some x) (hx : Numeric a P q ms x l (.num g) f)
    (hw : w ∈ goNums) {n : NType} (hn : NumNative n w) {rx : Operand} (hr : x.res = .ok rx) :
    goCheck (goScope q ms) (castGo (castOf ⟨.integer, some n⟩ x rx) (meant x.toPEx)) = some (.typed (.num w) none) ∧
    ∀ vs, goEval (goScope q ms) (goMemberValues q ms vs) (castGo (castOf ⟨.integer, some n⟩ x rx) (meant x.toPEx)) = some (.int (wrapTo w (f vs))) := by
  obtain ⟨hg, hh⟩ := hx.held g rfl
  obtain ⟨rx', x1, x2, m, x3, x4⟩ := hx.native
  rw [hr] at x1
  cases x1
  have htext : goTypeText n = goNumText w := by simp [goTypeText, hn.go]
  have hmtext : goTypeText m = goNumText g := by simp [goTypeText, x4.go]
  have hp : ∀ g ∈ goNums, goNumText g ≠ lenName ∧ predeclared (goNumText g) = some (.num g) := by decide +kernel
  have hcast : castOf ⟨.integer, some n⟩ x rx = some (goNumText w) ∨ (castOf ⟨.integer, some n⟩ x rx = none ∧ g = w) := by
    have inj : ∀ g ∈ goNums, ∀ w ∈ goNums, goNumText g = goNumText w → g = w := by decide +kernel
    simp only [castOf, htext]
    cases hs : x.symText with
    | some s =>
      obtain ⟨pe, d, rfl, hd⟩ := evalTEx_symText he hs
      cases hr
      cases hs
      by_cases heq : d.goText = goNumText w
      · refine .inr ⟨by simp [heq], ?_⟩
        cases d with
        | builtin k =>
          cases x3
          exact inj g hg w hw (hmtext.symm.trans heq)
        | sub name k =>
          obtain ⟨t, rfl⟩ := hd _ _ rfl
          have heq : title t = goNumText w := heq
          have hlow : ∀ g ∈ goNums, ∃ c cs, goNumText g = c :: cs ∧ isLow c = true := by
            intro g hg
            simp only [goNums, List.mem_cons, List.not_mem_nil, or_false] at hg
            rcases hg with rfl | rfl | rfl | rfl | rfl | rfl | rfl | rfl <;> exact ⟨_, _, rfl, by decide⟩
          obtain ⟨c, cs, e1, e2⟩ := hlow w hw
          exact absurd ⟨c, cs, heq.trans e1, e2⟩ (title_not_lower t)
        | enum => cases x3
        | mask => cases x3
      · exact .inl (by simp [heq])
    | none =>
      by_cases heq : goNumText g = goNumText w
      · refine .inr ⟨?_, inj g hg w hw heq⟩
        have : rx.kind = .integer := x2
        simp [this, x3, hmtext, heq]
      · refine .inl ?_
        simp [x3, hmtext, heq]
  have e1 : numTyping P a.schema (.num g) f = .typed (.num g) none := rfl
  have hc := hx.computes.check
  rw [e1] at hc
  rcases hcast with h | ⟨h, rfl⟩
  · obtain ⟨p1, p2⟩ := hp w hw
    have hty : (goScope q ms).tyName (goNumText w) = some (.num w) := p2
    rw [h]
    refine ⟨?_, fun vs => ?_⟩
    · simp only [castGo, goCheck, if_neg p1, hty, hc, Option.bind_some]
      rfl
    · simp only [castGo, goEval, if_neg p1, hty, hx.computes.eval, Option.bind_some, GTy.int, GVal.toInt, Option.map_some]
  · rw [h]
    exact ⟨hc, fun vs => by rw [wrapTo_holds (hh vs)]; exact hx.computes.eval vs⟩

/-- Go code for sums, differences and products of numbers of different types. -/
theorem mixed_computes {e e' : AExpr} {x y : TEx} {l l' : Nat} {f f' : Env → Int} {g g' w : GoNum} (he : evalTEx q owner e = some x) (he' : evalTEx q owner e' = some y)
    (hx : Numeric a P q ms x l (.num g) f)
    (hy : Numeric a P q ms y l' (.num g') f') (hc : Mixed g g' w) {o : GOp} (ho : o.isArith = true)
    (hl : goPrec o ≤ l) (hl' : goPrec o + 1 ≤ l') (hd : o ≠ .div ∧ o ≠ .mod)
    {r : Env → Int} (hr : ∀ vs, (intOp o (wrapTo w (f vs)) (wrapTo w (f' vs))).map (wrapTo w) = some (wrapTo w (r vs))) :
    Numeric a P q ms (.arith o x y) (goPrec o) (.num w) fun vs => wrapTo w (r vs) := by
  obtain ⟨rx, x1, x2, n, x3, x4⟩ := hx.native
  obtain ⟨ry, y1, y2, m, y3, y4⟩ := hy.native
  obtain ⟨hw, k, k1, k2⟩ := hc.native (hx.held g rfl).1 (hy.held g' rfl).1 x4 y4
  have kx : rx.kind = .integer := x2
  have ky : ry.kind = .integer := y2
  have ex : rx = ⟨.integer, some n⟩ := by rw [← kx, ← x3]
  have ey : ry = ⟨.integer, some m⟩ := by rw [← ky, ← y3]
  have har : arithOperand o rx ry = .ok ⟨.integer, some k⟩ := by simp [arithOperand, ex, ey, k1]
  obtain ⟨t1, t4⟩ := cast_mixed he hx hw k2 x1
  obtain ⟨t1', t4'⟩ := cast_mixed he' hy hw k2 y1
  have hp : (TEx.arith o x y).toPEx = .bin o (castOf ⟨.integer, some k⟩ x rx) (castOf ⟨.integer, some k⟩ y ry) x.toPEx y.toPEx := by
    simp only [TEx.toPEx, arithCast, x1, y1, har]
  have hca : checkArith (goScope q ms) o (.typed (.num w) none) (.typed (.num w) none) = some (.typed (.num w) none) :=
    checkArith_typed (by simp [unify]) (by rintro (h | h) <;> [exact absurd h hd.1; exact absurd h hd.2]) (.inl rfl)
  have hno : o.isLogic = false ∧ o.isCmp = false ∧ (o.isArith || o.isBit) = true := by
    cases o <;> first | exact ⟨rfl, rfl, rfl⟩ | cases ho
  have hcheck : goCheck (goScope q ms) (meant (.bin o (castOf ⟨.integer, some k⟩ x rx) (castOf ⟨.integer, some k⟩ y ry) x.toPEx y.toPEx)) = some (.typed (.num w) none) := by
    simp only [meant, goCheck, t1, t1', Option.bind_some, hno.2.2, if_true, hca]
  have hres : (TEx.arith o x y).res = .ok ⟨.integer, some k⟩ := by
    simp [TEx.res, x1, y1, har, bind, Except.bind]
  refine ⟨rfl, ⟨⟨_, hres, rfl⟩, ?_, ?_, ?_, fun vs => ?_⟩, ⟨_, hres, rfl, k, rfl, k2⟩, ?_, nofun, ?_⟩
  · rw [hp]
    exact ⟨hx.computes.safe, hy.computes.safe, fun _ => Nat.le_trans hl hx.computes.level, fun _ => Nat.le_trans hl' hy.computes.level⟩
  · rw [hp]; exact Nat.le_refl _
  · rw [hp]; exact hcheck
  · rw [hp]
    have hcheck := hcheck
    simp only [meant] at hcheck ⊢
    obtain ⟨z, z1, z2⟩ := Option.map_eq_some_iff.1 (hr vs)
    simp only [goEval, t4, t4', Option.bind_some, hno.1, hno.2.1, Bool.false_eq_true, if_false, hcheck, GTy.int, GVal.toInt, z1, Option.map_some, z2]
  · rintro s ⟨⟩; rfl
  · rintro v ⟨⟩
    exact ⟨hw, fun vs => wrapTo_held hw _⟩

/-- Go code for a shift by a constant. -/
theorem shift_computes {x y : TEx} {l l' : Nat} {f f' : Env → Int} {g : GoNum} (hx : Numeric a P q ms x l (.num g) f)
    (hy : Numeric a P q ms y l' .const f') (h0 : ∀ vs, 0 ≤ f' vs) {o : GOp} (ho : o.isShift = true) (hl : 5 ≤ l) (hl' : 6 ≤ l')
    {r : Env → Int} (hr : ∀ vs, intOp o (f vs) (f' vs) = some (r vs)) :
    Numeric a P q ms (.shift o x y) 5 (.num g) fun vs => wrapTo g (r vs) := by
  obtain ⟨rx, x1, x2, n, x3, x4⟩ := hx.native
  obtain ⟨ry, y1, y2, y3⟩ := hy.native
  obtain ⟨hg, _⟩ := hx.held g rfl
  have kx : rx.kind = .integer := x2
  have ky : ry.kind = .integer := y2
  have hp : goPrec o = 5 ∧ o.isLogic = false ∧ o.isCmp = false ∧ (o.isArith || o.isBit) = false := by
    cases o <;> first | exact ⟨rfl, rfl, rfl, rfl⟩ | cases ho
  have hres : (TEx.shift o x y).res = .ok ⟨.integer, some n⟩ := by
    simp [TEx.res, x1, y1, bind, Except.bind, shiftOperand, kx, ky, x3]
  have hc : shiftCast x = none := by
    have := hx.resolved
    cases x <;> first | rfl | cases this
  have hcheck : goCheck (goScope q ms) (meant (TEx.shift o x y).toPEx) = some (.typed (.num g) none) := by
    have e1 : numTyping P a.schema (.num g) f = .typed (.num g) none := rfl
    have e2 : numTyping P a.schema .const f' = .const (f' ⟨[], []⟩) := rfl
    simp only [TEx.toPEx, meant, hc, castGo, goCheck, hx.computes.check, hy.computes.check, Option.bind_some, hp.2.2.2, Bool.false_eq_true, if_false, ho, if_true,
      e1, e2, checkShift, GTy.int, Option.isSome_some, h0 ⟨[], []⟩, decide_true, Bool.and_self]
  refine ⟨rfl, ⟨⟨_, hres, rfl⟩, ?_, ?_, hcheck, fun vs => ?_⟩, ⟨_, hres, rfl, n, rfl, x4⟩, ?_, nofun, ?_⟩
  · have := hx.computes.level
    have := hy.computes.level
    exact ⟨hx.computes.safe, hy.computes.safe, fun _ => by omega, fun _ => by omega⟩
  · show 5 ≤ goPrec o
    omega
  · have hcheck := hcheck
    simp only [TEx.toPEx, meant, hc, castGo] at hcheck ⊢
    simp only [goEval, hx.computes.eval, hy.computes.eval, Option.bind_some, hp.2.1, hp.2.2.1, Bool.false_eq_true, if_false, hcheck, GTy.int, GVal.toInt, hr,
      Option.map_some]
  · rintro s ⟨⟩; rfl
  · rintro w ⟨⟩
    exact ⟨hg, fun vs => wrapTo_held hg _⟩

/-- Constants are not negative. -/
theorem NumMeans.const_nonneg {e : CExpr} {f : Env → Int} (hm : NumMeans a e .const f) : ∀ vs, 0 ≤ f vs := by
  generalize hg : NumTy.const = g at hm
  induction hm with
  | field => exact absurd hg.symm (of_ne_const _ _).1
  | param => exact absurd hg.symm (of_ne_const _ _).1
  | literal hl => exact fun _ => (hl.value (q := ⟨[], [], []⟩) (owner := none)).2.2.1
  | item hi => exact fun _ => hi.bound.1
  | constant => cases hg
  | parenthesized _ ih => exact ih hg
  | lengthof | additive | additiveMixed | multiplyMixed | multiplicative | bitwiseAnd | bitwiseOr | bitwiseXor | shift => cases hg

theorem operator_eval {k : Tok} {ks : List Char} {a b : AExpr} {x y : TEx} (h1 : evalTEx q owner a = some x) (h2 : evalTEx q owner b = some y)
    (hr : (x.isResolved && y.isResolved) = false) (hk : k ≠ .dot) : evalTEx q owner (.two k ks a b) = binaryTEx k x y := by
  simp only [evalTEx, if_neg hk, h1, h2, hr, Bool.false_eq_true, if_false]

theorem NumMeans.computes (h : Inside a P q owner ms) {e : CExpr} {g : NumTy} {f : Env → Int} (hm : NumMeans a e g f) :
    ∃ x, evalTEx q owner (visitExpr e) = some x ∧ Numeric a P q ms x e.tight g f := by
  have small : ∀ z : Int, 0 ≤ z → z < 2 ^ 63 → GoNum.Holds ⟨true, 64⟩ z := by
    intro z h0 h1
    show -(2 ^ 63 : Int) ≤ _ ∧ _
    norm_num at h1 ⊢
    omega
  have least : ∀ e : CExpr, e.tight ≤ 7 := by intro e; cases e <;> simp [CExpr.tight]
  have constant : ∀ (e : CExpr) (z : Int), 0 ≤ z → z < 2 ^ 63 → Numeric a P q ms (.const z none) e.tight .const fun _ => z := by
    intro e z h0 h1
    obtain ⟨d1, d2, d3, d4, d5⟩ := const_computes (q := q) (ms := ms) h0
    exact ⟨rfl, ⟨d1, d2, Nat.le_trans (least e) d3, d4, d5⟩, ⟨_, rfl, rfl, rfl⟩, nofun, fun _ => ⟨d3, fun _ => ⟨rfl, small z h0 h1⟩⟩, nofun⟩
  induction hm with
  | @field n i k o g hf hk =>
    obtain ⟨f, r, h3, h4, h5, h2, h6, h7, h9, h8⟩ := h.field hf
    obtain ⟨⟨d, d1, d2, d3⟩, ⟨t, t1, t2, t3⟩⟩ := h.numbers h6 hk
    obtain ⟨n1, n2⟩ := of_ne_const o g
    refine ⟨.sym (.member (title n.text)) d, ?_, by rw [n2]; rfl, ⟨⟨_, rfl, d2⟩, trivial, least _, ?_, fun vs => ?_⟩, ⟨_, rfl, d2, d3⟩, ?_,
      fun e => absurd e n1, ?_⟩
    · simp only [visitExpr, evalTEx, if_true, h7, Option.bind_some, memberEx, h2, h3, h4, h5, d1]
      rfl
    · simp only [TEx.toPEx, meant, goCheck, goScope, h9, h8, h3, h4, h5, t1, t2, numTyping]
      cases o <;> rfl
    · rw [n2] at t3
      simp only [TEx.toPEx, meant, goEval, goMemberValues, h9, h8, h5, goValue, t2, t3, int_value hk]
      rfl
    · intro t' ht'
      rw [t1] at ht'
      cases ht'
      exact t3
    · rw [n2]
      rintro g' ⟨⟩
      obtain ⟨b, hb⟩ := h6.denotes
      exact ⟨goNum_mem hb hk, fun vs => num_held hk (goNum_mem hb hk) _⟩
  | @param n i k o g hf hk =>
    obtain ⟨f, c, _, _, h5, h2, h6, h7, h8⟩ := h.param hf
    obtain ⟨⟨d, d1, d2, d3⟩, ⟨t, t1, t2, t3⟩⟩ := h.numbers h6 hk
    obtain ⟨n1, n2⟩ := of_ne_const o g
    refine ⟨.sym (.member (title n.text)) d, ?_, by rw [n2]; rfl, ⟨⟨_, rfl, d2⟩, trivial, least _, ?_, fun vs => ?_⟩, ⟨_, rfl, d2, d3⟩, ?_,
      fun e => absurd e n1, ?_⟩
    · simp only [visitExpr, evalTEx, if_true, h7, Option.bind_some, memberEx, h2, h5, d1]
      rfl
    · simp only [TEx.toPEx, meant, goCheck, goScope, h8, h5, t1, t2, numTyping]
      cases o <;> rfl
    · rw [n2] at t3
      simp only [TEx.toPEx, meant, goEval, goMemberValues, h8, h5, goValue, t2, t3, int_value hk]
      rfl
    · intro t' ht'
      rw [t1] at ht'
      cases ht'
      exact t3
    · rw [n2]
      rintro g' ⟨⟩
      obtain ⟨b, hb⟩ := h6.denotes
      exact ⟨goNum_mem hb hk, fun vs => num_held hk (goNum_mem hb hk) _⟩
  | @literal e z hl =>
    obtain ⟨_, e1, h0, h1⟩ := hl.value (q := q) (owner := owner)
    exact ⟨_, e1, constant e z h0 h1⟩
  | @item t n z hi =>
    obtain ⟨h0, h1⟩ := hi.bound
    exact ⟨_, hi.eval h, constant _ z h0 h1⟩
  | @constant t n i g z hi =>
    obtain ⟨f1, f2⟩ := h.constants hi owner
    obtain @⟨j, b, is, c, k, i1, i6, i7, hb, i3, _, _, _, _, _, _, i5, _⟩ := hi
    have i2 : MemberType a.schema (.named t [] []) k (some (i, false)) := .enum (.own i1) (by omega) (by rintro n ⟨⟩; exact i6) i1 i7 hb
    obtain ⟨_, ⟨s, s1, s2, s3⟩⟩ := h.numbers i2 i3
    have hgo : (NumTy.item i g).go P a.schema = some (.named (P ++ '.' :: t.text)) := by
      simp only [NumTy.go, List.getD, i1, Option.getD_some]
    have hs : s = .named (P ++ '.' :: t.text) := by
      have : (NumTy.of (some (i, false)) g).go P a.schema = (NumTy.item i g).go P a.schema := rfl
      rw [this, hgo] at s1
      cases s1
      rfl
    subst hs
    refine ⟨_, f1, rfl, ⟨⟨_, rfl, rfl⟩, trivial, least _, ?_, fun vs => ?_⟩, ⟨_, rfl, rfl, rfl⟩, ?_, nofun, ?_⟩
    · simp only [TEx.toPEx, meant, goCheck, goScope, f2, numTyping, hgo, Option.map_some]
    · simp only [TEx.toPEx, meant, goEval, goMemberValues, f2, Option.map_some]
    · rw [hgo]
      rintro t' ⟨⟩
      exact s3
    · rintro w ⟨⟩
      exact ⟨goNum_mem hb i3, fun _ => i5⟩
  | @lengthof n i hf =>
    obtain ⟨f, h1, h2, h3, h4, h5, h6, h7, h8⟩ := h.array hf
    have i64 : NumNative ⟨"int64", 0, false⟩ ⟨true, 64⟩ := ⟨baseOk_base (by decide +kernel), fun _ => ⟨⟨"uint64", 0, false⟩, rfl, baseOk_base (by decide +kernel)⟩⟩
    have hn : int64Name ≠ lenName := by decide
    have hty : (goScope q ms).tyName int64Name = some (.num ⟨true, 64⟩) := by
      have : predeclared int64Name = some (.num ⟨true, 64⟩) := by decide +kernel
      exact this
    have hel : (goScope q ms).elem (.sel (.name vName) (title n.text)) = some ((goTypeOf q f.type).getD (.named [])) := by
      simp only [goScope, if_true, h7, h8, h1, h2, h5, Bool.not_false, Bool.and_self]
    refine ⟨.lengthof (.member (title n.text)), ?_, rfl, ⟨⟨_, rfl, rfl⟩, trivial, least _, ?_, fun vs => ?_⟩, ⟨_, rfl, rfl, _, rfl, i64⟩, ?_, nofun, ?_⟩
    · simp only [visitExpr, visitOne, evalTEx, lengthEx, if_true, h6, h1, h2, h4, Bool.not_false, Bool.and_self, h3]
    · simp only [TEx.toPEx, meant, goCheck, if_neg hn, hty, Option.bind_some, if_true, hel, Option.map_some]
      rfl
    · simp only [TEx.toPEx, meant, goEval, if_neg hn, hty, Option.bind_some, if_true, GTy.int, GVal.toInt, Option.map_some, goMemberValues, h8]
      cases vs.fields.getD i .none <;> rfl
    · rintro s ⟨⟩; rfl
    · rintro w ⟨⟩
      exact ⟨by decide, fun vs => wrapTo_held (by decide) _⟩
  | @parenthesized e g f _ ih =>
    obtain ⟨x, e1, e2, ⟨c1, c2, c3, c4, c5⟩, c6, h0, h1, h2⟩ := ih
    cases hg : x.isResolved with
    | true =>
      refine ⟨x, ?_, e2, ⟨c1, c2, ?_, c4, c5⟩, c6, h0, h1, h2⟩
      · simp only [visitExpr, visitOne, evalTEx, e1, hg]
        rfl
      · refine Nat.le_trans (least _) (h1 ?_).1
        rw [hg] at e2
        cases g <;> first | rfl | cases e2
    | false =>
      refine ⟨.paren x, ?_, by rw [← e2, hg]; rfl, ⟨c1, c2, least _, c4, c5⟩, c6, h0, fun e => ⟨Nat.le_refl _, (h1 e).2⟩, h2⟩
      simp only [visitExpr, visitOne, evalTEx, e1, hg]
      rfl
  | @additive op x y t t' g f f' _ _ hc hl hl' ihx ihy =>
    obtain ⟨u, u1, u2⟩ := ihx
    obtain ⟨v, v1, v2⟩ := ihy
    have hr : (u.isResolved && v.isResolved) = false := by rw [u2.resolved, v2.resolved]; exact hc.cases.2.2.2.2.2
    cases op with
    | plus => exact ⟨_, operator_eval u1 v1 hr (by decide), operator_computes (o := .add) u2 v2 hc (.inl rfl) hl hl' (by simp) fun vs => rfl⟩
    | minus => exact ⟨_, operator_eval u1 v1 hr (by decide), operator_computes (o := .sub) u2 v2 hc (.inl rfl) hl hl' (by simp) fun vs => rfl⟩
  | @additiveMixed op x y g g' w f f' _ _ hc hl hl' ihx ihy =>
    obtain ⟨u, u1, u2⟩ := ihx
    obtain ⟨v, v1, v2⟩ := ihy
    have hr : (u.isResolved && v.isResolved) = false := by rw [u2.resolved]; rfl
    have hw : 1 ≤ w.width := goNums_width (by
      obtain ⟨_, _, _, n, _, x4⟩ := u2.native
      obtain ⟨_, _, _, m, _, y4⟩ := v2.native
      exact (hc.native (u2.held g rfl).1 (v2.held g' rfl).1 x4 y4).1)
    cases op with
    | plus =>
      exact ⟨_, operator_eval u1 v1 hr (by decide), mixed_computes (o := .add) u1 v1 u2 v2 hc rfl hl hl' (by simp) fun vs => congrArg some (wrapTo_apply hw _ _).1⟩
    | minus =>
      exact ⟨_, operator_eval u1 v1 hr (by decide), mixed_computes (o := .sub) u1 v1 u2 v2 hc rfl hl hl' (by simp) fun vs => congrArg some (wrapTo_apply hw _ _).2.1⟩
  | @multiplyMixed x y g g' w f f' _ _ hc hl hl' ihx ihy =>
    obtain ⟨u, u1, u2⟩ := ihx
    obtain ⟨v, v1, v2⟩ := ihy
    have hr : (u.isResolved && v.isResolved) = false := by rw [u2.resolved]; rfl
    have hw : 1 ≤ w.width := goNums_width (by
      obtain ⟨_, _, _, n, _, x4⟩ := u2.native
      obtain ⟨_, _, _, m, _, y4⟩ := v2.native
      exact (hc.native (u2.held g rfl).1 (v2.held g' rfl).1 x4 y4).1)
    exact ⟨_, operator_eval u1 v1 hr (by decide), mixed_computes (o := .mul) u1 v1 u2 v2 hc rfl hl hl' (by simp) fun vs => congrArg some (wrapTo_apply hw _ _).2.2⟩
  | @multiplicative op x y t t' g f f' _ _ hc hl hl' hd ihx ihy =>
    obtain ⟨u, u1, u2⟩ := ihx
    obtain ⟨v, v1, v2⟩ := ihy
    have hr : (u.isResolved && v.isResolved) = false := by rw [u2.resolved, v2.resolved]; exact hc.cases.2.2.2.2.2
    have hv : op ≠ .multiply → v.isResolved = true := fun h => by rw [v2.resolved, (hd h).1]; rfl
    cases op with
    | multiply => exact ⟨_, operator_eval u1 v1 hr (by decide), operator_computes (o := .mul) u2 v2 hc (.inl rfl) hl hl' (by simp) fun vs => rfl⟩
    | divide =>
      refine ⟨_, (operator_eval u1 v1 hr (by decide)).trans ?_, operator_computes (o := .div) u2 v2 hc (.inl rfl) hl hl' (fun _ => hd (by simp)) fun vs => ?_⟩
      · simp [binaryTEx, cmpOp, logicOp, arithOp, MulOp.tok, hv, GOp.isArith]
      · simp only [intOp, if_neg ((hd (by simp)).2 vs)]
        rfl
    | modulo =>
      refine ⟨_, (operator_eval u1 v1 hr (by decide)).trans ?_, operator_computes (o := .mod) u2 v2 hc (.inl rfl) hl hl' (fun _ => hd (by simp)) fun vs => ?_⟩
      · simp [binaryTEx, cmpOp, logicOp, arithOp, MulOp.tok, hv, GOp.isArith]
      · simp only [intOp, if_neg ((hd (by simp)).2 vs)]
        rfl
  | @bitwiseAnd x y t t' g f f' _ _ hc hl hl' ihx ihy =>
    obtain ⟨u, u1, u2⟩ := ihx
    obtain ⟨v, v1, v2⟩ := ihy
    have hr : (u.isResolved && v.isResolved) = false := by rw [u2.resolved, v2.resolved]; exact hc.cases.2.2.2.2.2
    exact ⟨_, operator_eval u1 v1 hr (by decide), operator_computes (o := .band) u2 v2 hc (.inr rfl) hl hl' (by simp) fun vs => rfl⟩
  | @bitwiseOr x y t t' g f f' _ _ hc hl hl' ihx ihy =>
    obtain ⟨u, u1, u2⟩ := ihx
    obtain ⟨v, v1, v2⟩ := ihy
    have hr : (u.isResolved && v.isResolved) = false := by rw [u2.resolved, v2.resolved]; exact hc.cases.2.2.2.2.2
    exact ⟨_, operator_eval u1 v1 hr (by decide), operator_computes (o := .bor) u2 v2 hc (.inr rfl) hl hl' (by simp) fun vs => rfl⟩
  | @bitwiseXor x y t t' g f f' _ _ hc hl hl' ihx ihy =>
    obtain ⟨u, u1, u2⟩ := ihx
    obtain ⟨v, v1, v2⟩ := ihy
    have hr : (u.isResolved && v.isResolved) = false := by rw [u2.resolved, v2.resolved]; exact hc.cases.2.2.2.2.2
    exact ⟨_, operator_eval u1 v1 hr (by decide), operator_computes (o := .bxor) u2 v2 hc (.inr rfl) hl hl' (by simp) fun vs => rfl⟩
  | @shift op x y g f f' _ hy hl hl' ihx ihy =>
    obtain ⟨u, u1, u2⟩ := ihx
    obtain ⟨v, v1, v2⟩ := ihy
    have hr : (u.isResolved && v.isResolved) = false := by rw [u2.resolved]; rfl
    have hv : v.isResolved = true := v2.resolved
    have h0 := hy.const_nonneg
    have hn : ∀ vs, ¬ f' vs < 0 := fun vs => by have := h0 vs; omega
    cases op with
    | left =>
      refine ⟨_, (operator_eval u1 v1 hr (by decide)).trans ?_, shift_computes (o := .shl) u2 v2 h0 rfl hl hl' fun vs => ?_⟩
      · simp [binaryTEx, cmpOp, logicOp, arithOp, bitOp, shiftOp, ShiftOp.tok, hv]
      · simp only [intOp, if_neg (hn vs)]
        rfl
    | right =>
      refine ⟨_, (operator_eval u1 v1 hr (by decide)).trans ?_, shift_computes (o := .shr) u2 v2 h0 rfl hl hl' fun vs => ?_⟩
      · simp [binaryTEx, cmpOp, logicOp, arithOp, bitOp, shiftOp, ShiftOp.tok, hv]
      · simp only [intOp, if_neg (hn vs)]
        rfl

/-- Constants are evaluated. -/
theorem NumMeans.const (h : Inside a P q owner ms) {e : CExpr} {f : Env → Int} (hm : NumMeans a e .const f) :
    ∃ z, evalTEx q owner (visitExpr e) = some (.const z none) ∧ z = f ⟨[], []⟩ := by
  generalize hg : NumTy.const = g at hm
  induction hm with
  | field => exact absurd hg.symm (of_ne_const _ _).1
  | param => exact absurd hg.symm (of_ne_const _ _).1
  | literal hl => exact ⟨_, (hl.value (q := q) (owner := owner)).2.1, rfl⟩
  | item hi => exact ⟨_, hi.eval h, rfl⟩
  | constant => cases hg
  | @parenthesized e g f _ ih =>
    obtain ⟨z, e1, e2⟩ := ih hg
    refine ⟨z, ?_, e2⟩
    simp only [visitExpr, visitOne, evalTEx, e1]
    rfl
  | lengthof | additive | additiveMixed | multiplyMixed | multiplicative | bitwiseAnd | bitwiseOr | bitwiseXor | shift => cases hg

/-- Constants are no names. -/
theorem NumMeans.const_leaf {e : CExpr} {f : Env → Int} (hm : NumMeans a e .const f) : ∀ n, visitExpr e ≠ .leaf .id n := by
  generalize hg : NumTy.const = g at hm
  cases hm with
  | field => exact absurd hg.symm (of_ne_const _ _).1
  | param => exact absurd hg.symm (of_ne_const _ _).1
  | literal hl =>
    cases hl with
    | @literal l text ds =>
      intro n hn
      simp only [visitExpr, AExpr.leaf.injEq] at hn
      exact l.token_tok.2 hn.1
    | parenthesized => simp [visitExpr, visitOne]
  | item => simp [visitExpr, visitTwo]
  | constant => cases hg
  | parenthesized => simp [visitExpr, visitOne]
  | lengthof | additive | additiveMixed | multiplyMixed | multiplicative | bitwiseAnd | bitwiseOr | bitwiseXor | shift => cases hg

/-- Numbers bind more tightly than comparisons. -/
theorem NumMeans.tight {e : CExpr} {g : NumTy} {f : Env → Int} (hm : NumMeans a e g f) : 4 ≤ e.tight := by
  cases hm with
  | literal hl => cases hl <;> simp [CExpr.tight]
  | _ => simp [CExpr.tight]

theorem kind_cmp (o : GOp) {g g' : NumTy} {f f' : Env → Int} (h : Comparable g f g' f') {ra rb : Operand} (ha : ra.kind = g.kind) (hb : rb.kind = g'.kind) :
    cmpOperand o ra rb = .ok ⟨.bool, none⟩ := by
  have num : ∀ t : NumTy, t.kind = .integer ∨ t.kind = .enum ∨ t.kind = .bitmask := by
    intro t
    cases t with
    | const => exact .inl rfl
    | num => exact .inl rfl
    | own i m g => cases m <;> simp [NumTy.kind]
    | item => exact .inl rfl
  cases h with
  | same =>
    rcases num g with e | e | e <;> simp [cmpOperand, ha, hb, e]
  | right =>
    have : NumTy.const.kind = EKind.integer := rfl
    rcases num g with e | e | e <;> simp [cmpOperand, ha, hb, e, this]
  | left =>
    have : NumTy.const.kind = EKind.integer := rfl
    rcases num g' with e | e | e <;> simp [cmpOperand, ha, hb, e, this]
  | itemRight => simp [cmpOperand, ha, hb, NumTy.kind]
  | itemLeft => simp [cmpOperand, ha, hb, NumTy.kind]

/-- Comparison of numbers. -/
theorem compare_computes {x y : TEx} {g g' : NumTy} {f f' : Env → Int} {l l' : Nat} (hl : 4 ≤ l) (hl' : 4 ≤ l')
    (hx : Computes q ms x g.kind l (numTyping P a.schema g f) fun vs => .int (f vs))
    (hy : Computes q ms y g'.kind l' (numTyping P a.schema g' f') fun vs => .int (f' vs)) (hc : Comparable g f g' f')
    (hgx : ∀ t, g.go P a.schema = some t → t.int (goTypes q) = g.int) (hgy : ∀ t, g'.go P a.schema = some t → t.int (goTypes q) = g'.int)
    {o : GOp} (ho : o.isCmp = true)
    {r : Env → Bool} (hr : ∀ vs, intCmp o (f vs) (f' vs) = some (r vs)) :
    Computes q ms (.cmp o x y) .bool 3 (.typed .bool none) fun vs => .bool (r vs) := by
  obtain ⟨⟨rx, x1, x1'⟩, x2, x3, x4, x5⟩ := hx
  obtain ⟨⟨ry, y1, y1'⟩, y2, y3, y4, y5⟩ := hy
  have hp : goPrec o = 3 := by cases o <;> first | rfl | cases ho
  have hna : o.isArith = false ∧ o.isBit = false ∧ o.isShift = false ∧ o.isLogic = false := by
    cases o <;> first | (cases ho; done) | exact ⟨rfl, rfl, rfl, rfl⟩
  refine ⟨⟨⟨.bool, none⟩, ?_, rfl⟩, ?_, ?_, ?_, fun vs => ?_⟩
  · simp [TEx.res, x1, y1, kind_cmp o hc x1' y1', bind, Except.bind]
  · refine ⟨x2, y2, fun _ => ?_, fun _ => ?_⟩ <;> omega
  · show 3 ≤ goPrec o
    omega
  · have typ : ∀ t : NumTy, t ≠ .const → ∃ s, t.go P a.schema = some s ∧ s ≠ .bool := by
      intro t ht
      cases t with
      | const => exact absurd rfl ht
      | num g => exact ⟨_, rfl, by simp⟩
      | own i m g => exact ⟨_, rfl, by simp⟩
      | item i g => exact ⟨_, rfl, by simp⟩
    have hu : ∃ t, unify (goScope q ms) (numTyping P a.schema g f) (numTyping P a.schema g' f') = some t ∧ t ≠ .bool ∧ (g ≠ .const ∨ g' ≠ .const) := by
      cases hc with
      | same h =>
        obtain ⟨s, s1, s2⟩ := typ g h
        exact ⟨s, by simp [numTyping, s1, unify], s2, .inl h⟩
      | @right g w _ _ hi hh =>
        have hne : g ≠ .const := by rintro rfl; cases hi
        obtain ⟨s, s1, s2⟩ := typ g hne
        have hs := hgx s s1
        rw [hi] at hs
        refine ⟨s, ?_, s2, .inl hne⟩
        have : NumTy.const.go P a.schema = none := rfl
        simp [numTyping, s1, this, unify, representable, int_scope, hs, hh ⟨[], []⟩]
      | @left g w _ _ hi hh =>
        have hne : g' ≠ .const := by rintro rfl; cases hi
        obtain ⟨s, s1, s2⟩ := typ g' hne
        have hs := hgy s s1
        rw [hi] at hs
        refine ⟨s, ?_, s2, .inr hne⟩
        have : NumTy.const.go P a.schema = none := rfl
        simp [numTyping, s1, this, unify, representable, int_scope, hs, hh ⟨[], []⟩]
      | itemRight => exact ⟨_, by simp [numTyping, NumTy.go, unify]; rfl, by simp, .inl (by simp)⟩
      | itemLeft => exact ⟨_, by simp [numTyping, NumTy.go, unify]; rfl, by simp, .inl (by simp)⟩
    obtain ⟨t, u1, u2, u3⟩ := hu
    simp only [TEx.toPEx, meant, castGo, goCheck, x4, y4, Option.bind_some, hna.1, hna.2.1, hna.2.2.1, ho, Bool.or_self]
    have hcm : ∀ x y : GTyping, unify (goScope q ms) x y = some t → checkCmp (goScope q ms) o x y = some (.typed .bool none) := by
      clear x1 y1 x4 y4 x5 y5 hgx hgy u1 u3 hr
      intro x y hxy
      have hb : (some t).bind (fun t => if o = .eq ∨ o = .ne ∨ t ≠ .bool then some (GTyping.typed .bool none) else none) = some (.typed .bool none) := by
        simp [u2]
      cases x <;> cases y <;> first | rfl | (rw [checkCmp, hxy]; exact hb; all_goals simp)
    exact hcm _ _ u1
  · simp only [TEx.toPEx, meant, castGo, goEval, x5, y5, Option.bind_some, hna.2.2.2, ho, valCmp, hr, Option.map_some]
    rfl

theorem logic_computes {x y : TEx} {f f' : Env → Bool} {l l' : Nat} (hx : Computes q ms x .bool l (.typed .bool none) fun vs => .bool (f vs))
    (hy : Computes q ms y .bool l' (.typed .bool none) fun vs => .bool (f' vs)) {o : GOp} (ho : o.isLogic = true) (hl : goPrec o ≤ l)
    (hl' : goPrec o + 1 ≤ l') {r : Env → Bool} (hr : ∀ vs, valLogic o (.bool (f vs)) (some (.bool (f' vs))) = some (.bool (r vs))) :
    Computes q ms (.logic o x y) .bool (goPrec o) (.typed .bool none) fun vs => .bool (r vs) := by
  obtain ⟨⟨rx, x1, x1'⟩, x2, x3, x4, x5⟩ := hx
  obtain ⟨⟨ry, y1, y1'⟩, y2, y3, y4, y5⟩ := hy
  have hna : o.isArith = false ∧ o.isBit = false ∧ o.isShift = false ∧ o.isCmp = false := by
    cases o <;> first | (cases ho; done) | exact ⟨rfl, rfl, rfl, rfl⟩
  refine ⟨⟨⟨.bool, none⟩, ?_, rfl⟩, ?_, Nat.le_refl _, ?_, fun vs => ?_⟩
  · simp [TEx.res, x1, y1, x1', y1', bind, Except.bind]
  · refine ⟨x2, y2, fun _ => ?_, fun _ => ?_⟩ <;> omega
  · simp only [TEx.toPEx, meant, castGo, goCheck, x4, y4, Option.bind_some, hna.1, hna.2.1, hna.2.2.1, hna.2.2.2, Bool.or_self]
    rfl
  · simp only [TEx.toPEx, meant, castGo, goEval, x5, y5, Option.bind_some, ho, if_true, hr]

theorem RelOp.cmp (op : RelOp) : ∃ o, cmpOp op.tok = some o ∧ o.isCmp = true ∧ ∀ x y, intCmp o x y = some (op.holds x y) := by
  cases op <;> exact ⟨_, rfl, rfl, fun _ _ => rfl⟩

theorem EqOp.cmp (op : EqOp) : ∃ o, cmpOp op.tok = some o ∧ o.isCmp = true ∧ ∀ x y, intCmp o x y = some (op.holds x y) := by
  cases op <;> exact ⟨_, rfl, rfl, fun _ _ => rfl⟩

theorem Comparable.unresolved {g g' : NumTy} {f f' : Env → Int} (h : Comparable g f g' f') : (g.int.isNone && g'.int.isNone) = false := by
  cases h with
  | same h => cases g <;> first | exact absurd rfl h | rfl
  | right h => simp [h]
  | left h => simp [h]
  | itemRight => rfl
  | itemLeft => rfl

/-- Expressions that use names belong to a declaration that is the scope of its expressions. -/
theorem NumMeans.owned (h : Inside a P q owner ms) {e : CExpr} {i : Nat} {m : Bool} {g : GoNum} {f : Env → Int} (hm : NumMeans a e (.own i m g) f) :
    owner.isSome = true := by
  generalize ht : NumTy.own i m g = t at hm
  induction hm with
  | field hf =>
    obtain ⟨h1, _⟩ := hf
    rcases h.scope with ⟨_, h2⟩ | ⟨_, _, h2, _⟩
    · rw [h2] at h1; cases h1
    · rw [h2]; rfl
  | param hf =>
    obtain ⟨h1, _⟩ := hf
    rcases h.scope with ⟨h2, _⟩ | ⟨_, _, h2, _⟩
    · rw [h2] at h1; cases h1
    · rw [h2]; rfl
  | parenthesized _ ih => exact ih ht
  | _ => cases ht

theorem FlagConstant.computes (h : Inside a P q owner ms) (ho : owner.isSome = true) {t n : Ident} {i : Nat} {g : GoNum} {z : Int}
    (hm : FlagConstant a.schema t n i g z) :
    evalTEx q owner (visitExpr (.dot (.identifier t) n)) = some (.item (title t.text ++ title n.text) (P ++ '.' :: t.text) true z) ∧
      goCheck (goScope q ms) (.name (title t.text ++ title n.text)) = some (.typed (.named (P ++ '.' :: t.text)) (some z)) ∧
      (∀ vs, goEval (goScope q ms) (goMemberValues q ms vs) (.name (title t.text ++ title n.text)) = some (.int z)) ∧
      (NumTy.own i true g).go P a.schema = some (.named (P ++ '.' :: t.text)) ∧ g.Holds z := by
  obtain ⟨f1, f2⟩ := h.flags ho hm
  obtain @⟨j, b, is, c, k, i1, i6, i7, hb, i3, _, _, _, _, _, i5, _, _⟩ := hm
  refine ⟨f1, ?_, fun vs => ?_, ?_, i5⟩
  · simp only [goCheck, goScope, f2, Option.map_some]
  · simp only [goEval, goMemberValues, f2, Option.map_some]
  · simp only [NumTy.go, List.getD, i1, Option.getD_some]

/-- Go code for `isset`. -/
theorem isset_computes {x : TEx} {l i k : Nat} {g : GoNum} {f : Env → Int} (hx : Numeric a P q ms x l (.own i true g) f) (hl : 5 ≤ l)
    {T N : Text} (hc : goCheck (goScope q ms) (.name N) = some (.typed (.named T) (some (2 ^ k))))
    (he : ∀ vs, goEval (goScope q ms) (goMemberValues q ms vs) (.name N) = some (.int (2 ^ k))) (hgo : (NumTy.own i true g).go P a.schema = some (.named T))
    (hz : g.Holds (2 ^ k)) :
    Computes q ms (.isset x (.item N T true (2 ^ k))) .bool 3 (.typed .bool none) (fun vs => .bool (decide ((f vs).land (2 ^ k) = 2 ^ k))) := by
  obtain ⟨_, ⟨_, c2, c3, c4, c5⟩, ⟨r, r1, r2, _⟩, hint, _, _⟩ := hx
  have hg := hint _ hgo
  have hT : (GTy.named T).int (goScope q ms) = some g := by rw [int_scope]; exact hg
  have hchk : goCheck (goScope q ms) (.bin .band (meant x.toPEx) (.name N)) = some (.typed (.named T) none) := by
    simp only [numTyping, hgo] at c4
    simp only [goCheck, c4, Option.bind_some]
    simp only [goCheck] at hc
    rw [hc]
    simp [GOp.isArith, GOp.isBit, checkArith, unify, operates, hT, GTyping.value]
  have h0 : g.Holds 0 := by
    unfold GoNum.Holds at hz ⊢
    have hp : (0 : Int) < 2 ^ k := by positivity
    split at hz
    · rename_i hs
      rw [if_pos hs]
      have : (0 : Int) < 2 ^ (g.width - 1) := by positivity
      omega
    · rename_i hs
      rw [if_neg hs]
      omega
  refine ⟨⟨⟨.bool, none⟩, ?_, rfl⟩, ⟨c2, trivial, Nat.le_trans hl c3, (by decide : 6 ≤ 7)⟩, Nat.le_refl _, ?_, fun vs => ?_⟩
  · have : r.kind = .bitmask := r2
    simp [TEx.res, r1, this, bind, Except.bind]
  · simp only [TEx.toPEx, meant]
    rw [goCheck, hchk]
    simp [goCheck, GOp.isArith, GOp.isBit, GOp.isShift, GOp.isCmp, checkCmp, unify, representable, hT, h0]
  · have hev : goEval (goScope q ms) (goMemberValues q ms vs) (.bin .band (meant x.toPEx) (.name N)) = some (.int ((f vs).land (2 ^ k))) := by
      rw [goEval, c5, he]
      have hw : wrapTo g ((f vs).land (2 ^ k)) = (f vs).land (2 ^ k) := by
        by_cases hb : (f vs).land (2 ^ k) = 2 ^ k
        · rw [hb]; exact wrapTo_holds hz
        · have : (f vs).land (2 ^ k) = 0 := by
            by_contra h
            exact hb ((land_single _ _).2 h)
          rw [this]; exact wrapTo_holds h0
      simp only [Option.bind_some, GOp.isLogic, GOp.isCmp, Bool.false_eq_true, if_false, hchk, hT, GVal.toInt, intOp, Option.map_some, hw]
    simp only [TEx.toPEx, meant]
    rw [goEval, hev]
    simp only [goEval, Option.bind_some, GOp.isLogic, GOp.isCmp, Bool.false_eq_true, if_false, if_true, valCmp, intCmp]
    simp [land_single]

theorem CondMeans.computes (h : Inside a P q owner ms) {e : CExpr} {f : Env → Bool} (hm : CondMeans a e f) :
    ∃ x, evalTEx q owner (visitExpr e) = some x ∧ x.isResolved = false ∧
      Computes q ms x .bool e.tight (.typed .bool none) (fun vs => .bool (f vs)) := by
  induction hm with
  | @field n i hf =>
    obtain ⟨f, r, h3, h4, h5, h2, h6, h7, h9, h8⟩ := h.field hf
    obtain ⟨⟨d, d1, d2⟩, t1⟩ := h.bools h6
    refine ⟨.sym (.member (title n.text)) d, ?_, rfl, ⟨⟨_, rfl, d2⟩, trivial, ?_, ?_, fun vs => ?_⟩⟩
    · simp only [visitExpr, evalTEx, if_true, h7, Option.bind_some, memberEx, h2, h3, h4, h5, d1]
      rfl
    · show 6 ≤ 7
      omega
    · simp only [TEx.toPEx, meant, goCheck, goScope, h9, h8, h3, h4, h5, t1]
      rfl
    · simp only [TEx.toPEx, meant, goEval, goMemberValues, h9, h8, h5, goValue, t1]
      rfl
  | @param n i hf =>
    obtain ⟨f, c, _, _, h5, h2, h6, h7, h8⟩ := h.param hf
    obtain ⟨⟨d, d1, d2⟩, t1⟩ := h.bools h6
    refine ⟨.sym (.member (title n.text)) d, ?_, rfl, ⟨⟨_, rfl, d2⟩, trivial, ?_, ?_, fun vs => ?_⟩⟩
    · simp only [visitExpr, evalTEx, if_true, h7, Option.bind_some, memberEx, h2, h5, d1]
      rfl
    · show 6 ≤ 7
      omega
    · simp only [TEx.toPEx, meant, goCheck, goScope, h8, h5, t1]
      rfl
    · simp only [TEx.toPEx, meant, goEval, goMemberValues, h8, h5, goValue, t1]
      rfl
  | @parenthesized e f _ ih =>
    obtain ⟨x, e1, e2, c1, c2, c3, c4, c5⟩ := ih
    refine ⟨.paren x, ?_, rfl, c1, c2, ?_, c4, c5⟩
    · simp only [visitExpr, visitOne, evalTEx, e1, e2]
      rfl
    · show 6 ≤ 7
      omega
  | @relational op x y g g' f f' hx hy hc =>
    obtain ⟨u, u1, u2, u3, _, u4, _⟩ := hx.computes h
    obtain ⟨v, v1, v2, v3, _, v4, _⟩ := hy.computes h
    obtain ⟨o, o1, o2, o3⟩ := op.cmp
    refine ⟨.cmp o u v, ?_, rfl, compare_computes hx.tight hy.tight u3 v3 hc u4 v4 o2 fun vs => o3 _ _⟩
    have hd : op.tok ≠ .dot := by cases op <;> decide
    have hi : op.tok ≠ .isset := by cases op <;> decide
    simp only [visitExpr, visitTwo, evalTEx, if_neg hd, u1, v1, u2, v2, hc.unresolved, binaryTEx, if_neg hi, o1]
    rfl
  | @equality op x y g g' f f' hx hy hc =>
    obtain ⟨u, u1, u2, u3, _, u4, _⟩ := hx.computes h
    obtain ⟨v, v1, v2, v3, _, v4, _⟩ := hy.computes h
    obtain ⟨o, o1, o2, o3⟩ := op.cmp
    refine ⟨.cmp o u v, ?_, rfl, compare_computes hx.tight hy.tight u3 v3 hc u4 v4 o2 fun vs => o3 _ _⟩
    have hd : op.tok ≠ .dot := by cases op <;> decide
    have hi : op.tok ≠ .isset := by cases op <;> decide
    simp only [visitExpr, visitTwo, evalTEx, if_neg hd, u1, v1, u2, v2, hc.unresolved, binaryTEx, if_neg hi, o1]
    rfl
  | @and x y f f' _ _ hl hl' ihx ihy =>
    obtain ⟨u, u1, u2, u3⟩ := ihx
    obtain ⟨v, v1, v2, v3⟩ := ihy
    refine ⟨.logic .land u v, ?_, rfl, logic_computes (o := .land) u3 v3 rfl hl hl' fun vs => ?_⟩
    · simp only [visitExpr, visitTwo, evalTEx, u1, v1, u2, v2]
      rfl
    · cases f vs <;> rfl
  | @or x y f f' _ _ hl' ihx ihy =>
    obtain ⟨u, u1, u2, u3⟩ := ihx
    obtain ⟨v, v1, v2, v3⟩ := ihy
    refine ⟨.logic .lor u v, ?_, rfl, logic_computes (o := .lor) u3 v3 rfl ?_ hl' fun vs => ?_⟩
    · simp only [visitExpr, visitTwo, evalTEx, u1, v1, u2, v2]
      rfl
    · show 1 ≤ _
      cases x <;> simp [CExpr.tight]
    · cases f vs <;> rfl
  | @not x f _ hl ihx =>
    obtain ⟨u, u1, u2, ⟨r, r1, r2⟩, c2, c3, c4, c5⟩ := ihx
    refine ⟨.bang u, ?_, rfl, ⟨⟨.bool, none⟩, ?_, rfl⟩, ⟨c2, by omega⟩, Nat.le_refl _, ?_, fun vs => ?_⟩
    · simp only [visitExpr, visitOne, evalTEx, u1, u2]
      rfl
    · simp [TEx.res, r1, r2, bind, Except.bind]
    · simp only [TEx.toPEx, meant, goCheck, c4, Option.bind_some]
    · simp only [TEx.toPEx, meant, goEval, c5, Option.bind_some]
  | @isset x t n i k g f hx hl hc =>
    obtain ⟨u, u1, u2⟩ := hx.computes h
    obtain ⟨e1, e2, e3, e4, e5⟩ := hc.computes h (hx.owned h)
    refine ⟨_, ?_, rfl, isset_computes u2 hl e2 e3 e4 e5⟩
    simp only [visitExpr, visitTwo] at e1
    simp only [visitExpr, visitTwo]
    rw [operator_eval u1 e1 (Bool.and_false _) (by decide)]
    rfl

theorem CondMeans.code (h : Inside a P q owner ms) {e : CExpr} {f : Env → Bool} (hm : CondMeans a e f) :
    boolCode q owner ms (visitExpr e) = some f := by
  obtain ⟨x, e1, e2, ⟨r, r1, r2⟩, c2, c3, c4, c5⟩ := hm.computes h
  simp only [boolCode, goExpr, e1, r1, c2, if_true, c4, Option.map_some]
  congr 1
  funext vs
  rw [c5]
  cases f vs <;> rfl

/-- Conversion to a type that has the number. -/
theorem NumMeans.number (h : Inside a P q owner ms) {e : CExpr} {g : NumTy} {f : Env → Int} (hm : NumMeans a e g f) {t : GTy} {w : GoNum}
    (ht : t.int (goScope q ms) = some w) (hr : ∀ env, w.Holds (f env)) : numberCode q owner ms t w (visitExpr e) = some f := by
  obtain ⟨x, e1, e2, ⟨⟨r, r1, r2⟩, c2, c3, c4, c5⟩, _, h0, h1, h2⟩ := hm.computes h
  have hcv : (convert (goScope q ms) t (numTyping P a.schema g f)).isSome = true := by
    cases hg : g.go P a.schema with
    | none => simp [numTyping, hg, convert, representable, ht, hr ⟨[], []⟩]
    | some s =>
      have hs := h0 s hg
      have : g.int.isSome = true := by
        cases g with
        | const => cases hg
        | num => rfl
        | own => rfl
        | item => rfl
      have hv : representable (goScope q ms) (f ⟨[], []⟩) t = true := by simp [representable, ht, hr ⟨[], []⟩]
      cases g <;> simp [numTyping, hg, convert, ht, int_scope, hs, this, hv]
  simp only [numberCode, goExpr, e1, r1, c2, if_true, c4, Option.map_some, hcv]
  congr 1
  funext vs
  rw [c5]
  exact wrapTo_holds (hr vs)

theorem NumMeans.code (h : Inside a P q owner ms) {e : CExpr} {g : NumTy} {f : Env → Int} (hm : NumMeans a e g f)
    (hg : g.int ≠ some ⟨false, 64⟩) : lengthCode q owner ms (visitExpr e) = some f := by
  refine hm.number h rfl fun env => ?_
  obtain ⟨x, e1, e2, _, _, _, h1, h2⟩ := hm.computes h
  cases hi : g.int with
  | none =>
    have : g = .const := by cases g <;> first | rfl | cases hi
    exact ((h1 this).2 env).2
  | some w => exact held_int (h2 w hi).1 (fun e => hg (by rw [hi, e])) ((h2 w hi).2 env)

theorem NumMeans.width (h : Inside a P q owner ms) {e : CExpr} {g : NumTy} {f : Env → Int} (hm : NumMeans a e g f)
    (hr : ∀ env, 0 ≤ f env ∧ f env < 256) : widthCode q owner ms (visitExpr e) = some fun env => (f env).toNat := by
  have := hm.number h (t := .num ⟨false, 8⟩) rfl hr
  simp only [widthCode, this, Option.map_some]

/-- What is not `@index` does not depend on the index. -/
theorem indexedArg_other {q : APackage} {owner : Option (List Char)} {ms : Members} {isArray : Bool} {t : ATypeRef} {e : AExpr} {v : Env → Val}
    (h : argCode q owner ms t e = some v) : indexedArg q owner ms isArray t e = some fun env _ => v env := by
  have hi : e.isIndex = false := by
    by_contra hc
    have : ∃ s, e = .leaf .index s := by
      unfold AExpr.isIndex at hc
      split at hc
      · exact ⟨_, rfl⟩
      · exact absurd rfl hc
    obtain ⟨s, rfl⟩ := this
    have he : evalTEx q owner (.leaf .index s) = none := rfl
    simp only [argCode, numberCode, boolCode, goExpr, he] at h
    split at h
    · cases h
    · split at h
      · cases h
      · split at h <;> cases h
  simp only [indexedArg, hi, Bool.false_eq_true, if_false, h, Option.map_some]

theorem ArgMeans.code (h : Inside a P q owner ms) {isArray : Bool} {c : CParam} {x : CTypeArg} {v : Env → Nat → Val} (hm : ArgMeans a isArray c x v) :
    indexedArg q owner ms isArray (finalParam P c).type (visitTypeArg x) = some v := by
  cases hm with
  | @index r n k o w h0 h1 h2 =>
    obtain ⟨_, ⟨t, t1, t2, t3⟩⟩ := h.numbers h1 h2
    rw [(of_ne_const o w).2] at t3
    have e1 : (finalParam P ⟨r, n⟩).type = finalRef P r := rfl
    have e2 : (visitTypeArg (.expression .index)).isIndex = true := rfl
    subst h0
    simp only [indexedArg, e1, e2, t2, t3, if_true, Option.bind_some]
  | @num r n k o w e g f h1 h2 h3 h4 =>
    obtain ⟨_, ⟨t, t1, t2, t3⟩⟩ := h.numbers h1 h2
    rw [(of_ne_const o w).2] at t3
    have e1 : (finalParam P ⟨r, n⟩).type = finalRef P r := rfl
    refine indexedArg_other (v := fun env => .bits w.width (BitVec.ofInt w.width (f env))) ?_
    simp only [argCode, e1, t2, t3, visitTypeArg, h3.number h (t := t) (by rw [int_scope]; exact t3) h4, Option.map_some]
  | @bool r n e f h1 h2 =>
    have e1 : (finalParam P ⟨r, n⟩).type = finalRef P r := rfl
    have : GTy.bool.int (goTypes q) = none := rfl
    refine indexedArg_other (v := fun env => .bool (f env)) ?_
    simp only [argCode, e1, (h.bools h1).2, this, if_true, visitTypeArg, h2.code h, Option.map_some]

theorem ArgsMean.code (h : Inside a P q owner ms) {isArray : Bool} {cs : List CParam} {xs : List CTypeArg} {vs : Env → Nat → List Val}
    (hm : ArgsMean a isArray cs xs vs) :
    ∃ fs, argCodes q owner ms isArray (cs.map (finalParam P)) (xs.map visitTypeArg) = some fs ∧ ∀ env i, (fs.map fun f => f env i) = vs env i := by
  induction hm with
  | nil => exact ⟨[], rfl, fun _ _ => rfl⟩
  | @cons c cs x xs v vs h1 _ ih =>
    obtain ⟨fs, e1, e2⟩ := ih
    refine ⟨v :: fs, ?_, fun env i => by simp [e2]⟩
    simp only [List.map_cons, argCodes, h1.code h, e1]

end Names

end Verif
