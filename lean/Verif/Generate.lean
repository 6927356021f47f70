import Verif.Lexer
import Verif.DeclParser
import Verif.GoNames
import Verif.Select
import Verif.Scope
import Verif.Literals
import Verif.Props.GoValues

/-!
# From the text of a schema to the generated methods

Source: /repo/internal/model/model.go:24-135 (the steps from files to a model), /repo/internal/ast/package.go:352-419 and the templates under
/repo/internal/generator/templates (what is generated for a declaration).

The other modules model one step each: reading of tokens (`Verif.Lexer`), of declarations (`Verif.DeclParser`), the syntax tree
(`Verif.FrontEnd`), resolution of types (`Verif.Resolve`), the choice of functions for builtin types (`Verif.Select`), what the generated
methods do (`Verif.Schema`).  Here they are put one after another, for a schema of one file without imports, with structs, unions, choices, enums,
bitmasks, subtypes and constants.  Optional clauses, array lengths, bit widths and type arguments are expressions over parameters and fields that
are numbers, truth values, enums or bitmasks, literals, items of enums, lengths of arrays, arithmetic with constant divisors, `&`, `|`, `^`, shifts by
constants, comparisons, `&&`, `||`, `!` and parentheses; the labels of choices are literals or items of enums.  Templates are left out; `none` is the result for a schema with one of them.  That the names of a schema stay different in Go is not asked for here (C72, C74).
The steps that only concern values of constants and items (C87, C88) or that check templates are not repeated: a schema that they reject is not
compiled by the program.
-/

namespace Verif

/-- The symbols that end the loop of /repo/internal/ast/package.go:381-409 with a type that has methods. -/
def ADecl.hasMethods : ADecl → Bool
  | .struct .. | .enum .. | .union .. | .bitmask .. | .choice .. => true
  | _ => false

/-- /repo/internal/ast/package.go:352-419 `GetOriginalType` for a reference to the own package; the first number is how many more subtypes may be
followed, the result the type and `RequiresCast`.  `Verif.Original` has the same loop for all packages, without the arguments of references. -/
def followRef (p : APackage) : Nat → Bool → ATypeRef → Option (ATypeRef × Bool)
  | k, cast, t =>
    if t.isBuiltin then some (t, cast)
    else if t.pkg = p.name then
      match p.typeScope t.name with
      | some (.subtype _ t') =>
        match k with
        | 0 => none
        | k + 1 => followRef p k true t'
      | some d => if d.hasMethods then some (t, cast) else none
      | none => none
    else none

/-- The builtin type whose values a field of builtin type has: all the calls that the templates write for it have to compile.  What they do is
that of `Elem`, by C79.  (For an array only the last one is written.)  A bit width that is an expression is taken as 64; the width when it is
evaluated is in `Exprs`. -/
def valueCode (t : ATypeRef) (cast : Bool) : Option Elem := do
  let g ← builtinGoType t
  let _ ← (writeCall t).write g cast 64
  let _ ← (readCall t).read g 64
  let _ ← (sizeCall t).eval g cast 64
  arrayTraitsOf t 64

/-- The declarations of a package that Go types with methods are generated for, /repo/internal/generator/templates/package.go.tmpl. -/
def APackage.methodDecls (p : APackage) : List ADecl := p.decls.filter ADecl.hasMethods

/-- The number of the declaration that a name stands for, /repo/internal/ast/package.go:63-104. -/
def APackage.methodIndex (p : APackage) (name : List Char) : Option Nat :=
  match p.typeScope name with
  | some d => p.methodDecls.findIdx? fun e => e.kind == d.kind && e.name == name
  | none => none

/-- `TemplateArguments` of /repo/internal/ast/type_reference.go:3-19 -/
def ATypeRef.templateArguments : ATypeRef → List ATypeRef
  | .mk _ _ _ _ targs _ _ => targs

/-- `TypeArguments` of /repo/internal/ast/type_reference.go:3-19 -/
def ATypeRef.typeArguments : ATypeRef → List AExpr
  | .mk _ _ _ _ _ args _ => args

/-- `LengthExpression` of /repo/internal/ast/type_reference.go:3-19 -/
def ATypeRef.lengthExpression : ATypeRef → Option AExpr
  | .mk _ _ _ _ _ _ length => length

/-- Whether the Go code for a reference names a Go type, /repo/internal/ast/package.go:110-131 `GoType`: that of the declaration that is found. -/
def APackage.namesGoType (p : APackage) (t : ATypeRef) : Bool :=
  t.isBuiltin || (match p.typeScope t.name with
    | some d => goUserType p.name t.pkg t.name == some d.goName
    | none => false)

/-- The type of a field, encode:38-92: native code for builtin types, the methods of the type for others.  `t` is the type after
`CapitalizeNames`, /repo/internal/model/transform.go:39-124. -/
def fieldType (p : APackage) (t : ATypeRef) : Option (FTy × Bool) :=
  match followRef p 100 false t with
  | none => none
  | some (native, cast) =>
    if !native.templateArguments.isEmpty || !p.namesGoType t then none
    else if native.isBuiltin then (valueCode native cast).map fun k => (.prim k, cast)
    else (p.methodIndex native.name).map fun i => (.comp i, cast)

/-! ## Expressions -/

/-- The type of a parameter or field in an expression, with subtypes followed, /repo/internal/ast/expression.go:145-169.  The code looks up 100
names, the last of which may be that of an enum or bitmask; here at most 99 subtypes are followed.  Compound types are left out. -/
def exprType (p : APackage) (t : ATypeRef) : Option DTy :=
  match followRef p 99 false t with
  | some (u, cast) =>
    if u.isBuiltin then
      if u.dynamic then none
      else some (if cast then .sub (title t.name) ⟨String.ofList u.name, u.bits, false⟩ else .builtin ⟨String.ofList u.name, u.bits, false⟩)
    else match p.typeScope u.name with
      | some (.enum n _ _) => some (.enum (title n))
      | some (.bitmask n _ _) => some (.mask (title n))
      | _ => none
  | none => none

/-- What an identifier in an expression of a declaration stands for: /repo/internal/ast/package.go:206-228 with the scope that
/repo/internal/ast/struct.go:36 and choice.go:86 set.  Unions, which are evaluated before structs and choices, set none. -/
def memberNamed (p : APackage) (compound : Option (List Char)) (name : List Char) : Option SSym :=
  (getSymbolIn [p] (fun _ => p.decls.filter fun d => d.kind == .enum) 1 (fun _ => compound) p name).map Found.sym

/-- The Go expression for a parameter or field and its type.  Optional fields and arrays are left out (their Go types are pointers
and slices), as are functions, constants, enum items and types. -/
def memberEx (p : APackage) : SSym → Option TEx
  | .param a => (exprType p a.type).map fun n => .sym (.member (title a.name)) n
  | .field f => if f.optional || f.array.isSome then none else (exprType p f.type).map fun n => .sym (.member (title f.name)) n
  | _ => none

/-- The comparison operators, /repo/internal/generator/expression.go:387-398 with the operator of 240-249. -/
def cmpOp : Tok → Option GOp
  | .lt => some .lt | .le => some .le | .gt => some .gt | .ge => some .ge | .eq => some .eq | .ne => some .ne
  | _ => none

/-- `&&` and `||`, /repo/internal/generator/expression.go:383-386. -/
def logicOp : Tok → Option GOp
  | .logicalAnd => some .land | .logicalOr => some .lor
  | _ => none

/-- `+`, `-`, `*`, `/` and `%`, /repo/internal/generator/expression.go:361-372 with the operator of 136-145. -/
def arithOp : Tok → Option GOp
  | .plus => some .add | .minus => some .sub | .multiply => some .mul | .divide => some .div | .modulo => some .mod
  | _ => none

/-- `&`, `|` and `^`, /repo/internal/generator/expression.go:264-269. -/
def bitOp : Tok → Option GOp
  | .and => some .band | .or => some .bor | .xor => some .bxor
  | _ => none

/-- `<<` and `>>`, /repo/internal/generator/expression.go:258-263. -/
def shiftOp : Tok → Option GOp
  | .lshift => some .shl | .rshift => some .shr
  | _ => none

/-- The kinds of literals. -/
def litKind : Tok → Option LitKind
  | .binaryLiteral => some .binary | .octalLiteral => some .octal | .decimalLiteral => some .decimal | .hexLiteral => some .hexadecimal
  | _ => none

/-- `FullyResolved` without operators. -/
def TEx.isResolved : TEx → Bool
  | .const _ _ | .lit _ _ => true
  | _ => false

/-- An integer literal, also in parentheses, which is evaluated, /repo/internal/ast/expression.go:767-917. -/
def literalValue : AExpr → Option Int
  | .leaf k t => match litKind k with
    | some l => match intLiteral l t with
      | .ok z => some z
      | .error _ => none
    | none => none
  | .one .lparen _ a => literalValue a
  | _ => none

/-- The number of an item with its value, if it is written there (`FullyResolved`), /repo/internal/ast/enum.go:31-60; the first argument is the
number of the item before.  Values that are not literals are left out (C87). -/
def itemNumber : Option Int → List AItem → List Char → Option (Int × Bool)
  | _, [], _ => none
  | prev, i :: is, name =>
    match i.value with
    | none =>
      let z := match prev with
        | none => 0
        | some z => wrapTo ⟨true, 64⟩ (z + 1)
      if i.name = name then some (z, false) else itemNumber (some z) is name
    | some e => match literalValue e with
      | none => none
      | some z => if i.name = name then some (z, true) else itemNumber (some z) is name

/-- The number of a value of a bitmask, /repo/internal/ast/bitmask.go:14-49; the first argument is the number of the value before.  Values that are not
literals are left out (C87). -/
def flagNumber : Option Int → List AItem → List Char → Option Int
  | _, [], _ => none
  | prev, i :: is, name =>
    match i.value with
    | none =>
      let z := match prev with
        | none => 1
        | some z => (findNextFreeBit (BitVec.ofInt 64 z)).toInt
      if i.name = name then some z else flagNumber (some z) is name
    | some e => match literalValue e with
      | none => none
      | some z => if i.name = name then some z else flagNumber (some z) is name

/-- The values of a bitmask. -/
def ADecl.flags : ADecl → List AItem
  | .bitmask _ _ vs => vs
  | _ => []

/-- The enums of a package, in the order of the file; the order does not matter here. -/
def enumsOf (p : APackage) : EnumOrder := fun _ => p.decls.filter fun d => d.kind == .enum

/-- A Go type of an enum or bitmask, with its package, under the name it has in the schema.  That the names stay different in Go is not asked for
here. -/
def APackage.typeKey (p : APackage) (name : List Char) : Text := p.name ++ '.' :: name

/-- A value of a bitmask, /repo/internal/ast/expression.go:392-399, which is always printed by name, /repo/internal/generator/expression.go:96-98.  Values that
are named through a subtype are left out, as are those in expressions of unions, which are evaluated without the union as scope and before the
bitmasks are (/repo/internal/model/model.go:115-138): an implicit value is a nil pointer then. -/
def flagEx (p : APackage) (compound : Option (List Char)) (d : ADecl) (i : AItem) : AExpr → Option TEx
  | .leaf _ t =>
    if t = d.name ∧ compound.isSome then
      (flagNumber none d.flags i.name).map fun z => .item (title d.name ++ title i.name) (p.typeKey d.name) true z
    else none
  | _ => none

/-- What a dot expression stands for, /repo/internal/ast/expression.go:369-399: the number of an item, if its value is written there; otherwise the
Go constant of the item, which is printed by name, /repo/internal/generator/expression.go:60-95.  Constants that are named through a subtype, which are
converted to it, and members of compound types are left out. -/
def dotEx (p : APackage) (compound : Option (List Char)) (k : Tok) (ks : List Char) (a b : AExpr) : Option TEx :=
  match evalSymbol [p] (enumsOf p) 1 (fun _ => compound) p (.two k ks a b) with
  | some (r, _) => match r.sym with
    | .item d i => match itemNumber none d.enumItems i.name with
      | some (z, true) => some (.const z none)
      | some (z, false) => match a with
        | .leaf _ t => if t = d.name then some (.item (enumItemGoName (title d.name) i.name) (p.typeKey d.name) false z) else none
        | _ => none
      | none => none
    | .value d i => flagEx p compound d i a
    | _ => none
  | none => none

/-- An operator between operands that are not both resolved.  Divisors and numbers of bits to shift by that are not constant are left out: they
might be zero or negative, which panics. -/
def binaryTEx (k : Tok) (x y : TEx) : Option TEx :=
  if k = .isset then some (.isset x y)
  else match cmpOp k, logicOp k, arithOp k, bitOp k, shiftOp k with
  | some o, _, _, _, _ => some (.cmp o x y)
  | _, some o, _, _, _ => some (.logic o x y)
  | _, _, some o, _, _ => if (o = .div || o = .mod) && !y.isResolved then none else some (.arith o x y)
  | _, _, _, some o, _ => some (.bit o x y)
  | _, _, _, _, some o => if y.isResolved then some (.shift o x y) else none
  | _, _, _, _, _ => none

/-- `lengthof`, /repo/internal/ast/expression.go:328-365, of a field that is an array.  The operand is evaluated first, which takes its type to be found
(lines 143-168).  Optional fields are left out (their Go types are pointers). -/
def lengthEx (p : APackage) (compound : Option (List Char)) : AExpr → Option TEx
  | .leaf k t =>
    if k = .id then
      match memberNamed p compound t with
      | some (.field f) => if !f.optional && f.array.isSome && (followRef p 99 false f.type).isSome then some (.lengthof (.member (title f.name))) else none
      | _ => none
    else none
  | _ => none

/-- /repo/internal/ast/expression.go:767-917 `Evaluate` for the expressions of a declaration.  Operators between literals only, which are evaluated
(`Verif.Fold`), are left out. -/
def evalTEx (p : APackage) (compound : Option (List Char)) : AExpr → Option TEx
  | .leaf k t =>
    if k = .id then
      (memberNamed p compound t).bind (memberEx p)
    else match litKind k with
      | some l => match intLiteral l t with
        | .ok z => some (.const z none)
        | .error _ => none
      | none => none
  | .one k _ a =>
    if k = .lengthof then lengthEx p compound a
    else match evalTEx p compound a with
    | some x =>
      -- generator/expression.go:330-343: what is resolved is printed as its value
      if k = .lparen then some (if x.isResolved then x else .paren x)
      else if k = .bang then (if x.isResolved then none else some (.bang x))
      else none
    | none => none
  | .two k ks a b =>
    if k = .dot then dotEx p compound k ks a b
    else match evalTEx p compound a, evalTEx p compound b with
    | some x, some y =>
      if x.isResolved && y.isResolved then none
      else binaryTEx k x y
    | _, _ => none
  | .three .. => none

/-- The predeclared types of Go. -/
def predeclared (t : Text) : Option GTy :=
  match [(false, 8), (false, 16), (false, 32), (false, 64), (true, 8), (true, 16), (true, 32), (true, 64)].find? fun n => goNumText ⟨n.1, n.2⟩ == t with
  | some n => some (.num ⟨n.1, n.2⟩)
  | none =>
    if t = "float32".toList then some (.flt 32)
    else if t = "float64".toList then some (.flt 64)
    else if t = "bool".toList then some .bool
    else if t = "string".toList then some .str
    else if t = "int".toList then some (.named "int".toList)
    else none

/-- The parameters and fields of a declaration, in the order of the file. -/
structure Members where
  params : List AParam
  fields : List AField

/-- The field of a generated Go struct with a Go name that a parameter became, with its position. -/
def goParamNamed (ps : List AParam) (t : Text) : Option (AParam × Nat) := ps.zipIdx.find? fun f => title f.1.name == t

/-- The field of a generated Go struct with a Go name that a field became, with its position. -/
def goFieldNamed (fs : List AField) (t : Text) : Option (AField × Nat) := fs.zipIdx.find? fun f => title f.1.name == t

/-- The integer type behind the type of an enum or bitmask, enum.go.tmpl:7, bitmask.go.tmpl:6. -/
def ADecl.underlying (p : APackage) : ADecl → Option GoNum
  | .enum _ t _ | .bitmask _ t _ => match followRef p 100 false t with
    | some (u, _) => if u.isBuiltin && !u.dynamic then goIntType ⟨String.ofList u.name, u.bits, false⟩ else none
    | none => none
  | _ => none

/-- The types that the expressions of a package can use. -/
def goTypes (p : APackage) : GoEnv where
  tyName := predeclared
  under t := if t = "int".toList then some ⟨true, 64⟩ else (p.decls.find? fun d => p.typeKey d.name == t).bind (ADecl.underlying p)
  prim _ := none
  elem _ := none

/-- The Go type of a parameter or field that is a number, a truth value, an enum or a bitmask, /repo/internal/ast/package.go:110-131 after
`CapitalizeNames`.  Subtypes are aliases, package.go.tmpl:11. -/
def goTypeOf (p : APackage) (t : ATypeRef) : Option GTy :=
  if p.namesGoType (capRef t) then
    match followRef p 99 false t with
    | some (u, _) =>
      if u.isBuiltin then
        if u.dynamic then none else predeclared (goTypeText ⟨String.ofList u.name, u.bits, false⟩)
      else match p.typeScope u.name with
        | some (.enum n _ _) | some (.bitmask n _ _) => some (.named (p.typeKey n))
        | _ => none
    | none => none
  else none

/-- The Go constant of a value of a bitmask with a name, its type and value, bitmask.go.tmpl:9-16; Go rejects a value that is not of the type. -/
def goFlag (p : APackage) (t : Text) : Option (Text × Int) :=
  match (p.decls.flatMap fun d => d.flags.map fun i => (d, i)).find? fun c => title c.1.name ++ title c.2.name == t with
  | some (d, i) => match flagNumber none d.flags i.name, (goTypes p).under (p.typeKey d.name) with
    | some z, some g => if g.Holds z then some (p.typeKey d.name, z) else none
    | _, _ => none
  | none => none

/-- The Go constant with a name, its type and value, enum.go.tmpl:8-17; Go rejects a value that is not of the type. -/
def goConstant (p : APackage) (t : Text) : Option (Text × Int) :=
  match ((enumsOf p p.name).flatMap fun d => d.enumItems.map fun i => (d, i)).find? fun c => enumItemGoName (title c.1.name) c.2.name == t with
  | some (d, i) => match itemNumber none d.enumItems i.name, (goTypes p).under (p.typeKey d.name) with
    | some (z, _), some g => if g.Holds z then some (p.typeKey d.name, z) else none
    | _, _ => none
  | none => goFlag p t

/-- The names that an expression in a method can use, as Go declares them: `v` is the struct, struct.go.tmpl:5-13, union.go.tmpl:17-25,
choice.go.tmpl:6-20.  Fields that are slices have elements; nothing is known of elements that are not of the types above.  Fields that are pointers or
have other types are left out. -/
def goScope (p : APackage) (ms : Members) : GoEnv :=
  { goTypes p with
    prim := fun g => match g with
      | .sel (.name v) t =>
        if v = vName then
          match goParamNamed ms.params t with
          | some (a, _) => (goTypeOf p a.type).map fun g => .typed g none
          | none => match goFieldNamed ms.fields t with
            | some (f, _) => if f.optional || f.array.isSome then none else (goTypeOf p f.type).map fun g => .typed g none
            | none => none
        else none
      | .name t => (goConstant p t).map fun c => .typed (.named c.1) (some c.2)
      | _ => none
    elem := fun g => match g with
      | .sel (.name v) t =>
        if v = vName then
          match goParamNamed ms.params t, goFieldNamed ms.fields t with
          | none, some (f, _) => if !f.optional && f.array.isSome && p.namesGoType (capRef f.type) then some ((goTypeOf p f.type).getD (.named [])) else none
          | _, _ => none
        else none
      | _ => none }

/-- A value of a type as Go sees it. -/
def goValue (p : APackage) (t : ATypeRef) (v : Val) : Option GVal :=
  match goTypeOf p t with
  | none => none
  | some t => match t.int (goTypes p) with
    | some g => some (.int (if g.signed then (v.asBits g.width).toInt else ((v.asBits g.width).toNat : Int)))
    | none => if t = .bool then some (.bool v.asBool) else none

/-- The values of parameters and fields when an expression is evaluated. -/
def goMemberValues (p : APackage) (ms : Members) (env : Env) : GoState where
  prim g := match g with
    | .sel (.name v) t =>
      if v = vName then
        match goParamNamed ms.params t with
        | some (a, i) => goValue p a.type (env.params.getD i .none)
        | none => match goFieldNamed ms.fields t with
          | some (f, i) => goValue p f.type (env.fields.getD i .none)
          | none => none
      else none
    | .name t => (goConstant p t).map fun c => .int c.2
    | _ => none
  elem _ _ := none
  len g := match g with
    | .sel _ t => match goFieldNamed ms.fields t with
      | some (_, i) => match env.fields.getD i .none with
        | .list vs => vs.length
        | _ => 0
      | none => 0
    | _ => 0
  numBits z := z

/-- Whether the text reads as what is meant (C55). -/
def PEx.decSafe : (e : PEx) → Decidable e.Safe
  | .num _ | .word _ | .member _ => inferInstanceAs (Decidable True)
  | .paren e | .lengthof e | .valueof e | .numbits e => e.decSafe
  | .call e | .dot e _ => @instDecidableAnd _ _ e.decSafe _
  | .index a b => @instDecidableAnd _ _ a.decSafe (@instDecidableAnd _ _ b.decSafe _)
  | .isset a b => @instDecidableAnd _ _ a.decSafe (@instDecidableAnd _ _ b.decSafe _)
  | .bang e => @instDecidableAnd _ _ e.decSafe _
  | .bin _ _ _ a b => @instDecidableAnd _ _ a.decSafe (@instDecidableAnd _ _ b.decSafe _)
  | .tilde _ | .sign _ _ | .tern _ _ _ _ => inferInstanceAs (Decidable False)

instance : DecidablePred PEx.Safe := PEx.decSafe

section
variable (p : APackage) (compound : Option (List Char)) (ms : Members)

/-- An expression that is evaluated without error, whose Go text is read as what is meant, with what Go makes of it. -/
def goExpr (e : AExpr) : Option (GEx × GTyping) :=
  match evalTEx p compound e with
  | none => none
  | some x => match x.res with
    | .error _ => none
    | .ok _ => if x.toPEx.Safe then (goCheck (goScope p ms) (meant x.toPEx)).map fun t => (meant x.toPEx, t) else none

/-- An expression that has to be a truth value. -/
def boolCode (e : AExpr) : Option (Env → Bool) :=
  match goExpr p compound ms e with
  | some (g, .typed .bool _) => some fun env => goEval (goScope p ms) (goMemberValues p ms env) g == some (.bool true)
  | _ => none

/-- The conversion of an expression to a Go type of integers `g`, which is called `t`: it has to be an integer, or a constant that is one of `g`.
The expressions modelled here do not panic. -/
def numberCode (t : GTy) (g : GoNum) (e : AExpr) : Option (Env → Int) :=
  match goExpr p compound ms e with
  | some (x, ty) =>
    if (convert (goScope p ms) t ty).isSome then
      some fun env => match goEval (goScope p ms) (goMemberValues p ms env) x with
        | some (.int z) => wrapTo g z
        | _ => 0
    else none
  | none => none

/-- `if {{ goExpression … }} {`, encode:24-26. -/
def conditionCode (e : AExpr) : Option (Env → Bool) := boolCode p compound ms e

/-- `int({{ goExpression … }})`, array_init:17, encode:42. -/
def lengthCode (e : AExpr) : Option (Env → Int) := numberCode p compound ms (.named "int".toList) ⟨true, 64⟩ e

/-- `uint8({{ goExpression … }})`, encode:4-7. -/
def widthCode (e : AExpr) : Option (Env → Nat) := (numberCode p compound ms (.num ⟨false, 8⟩) ⟨false, 8⟩ e).map fun f env => (f env).toNat

/-- `{{ goType … }}({{ goExpression … }})`, encode_compound_parameters:13, decode_compound_parameters:20-22, for a parameter of type `t`; parameters
that are not numbers, truth values, enums or bitmasks are left out. -/
def argCode (t : ATypeRef) (e : AExpr) : Option (Env → Val) :=
  match goTypeOf p t with
  | none => none
  | some t => match t.int (goTypes p) with
    | some g => (numberCode p compound ms t g e).map fun f env => .bits g.width (BitVec.ofInt g.width (f env))
    | none => if t = .bool then (boolCode p compound ms e).map fun f env => .bool (f env) else none

/-- An argument that is `@index`: the Go variable `index` of the loop over the elements, /repo/internal/generator/expression.go:397-399. -/
def AExpr.isIndex : AExpr → Bool
  | .leaf .index _ => true
  | _ => false

/-- An argument with the index of the element, encode_compound_parameters:6-19, decode_compound_parameters:7-29: `index` is a variable of type `int`
if the field is an array, and undefined otherwise.  `@index` as part of another expression is left out. -/
def indexedArg (isArray : Bool) (t : ATypeRef) (e : AExpr) : Option (Env → Nat → Val) :=
  if e.isIndex then
    match isArray, (goTypeOf p t).bind fun t => t.int (goTypes p) with
    | true, some g => some fun _ i => .bits g.width (BitVec.ofNat g.width i)
    | _, _ => none
  else (argCode p compound ms t e).map fun f env _ => f env

/-- All type arguments, for the parameters of the type. -/
def argCodes (isArray : Bool) : List AParam → List AExpr → Option (List (Env → Nat → Val))
  | [], [] => some []
  | a :: as, e :: es =>
    match indexedArg p compound ms isArray a.type e, argCodes isArray as es with
    | some f, some fs => some (f :: fs)
    | _, _ => none
  | _, _ => none

end

/-- The parameters of a declaration, /repo/internal/ast/package.go:440-450. -/
def ADecl.typeParams : ADecl → List AParam
  | .struct _ _ ps _ _ | .union _ _ ps _ _ | .choice _ _ ps _ _ _ _ => ps
  | _ => []

/-- /repo/internal/ast/package.go:425-456 `GetTypeParameter` for a type of the own package, without the comparison of the numbers, which is in
`argCodes`. -/
def refParameters (p : APackage) (t : ATypeRef) : Option (List AParam) :=
  match followRef p 100 false t with
  | some (native, _) => if native.isBuiltin then none else (p.typeScope native.name).map ADecl.typeParams
  | none => none

/-- The code for an expression that need not be there. -/
def optionalCode {α : Type} (code : AExpr → Option α) : Option AExpr → Option (Option α)
  | none => some none
  | some e => (code e).map some

/-- The type arguments of a field, encode_compound_parameters:6-19: nothing without arguments. -/
def fieldArgs (p : APackage) (owner : Option (List Char)) (ms : Members) (isArray : Bool) (t : ATypeRef) : Option (Option (Env → Nat → List Val)) :=
  if t.typeArguments.isEmpty then some none
  else match refParameters p t with
    | some ps => (argCodes p owner ms isArray ps t.typeArguments).map fun fs => some fun env i => fs.map fun f => f env i
    | none => none

/-- An expression that is evaluated, whatever is made of it, /repo/internal/ast/field.go:36-50. -/
def evaluates (p : APackage) (owner : Option (List Char)) (e : AExpr) : Option Unit :=
  match evalTEx p owner e with
  | none => none
  | some x => match x.res with
    | .error _ => none
    | .ok _ => some ()

/-- A field of a struct, union or choice, given with its scope and members, /repo/internal/ast/field.go:8-59.  Initializers and
constraints are evaluated, but not looked at when encoding and decoding; no code is generated for constraints.  Simplified: that the code for an
initializer, default_values.go.tmpl:20-22, compiles is not checked. -/
def fieldCode (p : APackage) (owner : Option (List Char)) (ms : Members) (f : AField) : Option Field := do
  let _ ← optionalCode (evaluates p owner) f.initializer
  let clause ← optionalCode (conditionCode p owner ms) f.optionalClause
  let _ ← optionalCode (evaluates p owner) f.constraint
  let length ← optionalCode (lengthCode p owner ms) (f.array.bind AArray.length)
  let width ← optionalCode (widthCode p owner ms) f.type.lengthExpression
  let args ← fieldArgs p owner ms f.array.isSome (capField f).type
  (fieldType p (capField f).type).map fun ty =>
    ⟨fun env => ⟨(clause.map fun c => c env).getD true, width.map fun w => w env, length.map fun l => l env, args.map fun a => a env⟩,
      f.alignment, f.optional, ty.1, f.array.map AArray.packed, ty.2⟩

/-! ## Declarations -/

/-- The Go type of an enum or bitmask and its methods, enum:114-218, bitmask:24-128: the calls have to compile. -/
def itemCode (p : APackage) (bitmask : Bool) (t : ATypeRef) : Option Elem := do
  let r ← followRef p 100 false t
  let g ← builtinGoType r.1
  let w ← (if bitmask then bitmaskWrite t r.1 else enumWrite r.1)
  let _ ← w.write g true 0
  let c ← (if bitmask then bitmaskRead r.1 else enumRead r.1)
  let _ ← c.read g 0
  let _ ← (if bitmask then bitmaskSize r.1 g 0 else enumSize r.1 g 0)
  if r.2 then none else enumTraits r.1 0

/-- The selector of a choice, `switch (v.{{ $expr.ResultSymbol.Symbol.Name }})`, choice.go.tmpl:38: a parameter that is a number, an enum or a
bitmask, with the integer type behind its Go type.  Fields as selectors are left out. -/
def selectorCode (p : APackage) (owner : Option (List Char)) (ms : Members) (e : AExpr) : Option (AParam × GoNum × (List Val → Int)) :=
  match e with
  | .leaf .id t =>
    match memberNamed p owner t with
    | some (.param a) =>
      match goExpr p owner ms e with
      | some (x, .typed t _) => (t.int (goTypes p)).map fun g => (a, g, fun vs => match goEval (goScope p ms) (goMemberValues p ms ⟨vs, []⟩) x with
        | some (.int z) => z
        | _ => 0)
      | _ => none
    | _ => none
  | _ => none

/-- A label of a choice, which is evaluated (choice.go:52-82, 110-117): a number, or the name of an item of the enum that is the type of the
selector. -/
def labelCode (p : APackage) (owner : Option (List Char)) (selector : AParam) (e : AExpr) : Option Int :=
  match e with
  | .leaf .id _ =>
    match labelSymbol [p] (enumsOf p) 1 (fun _ => owner) p (some (.param selector)) e with
    | some (.item d i) => (itemNumber none d.enumItems i.name).map Prod.fst
    | _ => none
  | _ => match evalTEx p owner e with
    | some (.const z _) => some z
    | _ => none

/-- A field that need not be there. -/
def caseField (p : APackage) (owner : Option (List Char)) (ms : Members) : Option AField → Option (Option Field)
  | none => some none
  | some f => (fieldCode p owner ms f).map some

/-- A case of a choice, choice.go.tmpl:39-44. -/
def caseCode (p : APackage) (owner : Option (List Char)) (ms : Members) (selector : AParam) (c : AChoiceCase) : Option (List Int × Option Field) := do
  let ls ← visitAll (labelCode p owner selector) c.conditions
  let f ← caseField p owner ms c.field
  return (ls, f)

/-- The `case` lines of the Go `switch`, choice.go.tmpl:41: the first label of every case with a field. -/
def goLabels (cs : List (List Int × Option Field)) : List (Option Int) := (cs.filter fun c => c.2.isSome).map fun c => c.1.head?

/-- Go rejects a `switch` with labels that are not of its type, and with the same label twice,
https://go.dev/ref/spec#Expression_switches. -/
def switchCompiles (g : GoNum) (cs : List (List Int × Option Field)) : Bool :=
  decide (goLabels cs).Nodup && (goLabels cs).all fun l => match l with
    | some z => decide (g.Holds z)
    | none => false

/-- All fields of a choice, choice.go.tmpl:10-19. -/
def choiceMembers (cs : List AChoiceCase) (d : Option AChoiceCase) : List AField :=
  cs.filterMap AChoiceCase.field ++ (d.bind AChoiceCase.field).toList

/-- The methods of a choice, choice.go.tmpl. -/
def choiceCode (p : APackage) (n : List Char) (ps : List AParam) (e : AExpr) (cs : List AChoiceCase) (d : Option AChoiceCase) : Option Decl := do
  let sel ← selectorCode p (some n) ⟨ps, choiceMembers cs d⟩ e
  let cases ← visitAll (caseCode p (some n) ⟨ps, choiceMembers cs d⟩ sel.1) cs
  let default ← caseField p (some n) ⟨ps, choiceMembers cs d⟩ (d.bind AChoiceCase.field)
  if switchCompiles sel.2.1 cases then some (.choice sel.2.2 cases default) else none

/-- The methods of a declaration, struct.go.tmpl, union.go.tmpl, choice.go.tmpl, enum.go.tmpl, bitmask.go.tmpl. -/
def declCode (p : APackage) : ADecl → Option Decl
  | .struct n [] ps fs _ => (visitAll (fieldCode p (some n) ⟨ps, fs⟩) fs).map .struct
  | .union _ [] ps fs _ => (visitAll (fieldCode p none ⟨ps, fs⟩) fs).map .union
  | .choice n [] ps e cs d _ => choiceCode p n ps e cs d
  | .enum _ t _ => (itemCode p false t).map .enum
  | .bitmask _ t _ => (itemCode p true t).map .enum
  | _ => none

/-- All declarations with methods, in the order of the file. -/
def packageCode (p : APackage) : Option (List Decl) := visitAll (declCode p) p.methodDecls

/-- The methods by number, for `methods`. -/
def byNumber (ds : List Decl) : Nat → Decl := fun i => ds.getD i (.struct [])

/-- From a file to the methods, /repo/internal/model/model.go:24-135: reading, the syntax tree, resolution of types, generation. -/
def compileText (s : List Char) : Option (List Decl) := do
  let ts ← lex s
  let c ← parsePackage ts
  let ps ← loadPackages [] [c]
  let ps ← resolveModel ps
  let p ← ps.head?
  packageCode p

end Verif
