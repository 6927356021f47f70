import Verif.Generate

/-!
# The functions of a schema

Source: /repo/internal/generator/templates/functions.go.tmpl:1-10 (the Go method for a function), struct.go.tmpl:45 and union.go.tmpl:64 (where it is
used), /repo/internal/ast/struct.go:34-54, union.go:28-49 and choice.go:81-118 (evaluation), /repo/internal/model/transform.go:39-124 (names).

The way from the text of a schema is that of `Verif.Generate`, with its expressions.  Functions that return floating-point numbers, strings or
compound types and expressions that call functions are left out.  A ternary expression, which becomes several Go statements, is the whole result of a
function, with two operands of the same kind.
-/

namespace Verif

/-- The type of a variable that `:=` declares, https://go.dev/ref/spec#Short_variable_declarations: that of the value, `int` for a constant without a
type. -/
def declaredType (env : GoEnv) : GTyping → Option GTy
  | .const z => if representable env z (.named "int".toList) then some (.named "int".toList) else none
  | .fconst => some (.flt 64)
  | .typed t _ => some t

/-- `{{ goType $scope .ReturnType }}`, functions.go.tmpl:5, 7, /repo/internal/ast/package.go:110-131.  `CapitalizeNames` does not change it,
/repo/internal/model/transform.go:71-73, 94-96. -/
def functionType (p : APackage) (t : ATypeRef) : Option GTy :=
  if p.namesGoType t then goTypeOf p t else none

/-- Whether a value can be assigned to a variable of type `s`, https://go.dev/ref/spec#Assignability. -/
def assignable (env : GoEnv) (s : GTy) : GTyping → Bool
  | .const z => representable env z s
  | .fconst => s.isFlt
  | .typed t _ => t = s

/-- `ResultType` of an expression. -/
def resultKind (p : APackage) (compound : Option (List Char)) (e : AExpr) : Option EKind :=
  match evalTEx p compound e with
  | some x => match x.res with
    | .ok r => some r.kind
    | .error _ => none
  | none => none

section
variable (p : APackage) (compound : Option (List Char)) (ms : Members)

/-- `retVal` of an expression that is not ternary: its type and its value. -/
def plainResult (e : AExpr) : Option (GTy × (Env → Option GVal)) :=
  match goExpr p compound ms e with
  | some (x, ty) => (declaredType (goScope p ms) ty).map fun s => (s, fun env => goEval (goScope p ms) (goMemberValues p ms env) x)
  | none => none

/-- `retVal` of a ternary expression, /repo/internal/generator/expression.go:294-314:
```
retVal := op3
if op1 {
retVal = op2
}
```
where `int` is put around both if the result is an integer.  Evaluation takes the kind of the second or third operand,
/repo/internal/ast/expression.go:653-672; operands of different kinds are left out.  A condition that is evaluated does not occur here. -/
def ternaryResult (c x y : AExpr) : Option (GTy × (Env → Option GVal)) :=
  match boolCode p compound ms c, resultKind p compound x, resultKind p compound y with
  | some f, some k, some k' =>
    if k ≠ k' then none
    else if k = .integer then
      match lengthCode p compound ms x, lengthCode p compound ms y with
      | some f2, some f3 => some (.named "int".toList, fun env => some (.int (if f env then f2 env else f3 env)))
      | _, _ => none
    else
      match goExpr p compound ms x, plainResult p compound ms y with
      | some (x, ty), some (s, v) =>
        if assignable (goScope p ms) s ty then
          some (s, fun env => if f env then goEval (goScope p ms) (goMemberValues p ms env) x else v env)
        else none
      | _, _ => none
  | _, _, _ => none

/-- A function that is a method of a Go type with the given members: what it returns, functions.go.tmpl:5-8.
```
retVal := {{ goExpression $scope .Result }}
return {{ goType $scope .ReturnType }}(retVal)
```
-/
def functionCode (g : AFunction) : Option (Env → GVal) :=
  match functionType p g.returnType, (match g.result with
    | .three .questionmark _ c x y => ternaryResult p compound ms c x y
    | e => plainResult p compound ms e) with
  | some t, some (s, v) =>
    match s.int (goTypes p), t.int (goTypes p) with
    | some _, some w => some fun env => match v env with
      | some (.int z) => .int (wrapTo w z)
      | _ => .int 0
    | none, none => if s = .bool && t = .bool then some fun env => .bool (v env == some (.bool true)) else none
    | _, _ => none
  | _, _ => none

end

/-- The method with its Go name, /repo/internal/model/transform.go:71-73, 94-96. -/
def namedFunction (p : APackage) (compound : Option (List Char)) (ms : Members) (g : AFunction) : Option (List Char × (Env → GVal)) :=
  (functionCode p compound ms g).map fun f => (title g.name, f)

/-- The methods that a declaration gets for its functions.  choice.go.tmpl has none; the other declarations have no functions.  Templates are left
out. -/
def functionsOf (p : APackage) : ADecl → Option (List (List Char × (Env → GVal)))
  | .struct n [] ps fs gs => visitAll (namedFunction p (some n) ⟨ps, fs⟩) gs
  | .union _ [] ps fs gs => visitAll (namedFunction p none ⟨ps, fs⟩) gs
  | .struct _ (_ :: _) _ _ _ | .union _ (_ :: _) _ _ _ => none
  | _ => some []

/-- The methods for the functions of all declarations, in the order of the file, from the text of a schema; see `compileText`. -/
def compileFunctions (s : List Char) : Option (List (List (List Char × (Env → GVal)))) := do
  let ts ← lex s
  let c ← parsePackage ts
  let ps ← loadPackages [] [c]
  let ps ← resolveModel ps
  let p ← ps.head?
  visitAll (functionsOf p) p.decls

end Verif
