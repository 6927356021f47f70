import Verif.Fold

/-!
# Functions that call functions

Source: /repo/internal/ast/expression.go:290-328 `evaluateFunctionCallExpression` with 767-917 `Evaluate`, /repo/internal/ast/struct.go:12-55
(`BuildScope`, `Evaluate`), /repo/internal/ast/scope.go:252-294 (members), /repo/internal/model/transform.go:171-180 `EvaluateStructs`.

One package without subtypes.  Members are fields and parameters, with the result fields that an identifier gets for them; whether a member is a struct
is told by its number.  Literals, constants and everything else that does not depend on the struct are leaves.  Choices and unions have no functions that can
be called (choice.go:31-48 and union.go:12-26 do not enter them), and names of members are taken not to be names of types, which would come first (C76).
-/

namespace Verif

variable {F : Type}

/-- Expressions with calls: `x`, `f()` and `m.f()` besides the operators of `Verif.Fold`. -/
inductive FEx (F : Type) where
  | leaf (r : Res F) (full : Bool)
  | name (x : Text)
  | call (f : Text)
  | callOn (m f : Text)
  | un (op : UnOp) (e : FEx F)
  | bin (op : BOp) (a b : FEx F)
  | tern (c a b : FEx F)

/-- A field or parameter: its name, the result fields of its identifier, and the number of the struct that it is (its
result is then `ExpressionTypeCompound`). -/
structure FMember (F : Type) where
  name : Text
  res : Res F
  struct : Option Nat

/-- /repo/internal/ast/model.go `Function`: name, declared type and result. -/
structure FFun (F : Type) where
  name : Text
  declared : Option NType
  body : FEx F

/-- A struct: its members, the expressions of its parameters and fields in the order in which they are evaluated, and its functions. -/
structure FStruct (F : Type) where
  members : List (FMember F)
  uses : List (FEx F)
  functions : List (FFun F)

/-- The structs of the package, by number. -/
abbrev FSchema (F : Type) := List (FStruct F)

/-- A struct and a function of it. -/
abbrev FId := Nat × Nat

/-- The last place of a name: what `compoundScope.Scope[name]` is after the loops of /repo/internal/ast/struct.go:18-26. -/
def lastNamed : List Text → Text → Option Nat
  | [], _ => none
  | y :: ys, x =>
    match lastNamed ys x with
    | some i => some (i + 1)
    | none => if y = x then some 0 else none

/-- The function of that name in a struct, /repo/internal/ast/scope.go:283-294: functions are entered last. -/
def FSchema.function? (S : FSchema F) (c : Nat) (x : Text) : Option FId :=
  match S[c]? with
  | some s => (lastNamed (s.functions.map FFun.name) x).map fun k => (c, k)
  | none => none

/-- The field or parameter of that name in a struct. -/
def FSchema.member? (S : FSchema F) (c : Nat) (x : Text) : Option (FMember F) :=
  match S[c]? with
  | some s => (lastNamed (s.members.map FMember.name) x).bind fun k => s.members[k]?
  | none => none

/-- The result expression of a function. -/
def FSchema.body? (S : FSchema F) (f : FId) : Option (FEx F) := (S[f.1]?).bind fun s => (s.functions[f.2]?).map FFun.body

/-- The state of the evaluation: `CurrentCompoundScope` and the result expressions of the functions. -/
structure FState (F : Type) where
  cur : Option Nat
  funs : FId → CState F

/-- Nothing has been evaluated. -/
def FState.start (o : FloatOps F) : FState F := ⟨none, fun _ => ⟨.notStarted, Res.init o⟩⟩

/-- The assignment of the state and the result fields of a function's expression. -/
def FState.set (st : FState F) (f : FId) (c : CState F) : FState F := { st with funs := fun g => if g = f then c else st.funs g }

/-- /repo/internal/ast/expression.go:178-202 `evaluateIdentifier` for a name of the current struct.  The name of a function without a call gets the kind
that the function's result has at that time (166-167). -/
def evalName (o : FloatOps F) (S : FSchema F) (x : Text) (st : FState F) : EVal F :=
  match st.cur with
  | none => ⟨.err, Res.init o, true⟩
  | some c =>
    match S.function? c x with
    | some f => ⟨.ok, { Res.init o with ty := (st.funs f).res.ty }, false⟩
    | none =>
      match S.member? c x with
      | some m => ⟨.ok, m.res, false⟩
      | none => ⟨.err, Res.init o, true⟩

/-- What `f` before `()` stands for: /repo/internal/ast/expression.go:290-294, an error if it is no function. -/
def ownTarget (S : FSchema F) (f : Text) (st : FState F) : Option FId := st.cur.bind fun c => S.function? c f

/-- What `m.f` before `()` stands for: 231-288 `evaluateCompoundDotExpression`; the member is a struct and has a function of that name. -/
def memberTarget (S : FSchema F) (m f : Text) (st : FState F) : Option FId :=
  st.cur.bind fun c =>
    match S.function? c m with
    | some _ => none
    | none => (S.member? c m).bind fun m => m.struct.bind fun c' => S.function? c' f

/-- /repo/internal/ast/expression.go:296-327: the function is evaluated among the members of its own struct, its result is copied, and the struct from
before becomes the current one again; `call` is `Evaluate` of the result of a function. -/
def evalCall (o : FloatOps F) (call : FId → FState F → Option (Out × FState F)) (f : Option FId) (st : FState F) : Option (EVal F × FState F) :=
  match f with
  | none => some (⟨.err, Res.init o, false⟩, st)
  | some f =>
    match call f { st with cur := some f.1 } with
    | none => none
    | some (.ok, st') => some (⟨.ok, (st'.funs f).res, false⟩, { st' with cur := st.cur })
    | some (out, st') => some (⟨out, Res.init o, false⟩, st')

/-- /repo/internal/ast/expression.go:767-917 `Evaluate`. -/
def evalF (o : FloatOps F) (S : FSchema F) (call : FId → FState F → Option (Out × FState F)) : FEx F → FState F → Option (EVal F × FState F)
  | .leaf r full, st => some (⟨.ok, r, full⟩, st)
  | .name x, st => some (evalName o S x st, st)
  | .call f, st => evalCall o call (ownTarget S f st) st
  | .callOn m f, st => evalCall o call (memberTarget S m f st) st
  | .un op e, st =>
    match evalF o S call e st with
    | none => none
    | some (x, st) =>
      if x.out ≠ .ok then some (⟨x.out, Res.init o, true⟩, st)
      else let r := evalUn o op x.res; some (⟨r.1, r.2, x.full⟩, st)
  | .bin op a b, st =>
    match evalF o S call a st with
    | none => none
    | some (x, st) =>
      if x.out ≠ .ok then some (⟨x.out, Res.init o, true⟩, st)
      else match evalF o S call b st with
        | none => none
        | some (y, st) =>
          if y.out ≠ .ok then some (⟨y.out, Res.init o, true⟩, st)
          else some (evalBin o op x.res y.res (x.full && y.full), st)
  | .tern c a b, st =>
    match evalF o S call c st with
    | none => none
    | some (x, st) =>
      if x.out ≠ .ok then some (⟨x.out, Res.init o, true⟩, st)
      else match evalF o S call a st with
        | none => none
        | some (y, st) =>
          if y.out ≠ .ok then some (⟨y.out, Res.init o, true⟩, st)
          else match evalF o S call b st with
            | none => none
            | some (z, st) =>
              if z.out ≠ .ok then some (⟨z.out, Res.init o, true⟩, st)
              else let r := evalTern o x.res y.res z.res; some (⟨r.1, r.2, x.full && y.full && z.full⟩, st)

/-- `Evaluate` of the result of a function, with the state of that expression (/repo/internal/ast/expression.go:773-782, 912-916).  `none` stands for a
recursion that is deeper than the given bound. -/
def evaluateFunction (o : FloatOps F) (S : FSchema F) : Nat → FId → FState F → Option (Out × FState F)
  | 0, _, _ => none
  | fuel + 1, f, st =>
    match (st.funs f).status, S.body? f with
    | .complete, _ => some (.ok, st)
    | .inProgress, _ => some (.err, st)
    | .notStarted, none => some (.panic, st)
    | .notStarted, some e =>
      match evalF o S (evaluateFunction o S fuel) e (st.set f ⟨.inProgress, Res.init o⟩) with
      | none => none
      | some (v, st') =>
        match v.out with
        | .ok => some (.ok, st'.set f ⟨.complete, v.res⟩)
        | out => some (out, st')

/-- The loops of /repo/internal/ast/struct.go:38-48 over the expressions of parameters and fields. -/
def evaluateUses (o : FloatOps F) (S : FSchema F) (fuel : Nat) : List (FEx F) → FState F → Option (Out × FState F)
  | [], st => some (.ok, st)
  | e :: es, st =>
    match evalF o S (evaluateFunction o S fuel) e st with
    | none => none
    | some (v, st) => if v.out = .ok then evaluateUses o S fuel es st else some (v.out, st)

/-- The loop of /repo/internal/ast/struct.go:49-53 over the functions. -/
def evaluateFunctions (o : FloatOps F) (S : FSchema F) (fuel : Nat) : List FId → FState F → Option (Out × FState F)
  | [], st => some (.ok, st)
  | f :: fs, st =>
    match evaluateFunction o S fuel f st with
    | none => none
    | some (.ok, st) => evaluateFunctions o S fuel fs st
    | some (out, st) => some (out, st)

/-- /repo/internal/ast/struct.go:31-55 `Struct.Evaluate` -/
def evaluateStruct (o : FloatOps F) (S : FSchema F) (fuel c : Nat) (st : FState F) : Option (Out × FState F) :=
  match S[c]? with
  | none => some (.ok, st)
  | some s =>
    match evaluateUses o S fuel s.uses { st with cur := some c } with
    | none => none
    | some (.ok, st) => evaluateFunctions o S fuel ((List.range s.functions.length).map fun k => (c, k)) st
    | some (out, st) => some (out, st)

/-- /repo/internal/model/transform.go:171-180 `EvaluateStructs`; the order is that of a Go map. -/
def evaluateStructs (o : FloatOps F) (S : FSchema F) (fuel : Nat) : List Nat → FState F → Option (Out × FState F)
  | [], st => some (.ok, st)
  | c :: cs, st =>
    match evaluateStruct o S fuel c st with
    | none => none
    | some (.ok, st) => evaluateStructs o S fuel cs st
    | some (out, st) => some (out, st)

end Verif
