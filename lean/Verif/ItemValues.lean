import Verif.Fold
import Verif.AstEnum

/-!
# Values of enum items and bitmask values that are written with one another

Source: /repo/internal/ast/enum.go:31-57, /repo/internal/ast/bitmask.go:14-49, /repo/internal/ast/expression.go:366-412
(`evaluateDotExpression`) and 767-917 (`Evaluate`), /repo/internal/model/transform.go:138-180.

`Verif/AstEnum` has the loops with given results of expressions; here the expressions are evaluated, and the state of all expressions is
kept.  One package; enums, bitmasks and their members are numbers.  Constants are the numbers they stand for (C34).
-/

namespace Verif

/-- Expressions for the value of an item: numbers (literals and constants), `E.x` for an enum, `B.x` for a bitmask, parentheses, `valueof`
and the operators. -/
inductive VEx where
  | num (v : BitVec 64)
  | item (e k : Nat)
  | flag (b k : Nat)
  | paren (x : VEx)
  | valueof (x : VEx)
  | bin (op : BOp) (x y : VEx)

/-- The enums and bitmasks of a package: for each member its expression, if it has one. -/
structure ItemSchema where
  enums : List (List (Option VEx))
  bitmasks : List (List (Option VEx))

/-- The expressions of all members; `none` is nil. -/
structure VState (F : Type) where
  items : Nat → Nat → Option (CState F)
  flags : Nat → Nat → Option (CState F)

variable {F : Type}

/-- The assignment of an expression or of its results. -/
def VState.setItem (st : VState F) (e k : Nat) (c : CState F) : VState F :=
  { st with items := fun e' k' => if e' = e ∧ k' = k then some c else st.items e' k' }

/-- The assignment of an expression or of its results. -/
def VState.setFlag (st : VState F) (b k : Nat) (c : CState F) : VState F :=
  { st with flags := fun b' k' => if b' = b ∧ k' = k then some c else st.flags b' k' }

/-- The member of an enum or bitmask. -/
def member? (l : List (List (Option VEx))) (e k : Nat) : Option (Option VEx) := (l[e]?).bind (·[k]?)

/-- The expressions after parsing. -/
def VState.start (o : FloatOps F) (S : ItemSchema) : VState F where
  items e k := match member? S.enums e k with
    | some (some _) => some ⟨.notStarted, Res.init o⟩
    | _ => none
  flags b k := match member? S.bitmasks b k with
    | some (some _) => some ⟨.notStarted, Res.init o⟩
    | _ => none

/-- The result fields of an integer. -/
def Res.int (o : FloatOps F) (v : BitVec 64) : Res F := { Res.init o with ty := some .integer, i := v }

/-- /repo/internal/ast/expression.go:381-394: `E.x`.  The name of the enum before the dot is not fully resolved (197), so that the result is not.
`enumItem.EvaluationState` of an item without expression is a nil dereference. -/
def dotItem (o : FloatOps F) (S : ItemSchema) (evaluate : Nat → VState F → Option (Out × VState F)) (e k : Nat) (st : VState F) :
    Option (EVal F × VState F) :=
  match member? S.enums e k with
  | none => some (⟨.err, Res.init o, false⟩, st)
  | some _ =>
    match st.items e k with
    | none => some (⟨.panic, Res.init o, false⟩, st)
    | some c =>
      if c.status = .complete then some (⟨.ok, c.res, false⟩, st)
      else
        match evaluate e st with
        | none => none
        | some (.ok, st) =>
          match st.items e k with
          | none => some (⟨.panic, Res.init o, false⟩, st)
          | some c => some (⟨.ok, c.res, false⟩, st)
        | some (out, st) => some (⟨out, Res.init o, false⟩, st)

/-- /repo/internal/ast/expression.go:395-404: `B.x`.  The value is taken from the expression, evaluated or not. -/
def dotFlag (o : FloatOps F) (S : ItemSchema) (b k : Nat) (st : VState F) : EVal F :=
  match member? S.bitmasks b k with
  | none => ⟨.err, Res.init o, false⟩
  | some _ =>
    match st.flags b k with
    | none => ⟨.panic, Res.init o, false⟩
    | some c => ⟨.ok, { Res.init o with ty := some .bitmask, i := c.res.i }, false⟩

/-- /repo/internal/ast/expression.go:767-917 `Evaluate` for these expressions; `evaluate` is `Enum.Evaluate`. -/
def evalV (o : FloatOps F) (S : ItemSchema) (evaluate : Nat → VState F → Option (Out × VState F)) : VEx → VState F → Option (EVal F × VState F)
  | .num v, st => some (⟨.ok, Res.int o v, true⟩, st)
  | .item e k, st => dotItem o S evaluate e k st
  | .flag b k, st => some (dotFlag o S b k st, st)
  | .paren x, st =>
    match evalV o S evaluate x st with
    | none => none
    | some (r, st) =>
      if r.out ≠ .ok then some (⟨r.out, Res.init o, true⟩, st)
      else let w := evalUn o .paren r.res; some (⟨w.1, w.2, r.full⟩, st)
  | .valueof x, st =>
    match evalV o S evaluate x st with
    | none => none
    | some (r, st) =>
      if r.out ≠ .ok then some (⟨r.out, Res.init o, true⟩, st)
      else let w := evalUn o .valueof r.res; some (⟨w.1, w.2, r.full⟩, st)
  | .bin op x y, st =>
    match evalV o S evaluate x st with
    | none => none
    | some (r, st) =>
      if r.out ≠ .ok then some (⟨r.out, Res.init o, true⟩, st)
      else match evalV o S evaluate y st with
        | none => none
        | some (s, st) =>
          if s.out ≠ .ok then some (⟨s.out, Res.init o, true⟩, st)
          else some (evalBin o op r.res s.res (r.full && s.full), st)

/-- The body of the loop of /repo/internal/ast/enum.go:32-55 for the item `k` of the enum `e`. -/
def evaluateItem (o : FloatOps F) (S : ItemSchema) (evaluate : Nat → VState F → Option (Out × VState F)) (e k : Nat) (x : Option VEx)
    (st : VState F) : Option (Out × VState F) :=
  match st.items e k, x with
  | none, _ =>
    match k with
    | 0 => some (.ok, st.setItem e 0 ⟨.complete, Res.int o 0#64⟩)
    | j + 1 =>
      match st.items e j with
      | none => some (.panic, st)
      | some c =>
        if c.res.ty = some .integer then some (.ok, st.setItem e (j + 1) ⟨.complete, Res.int o (c.res.i + 1#64)⟩)
        else some (.err, st)
  | some c, none => some (if c.status = .complete then .ok else .panic, st)
  | some c, some x =>
    match c.status with
    | .complete => some (.ok, st)
    | .inProgress => some (.err, st)
    | .notStarted =>
      match evalV o S evaluate x (st.setItem e k ⟨.inProgress, Res.init o⟩) with
      | none => none
      | some (v, st) =>
        match v.out with
        | .ok => some (.ok, st.setItem e k ⟨.complete, v.res⟩)
        | .err => some (.err, st.setItem e k ⟨.inProgress, v.res⟩)
        | .panic => some (.panic, st)

/-- The loop of /repo/internal/ast/enum.go:32-55 from item `k` on. -/
def enumItemsLoop (o : FloatOps F) (S : ItemSchema) (evaluate : Nat → VState F → Option (Out × VState F)) (e : Nat) :
    Nat → List (Option VEx) → VState F → Option (Out × VState F)
  | _, [], st => some (.ok, st)
  | k, x :: xs, st =>
    match evaluateItem o S evaluate e k x st with
    | none => none
    | some (.ok, st) => enumItemsLoop o S evaluate e (k + 1) xs st
    | some (out, st) => some (out, st)

/-- /repo/internal/ast/enum.go:31-57 `Enum.Evaluate`; `none` stands for a recursion that is deeper than the given bound. -/
def evaluateEnum (o : FloatOps F) (S : ItemSchema) : Nat → Nat → VState F → Option (Out × VState F)
  | 0, _, _ => none
  | fuel + 1, e, st => enumItemsLoop o S (evaluateEnum o S fuel) e 0 (S.enums.getD e []) st

/-- The body of the loop of /repo/internal/ast/bitmask.go:24-47 for the value `k` of the bitmask `b`. -/
def evaluateFlag (o : FloatOps F) (S : ItemSchema) (fuel b k : Nat) (x : Option VEx) (st : VState F) : Option (Out × VState F) :=
  match st.flags b k, x with
  | none, _ =>
    match k with
    | 0 => some (.ok, st.setFlag b 0 ⟨.complete, Res.int o 1#64⟩)
    | j + 1 =>
      match st.flags b j with
      | none => some (.panic, st)
      | some c =>
        if c.res.ty = some .integer then some (.ok, st.setFlag b (j + 1) ⟨.complete, Res.int o (findNextFreeBit c.res.i)⟩)
        else some (.err, st)
  | some c, none => some (if c.status = .complete then .ok else .panic, st)
  | some c, some x =>
    match c.status with
    | .complete => some (.ok, st)
    | .inProgress => some (.err, st)
    | .notStarted =>
      match evalV o S (evaluateEnum o S fuel) x (st.setFlag b k ⟨.inProgress, Res.init o⟩) with
      | none => none
      | some (v, st) =>
        match v.out with
        | .ok => some (.ok, st.setFlag b k ⟨.complete, v.res⟩)
        | .err => some (.err, st.setFlag b k ⟨.inProgress, v.res⟩)
        | .panic => some (.panic, st)

/-- The loop of /repo/internal/ast/bitmask.go:24-47 from value `k` on. -/
def flagLoop (o : FloatOps F) (S : ItemSchema) (fuel b : Nat) : Nat → List (Option VEx) → VState F → Option (Out × VState F)
  | _, [], st => some (.ok, st)
  | k, x :: xs, st =>
    match evaluateFlag o S fuel b k x st with
    | none => none
    | some (.ok, st) => flagLoop o S fuel b (k + 1) xs st
    | some (out, st) => some (out, st)

/-- /repo/internal/model/transform.go:138-147 `EvaluateEnums`; the order is that of a Go map. -/
def evaluateEnums (o : FloatOps F) (S : ItemSchema) (fuel : Nat) : List Nat → VState F → Option (Out × VState F)
  | [], st => some (.ok, st)
  | e :: es, st =>
    match evaluateEnum o S fuel e st with
    | none => none
    | some (.ok, st) => evaluateEnums o S fuel es st
    | some (out, st) => some (out, st)

/-- /repo/internal/model/transform.go:160-169 `EvaluateBitmasks`; the order is that of a Go map. -/
def evaluateBitmasks (o : FloatOps F) (S : ItemSchema) (fuel : Nat) : List Nat → VState F → Option (Out × VState F)
  | [], st => some (.ok, st)
  | b :: bs, st =>
    match flagLoop o S fuel b 0 (S.bitmasks.getD b []) st with
    | none => none
    | some (.ok, st) => evaluateBitmasks o S fuel bs st
    | some (out, st) => some (out, st)

/-- /repo/internal/model/model.go:119-131: enums first, then bitmasks. -/
def evaluateItems (o : FloatOps F) (S : ItemSchema) (fuel : Nat) (enums bitmasks : List Nat) : Option (Out × VState F) :=
  match evaluateEnums o S fuel enums (VState.start o S) with
  | none => none
  | some (.ok, st) => evaluateBitmasks o S fuel bitmasks st
  | some (out, st) => some (out, st)

/-- The value of an item in the generated code, /repo/internal/generator/templates/enum.go.tmpl:13-17 and bitmask.go.tmpl:12-15; `none` is code
that does not compile. -/
def printedValue (c : Option (CState F)) : Option (BitVec 64) :=
  match c with
  | some c => if c.res.ty = some .integer then some c.res.i else none
  | none => none

end Verif
