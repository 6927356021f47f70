import Verif.FrontEnd
import Verif.Resolve

/-!
# What the names in expressions stand for

Source: /repo/internal/ast/package.go:61-349, /repo/internal/ast/scope.go:241-306, /repo/internal/ast/{struct,union,choice}.go,
/repo/internal/ast/expression.go:110-200, 240-290, 360-420, /repo/internal/model/transform.go:127-191.

Packages are those after the resolution of types (`Verif.Resolve`).  Searches that go through imports take fuel; that it runs out is
not told apart from not finding anything, see C36 for when it does not.
-/

namespace Verif

/-- What a `SymbolReference` points to, /repo/internal/ast/package.go:199-204. -/
inductive SSym where
  | decl (d : ADecl)
  | param (a : AParam)
  | field (f : AField)
  | function (g : AFunction)
  /-- an item of an enum -/
  | item (e : ADecl) (i : AItem)
  /-- a value of a bitmask; these are in no scope, but are what a dot expression can end at -/
  | value (b : ADecl) (i : AItem)
  /-- a type reference, the result of /repo/internal/ast/package.go:300-349 `GetOriginalSymbol` for builtin types -/
  | type (t : ATypeRef)

/-- /repo/internal/ast/package.go:199-204 `SymbolReference`; packages by their name. -/
structure Found where
  sym : SSym
  name : List Char
  pkg : List Char
  compound : List Char

/-- `ImportedPackages` after /repo/internal/model/transform.go:585-598 `ResolveImports`. -/
def importedOf (ps : List APackage) (p : APackage) : List APackage :=
  p.imports.filterMap fun i => if i.2 = ['*'] then getPackage ps i.1 else none

/-- /repo/internal/ast/package.go:457-479 `GetImportedScope` -/
def scopeOf (ps : List APackage) : Nat → APackage → List Char → Option APackage
  | 0, _, _ => none
  | n + 1, p, name =>
    if name = [] then none
    else if name = p.name then some p
    else match (importedOf ps p).find? fun q => q.name == name with
      | some q => some q
      | none => (importedOf ps p).findSome? fun q => scopeOf ps n q name

/-- `LocalSymbols.GetType`, /repo/internal/ast/scope.go:262-271, with the package filled in. -/
def APackage.typeSymbol (p : APackage) (name : List Char) : Option Found :=
  (p.typeScope name).map fun d => ⟨.decl d, name, p.name, []⟩

/-- /repo/internal/ast/package.go:230-247 `GetType` -/
def getTypeSymbol (ps : List APackage) (p : APackage) (name : List Char) : Option Found :=
  (p :: importedOf ps p).findSome? fun q => q.typeSymbol name

/-- What /repo/internal/ast/struct.go:12-30, union.go:12-26 and choice.go:30-48 `BuildScope` put into the scope of a compound type, in
that order: neither the functions of unions and choices nor the field of the default case. -/
def ADecl.scopeEntries : ADecl → List (List Char × SSym)
  | .struct _ _ ps fs gs => ps.map (fun a => (a.name, .param a)) ++ fs.map (fun f => (f.name, .field f)) ++
      gs.map (fun g => (g.name, .function g))
  | .union _ _ ps fs _ => ps.map (fun a => (a.name, .param a)) ++ fs.map (fun f => (f.name, .field f))
  | .choice _ _ ps _ cases _ _ => ps.map (fun a => (a.name, .param a)) ++
      (cases.filterMap fun c => c.field).map (fun f => (f.name, .field f))
  | _ => []

/-- `Scope[name]` of a map filled in the order of a list. -/
def lastEntry (entries : List (List Char × SSym)) (name : List Char) : Option SSym :=
  (entries.reverse.find? fun e => e.1 == name).map Prod.snd

/-- `CompoundScopes[name]`, filled by /repo/internal/ast/package.go:76-104: structs, then unions, then choices. -/
def APackage.compoundScope (p : APackage) (name : List Char) : Option ADecl :=
  [DeclKind.struct, .union, .choice].foldl (fun found kind => match p.get kind name with | some d => some d | none => found) none

/-- `LocalSymbols.GetCompoundType`, /repo/internal/ast/scope.go:273-285, with the package filled in. -/
def APackage.compoundSymbol (p : APackage) (compound name : List Char) : Option Found :=
  match p.compoundScope compound with
  | none => none
  | some d => (lastEntry d.scopeEntries name).map fun s => ⟨s, name, p.name, compound⟩

/-- `LocalSymbols.CurrentCompoundScope` of every package, by its name. -/
abbrev Cur := List Char → Option (List Char)

/-- /repo/internal/ast/package.go:249-268 `GetCurrentCompoundType` -/
def getCurrentSymbol (ps : List APackage) (cur : Cur) (p : APackage) (name : List Char) : Option Found :=
  (p :: importedOf ps p).findSome? fun q => match cur q.name with
    | none => none
    | some c => q.compoundSymbol c name

/-- /repo/internal/ast/package.go:270-283 `GetCompoundType` -/
def getCompoundSymbol (ps : List APackage) (p : APackage) (compound name : List Char) : Option Found :=
  (p :: importedOf ps p).findSome? fun q => q.compoundSymbol compound name

/-- The items of an enum. -/
def ADecl.enumItems : ADecl → List AItem
  | .enum _ _ items => items
  | _ => []

/-- The entries of `OtherScope`, /repo/internal/ast/package.go:83-90, for the enums of a package in the order in which the map is
traversed. -/
def otherEntries (enums : List ADecl) : List (List Char × SSym) :=
  enums.flatMap fun e => e.enumItems.map fun i => (i.name, .item e i)

/-- The order in which the enums of each package are traversed. -/
abbrev EnumOrder := List Char → List ADecl

/-- Any order is possible. -/
def EnumOrder.Ok (order : EnumOrder) (ps : List APackage) : Prop :=
  ∀ p ∈ ps, (order p.name).Perm (p.decls.filter fun d => d.kind == .enum)

/-- /repo/internal/ast/package.go:285-298 `GetOtherType` -/
def getOtherSymbol (ps : List APackage) (order : EnumOrder) : Nat → APackage → List Char → Option Found
  | 0, _, _ => none
  | n + 1, p, name => match lastEntry (otherEntries (order p.name)) name with
    | some s => some ⟨s, name, p.name, []⟩
    | none => (importedOf ps p).findSome? fun q => getOtherSymbol ps order n q name

/-- /repo/internal/ast/package.go:206-228 `GetSymbol` -/
def getSymbolIn (ps : List APackage) (order : EnumOrder) (fuel : Nat) (cur : Cur) (p : APackage) (name : List Char) : Option Found :=
  match getTypeSymbol ps p name with
  | some r => some r
  | none => match getCurrentSymbol ps cur p name with
    | some r => some r
    | none => getOtherSymbol ps order fuel p name

/-! ## Which expressions are evaluated, and in which scope -/

/-- /repo/internal/ast/type_reference.go:21-33 `TypeReference.Evaluate` -/
def ATypeRef.exprs : ATypeRef → List AExpr
  | .mk _ _ _ _ _ args length => length.toList ++ args

/-- /repo/internal/ast/field.go:34-59 `Field.Evaluate` -/
def AField.exprs (f : AField) : List AExpr :=
  f.type.exprs ++ f.initializer.toList ++ f.optionalClause.toList ++ f.constraint.toList ++
    match f.array with
    | none => []
    | some a => a.length.toList

/-- The expressions that `Evaluate` of /repo/internal/ast/{const,struct,union,choice,enum,bitmask}.go evaluates, in that order, labels of
choices as they are written.  Nothing in templates; not the functions of a choice. -/
def ADecl.evaluated : ADecl → List AExpr
  | .const _ _ v => [v]
  | .struct _ tps ps fs gs => if tps ≠ [] then [] else
      ps.flatMap (fun a => a.type.exprs) ++ fs.flatMap AField.exprs ++ gs.map AFunction.result
  | .union _ tps ps fs gs => if tps ≠ [] then [] else
      ps.flatMap (fun a => a.type.exprs) ++ fs.flatMap AField.exprs ++ gs.map AFunction.result
  | .choice _ tps ps sel cases default _ => if tps ≠ [] then [] else
      [sel] ++ ps.flatMap (fun a => a.type.exprs) ++ (cases.filterMap fun c => c.field).flatMap AField.exprs ++
        cases.flatMap AChoiceCase.conditions ++
        match default with
        | none => []
        | some c => c.field.toList.flatMap AField.exprs
  | .enum _ _ items => items.filterMap AItem.value
  | .bitmask _ _ values => values.filterMap AItem.value
  | .subtype _ _ => []
  | .instantiate _ _ => []

/-- The value of `CurrentCompoundScope` while a declaration of package `pkg` is evaluated: /repo/internal/ast/struct.go:36 and
choice.go:86 set it, the others leave it alone. -/
def ADecl.enter (pkg : List Char) (d : ADecl) (cur : Cur) : Cur :=
  match d with
  | .struct n tps _ _ _ => if tps ≠ [] then cur else fun q => if q = pkg then some n else cur q
  | .choice n tps _ _ _ _ _ => if tps ≠ [] then cur else fun q => if q = pkg then some n else cur q
  | _ => cur

/-- One call of `Evaluate` of a declaration. -/
structure Visit where
  pkg : APackage
  decl : ADecl
  cur : Cur

/-- A loop over declarations, each with its package, such as /repo/internal/model/transform.go:171-180 `EvaluateStructs`.  Calls of
functions change the scope and restore it, /repo/internal/ast/expression.go:314-326; an error ends everything and is not modelled. -/
def visitDecls : List (APackage × ADecl) → Cur → List Visit × Cur
  | [], cur => ([], cur)
  | (p, d) :: ds, cur =>
    let cur' := d.enter p.name cur
    let r := visitDecls ds cur'
    (⟨p, d, cur'⟩ :: r.1, r.2)

/-- The order of /repo/internal/model/model.go:118-140 `evaluate`. -/
def evaluationOrder : List DeclKind := [.const, .enum, .union, .bitmask, .struct, .choice]

/-- The declarations of one kind in the order in which the maps are traversed, which is any order that keeps the declarations of a package
together. -/
abbrev VisitOrder := DeclKind → List (APackage × ADecl)

/-- What orders have in common: exactly the declarations of that kind are visited. -/
def VisitOrder.Ok (ord : VisitOrder) (ps : List APackage) : Prop :=
  ∀ k p d, (p, d) ∈ ord k ↔ p ∈ ps ∧ d ∈ p.decls ∧ d.kind = k

/-- The passes one after another. -/
def visitKinds (ord : VisitOrder) : List DeclKind → Cur → List Visit
  | [], _ => []
  | k :: ks, cur =>
    let r := visitDecls (ord k) cur
    r.1 ++ visitKinds ord ks r.2

/-- /repo/internal/model/model.go:118-140: all visits; at first no scope is set, /repo/internal/ast/package.go:64-68. -/
def evaluateModel (ord : VisitOrder) : List Visit := visitKinds ord evaluationOrder fun _ => none

/-- The names that the evaluation of an expression looks up: /repo/internal/ast/expression.go:768-812 visits all operands in the same
scope, 177-182 looks up identifiers.  What is behind a dot is no identifier (/repo/internal/visitor/visitor.go:443-453). -/
def AExpr.lookups : AExpr → List (List Char)
  | .leaf t n => if t = .id then [n] else []
  | .one _ _ a => a.lookups
  | .two _ _ a b => a.lookups ++ b.lookups
  | .three _ _ a b c => a.lookups ++ b.lookups ++ c.lookups

/-! ## Dot expressions -/

/-- /repo/internal/ast/expression.go:14-24 `ExpressionType`; the type of a function is only known after its evaluation. -/
inductive ETy where
  | integer | float | string | bool | bitmask | enum | compound | ofFunction
deriving DecidableEq

/-- The type of what is declared, for symbols whose type the code follows: /repo/internal/ast/package.go:318-325. -/
def SSym.link : SSym → Option ATypeRef
  | .field f => some f.type
  | .param a => some a.type
  | .decl (.subtype _ t) => some t
  | .type t => some t
  | _ => none

/-- Symbols that are their own original, /repo/internal/ast/package.go:306-317, 326-329. -/
def SSym.isOriginal : SSym → Bool
  | .decl d => d.kind ∈ [DeclKind.enum, .union, .struct, .choice, .bitmask]
  | .item _ _ => true
  | .function _ => true
  | _ => false

/-- /repo/internal/ast/package.go:300-349 `GetOriginalSymbol`; the first number is how many more lookups may be made. -/
def originalOf (ps : List APackage) (order : EnumOrder) (fuel : Nat) (cur : Cur) : Nat → APackage → SSym → Option SSym
  | k, p, s =>
    if s.isOriginal then some s
    else match s.link with
      | none => none
      | some t =>
        if t.isBuiltin then some (.type t)
        else match scopeOf ps fuel p t.pkg with
          | none => none
          | some q => match getSymbolIn ps order fuel cur q t.name with
            | none => none
            | some r => match k with
              | 0 => none
              | k + 1 => originalOf ps order fuel cur k q r.sym

/-- /repo/internal/ast/expression.go:118-131: the type of a builtin type. -/
def builtinETy (t : ATypeRef) : ETy :=
  if t.name = "bool".toList then .bool
  else if t.name = "string".toList then .string
  else if t.name = "float16".toList ∨ t.name = "float32".toList ∨ t.name = "float64".toList then .float
  else .integer

/-- /repo/internal/ast/expression.go:145-168 `evaluateSymbolType` -/
def symbolType (ps : List APackage) (order : EnumOrder) (fuel : Nat) (cur : Cur) (p : APackage) (s : SSym) : Option ETy :=
  match originalOf ps order fuel cur 100 p s with
  | none => none
  | some (.decl d) => match d.kind with
    | .enum => some .enum
    | .bitmask => some .bitmask
    | .union => some .compound
    | .struct => some .compound
    | .choice => some .compound
    | _ => none
  | some (.item _ _) => some .integer
  | some (.function _) => some .ofFunction
  | some (.type t) => some (builtinETy t)
  | some _ => none

/-- /repo/internal/ast/expression.go:232-241: the type reference of the first operand. -/
def SSym.reference : SSym → Option ATypeRef
  | .type t => some t
  | .field f => some f.type
  | .param a => some a.type
  | _ => none

/-- /repo/internal/ast/expression.go:243-266: the loop that looks through subtypes.  Names are looked up in `p`, whatever package the
reference says; the other scope only moves along. -/
def compoundOf (ps : List APackage) (order : EnumOrder) (fuel : Nat) (cur : Cur) (p : APackage) :
    Nat → APackage → ATypeRef → Option (Found × APackage)
  | 0, _, _ => none
  | n + 1, scope, t => match getSymbolIn ps order fuel cur p t.name with
    | none => none
    | some c => match scopeOf ps fuel scope c.pkg with
      | none => none
      | some scope => match c.sym with
        | .decl (.subtype _ t') => match scopeOf ps fuel scope t'.pkg with
          | none => none
          | some scope => compoundOf ps order fuel cur p n scope t'
        | _ => some (c, scope)

/-- /repo/internal/ast/expression.go:230-288 `evaluateCompoundDotExpression` -/
def compoundDot (ps : List APackage) (order : EnumOrder) (fuel : Nat) (cur : Cur) (p : APackage) (s : SSym) (name : List Char) :
    Option (Found × ETy) :=
  match s.reference with
  | none => none
  | some t => match compoundOf ps order fuel cur p fuel p t with
    | none => none
    | some (c, scope) => match c.sym with
      | .decl d =>
        if d.kind = .struct ∨ d.kind = .choice then
          match getCompoundSymbol ps p c.name name with
          | none => none
          | some m => (symbolType ps order fuel cur scope m.sym).map fun ty => (m, ty)
        else none
      | _ => none

/-- /repo/internal/ast/expression.go:369-416 `evaluateDotExpression`, for a first operand with a symbol and a type.  The item of an enum
or value of a bitmask is the symbol of the result here, of which the code keeps only the number. -/
def dotSymbol (ps : List APackage) (order : EnumOrder) (fuel : Nat) (cur : Cur) (p : APackage) (first : Found × ETy) (name : List Char) :
    Option (Found × ETy) :=
  match originalOf ps order fuel cur 100 p first.1.sym with
  | none => none
  | some s => match first.2 with
    | .enum => match s with
      | .decl d => match d.enumItems.find? fun i => i.name == name with
        | some i => some (⟨.item d i, name, [], []⟩, .integer)
        | none => none
      | _ => none
    | .bitmask => match s with
      | .decl (.bitmask n t values) => match values.find? fun i => i.name == name with
        | some i => some (⟨.value (.bitmask n t values) i, name, [], []⟩, .bitmask)
        | none => none
      | _ => none
    | .compound => compoundDot ps order fuel cur p first.1.sym name
    | _ => none

/-- `ResultSymbol` and `ResultType` after /repo/internal/ast/expression.go:768-917 `Evaluate`, for identifiers (177-199) and what is
behind dots.  Constants and items have no symbol in the code; nothing can follow them behind a dot.  The other expressions have no symbol
either: not array elements (340-353) and not what is in parentheses (430-440), so that a dot behind them is a panic. -/
def evalSymbol (ps : List APackage) (order : EnumOrder) (fuel : Nat) (cur : Cur) (p : APackage) : AExpr → Option (Found × ETy)
  | .leaf .id n => match getSymbolIn ps order fuel cur p n with
    | none => none
    | some r => match r.sym with
      | .decl (.const _ _ _) => none
      | s => (symbolType ps order fuel cur p s).map fun ty => (r, ty)
  | .two .dot _ a (.leaf .unevaluatable n) => match evalSymbol ps order fuel cur p a with
    | none => none
    | some first => dotSymbol ps order fuel cur p first n
  | _ => none

/-! ## Labels of choices -/

/-- /repo/internal/ast/choice.go:52-82 `fullySpecifyChoiceConditions` for one label: an identifier becomes a dot expression behind the
type of the selector, which has to be a parameter. -/
def specifyLabel (selector : Option SSym) (label : AExpr) : Option AExpr :=
  match label with
  | .leaf .id _ => match selector with
    | some (.param a) => some (.two .dot [] (.leaf .id a.type.name) label)
    | _ => none
  | _ => some label

/-- What a label stands for, /repo/internal/ast/choice.go:110-117 with /repo/internal/ast/expression.go:369-416; none for labels that are
literals, and if the evaluation fails.  The second operand made by `specifyLabel` is an identifier, so that it is evaluated as well before
the dot is (177-199). -/
def labelSymbol (ps : List APackage) (order : EnumOrder) (fuel : Nat) (cur : Cur) (p : APackage) (selector : Option SSym) (label : AExpr) :
    Option SSym :=
  match specifyLabel selector label with
  | some (.two .dot _ a (.leaf .id n)) => match evalSymbol ps order fuel cur p a with
    | none => none
    | some first => match getSymbolIn ps order fuel cur p n with
      | none => none
      | some second => match second.sym with
        | .decl (.const _ _ _) => (dotSymbol ps order fuel cur p first n).map fun r => r.1.sym
        | s => match symbolType ps order fuel cur p s with
          | none => none
          | some _ => (dotSymbol ps order fuel cur p first n).map fun r => r.1.sym
  | some e => (evalSymbol ps order fuel cur p e).map fun r => r.1.sym
  | none => none

end Verif
