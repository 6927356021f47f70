import Mathlib.Logic.Function.Basic
import Verif.Files

/-!
# Template instantiation

Source: /repo/internal/model/transform.go:193-583.

Type references are pointers in Go and one of them can be shared by several fields, so they live in a heap here and are
named by their index.  Declarations are kept per kind, package and name, as in the maps of `ast.Package`.

Simplified: comments, arrays, alignment, initialisers, constraints and dynamic bit lengths are copied with the field and
left out; the fields of a choice are listed in the order of its cases, the default field last, and its selector and case
labels, which every instance shares with the template, are left out; enums, bitmasks and constants have no parts.
-/

namespace Verif

/-- A pointer to an `ast.TypeReference`. -/
abbrev TPtr := Nat

/-- /repo/internal/ast/type_reference.go:3-19 `TypeReference`; the type arguments are expressions, kept as text. -/
structure TCell where
  builtin : Bool
  pkg : String
  name : Text
  bits : Nat
  targs : List TPtr
  tyargs : List Text
  deriving DecidableEq, Repr

/-- The kinds of declarations that `CollectSymbols` puts into the type scope, /repo/internal/ast/package.go:63-114.
`inst` is the declaration `instantiate T<…> Name;`. -/
inductive TKind where
  | struct | choice | union | sub | inst | other
  deriving DecidableEq, Repr

/-- /repo/internal/ast/struct.go:3-10, choice.go:20-29, union.go:3-10.  A subtype and an `instantiate` declaration have the
type they refer to as only field. -/
structure TDecl where
  tparams : List Text
  fields : List (Text × TPtr)
  params : List (Text × TPtr)
  funcs : List (Text × TPtr)
  deriving DecidableEq, Repr

/-- The part of `model.Model` that instantiation reads and writes: the type references, `LocalSymbols.TypeScope` of each
package and the maps `Structs`, `Choices`, `Unions`, `Subtypes`, `InstantiatedTypes` of each package. -/
structure TSt where
  heap : List TCell
  kinds : String → Text → Option TKind
  decls : TKind → String → Text → Option TDecl

/-- Code that updates the model; `none` stands for not returning within the fuel. -/
def TM (α : Type) := TSt → Option (Except String (α × TSt))

namespace TM

def pure {α : Type} (a : α) : TM α := fun s => some (.ok (a, s))

def bind {α β : Type} (m : TM α) (f : α → TM β) : TM β := fun s =>
  match m s with
  | none => none
  | some (.error e) => some (.error e)
  | some (.ok (a, s')) => f a s'

instance : Monad TM where
  pure := TM.pure
  bind := TM.bind

def fail {α : Type} (e : String) : TM α := fun _ => some (.error e)
def get : TM TSt := fun s => some (.ok (s, s))
def set (s : TSt) : TM Unit := fun _ => some (.ok ((), s))

end TM

/-- Reading through a pointer. -/
def cell (r : TPtr) : TM TCell := fun s =>
  match s.heap[r]? with
  | some c => some (.ok (c, s))
  | none => some (.error "no such reference")

/-- `&ast.TypeReference{…}` -/
def alloc (c : TCell) : TM TPtr := fun s => some (.ok (s.heap.length, { s with heap := s.heap ++ [c] }))

/-- `r.TypeArguments = es` -/
def setTyargs (r : TPtr) (es : List Text) : TM Unit := fun s =>
  some (.ok ((), { s with heap := s.heap.modify r fun c => { c with tyargs := es } }))

/-- /repo/internal/ast/package.go:238-256 `GetType`: the own package first, then the imported ones. -/
def findKind (s : TSt) (name : Text) : List String → Option (TKind × String)
  | [] => none
  | p :: ps => match s.kinds p name with
    | some k => some (k, p)
    | none => findKind s name ps

/-- `m[key] = value` -/
def putType (m : Text → Option TPtr) (kv : Text × TPtr) : Text → Option TPtr := Function.update m kv.1 (some kv.2)

/-- The map `templateTypes` of transform.go:363-371: later parameters of the same name win. -/
def templateTypes (ps : List Text) (rs : List TPtr) : Text → Option TPtr := (ps.zip rs).foldl putType fun _ => none

/-- What `instantiateType` is called with besides the package: the reference, the arguments, an explicit name. -/
abbrev Inst := TPtr → List TPtr → Option Text → TM TPtr

/-- transform.go:364-371 and 447-454: every argument is instantiated itself. -/
def instArgs (inst : Inst) : List TPtr → TM (List TPtr)
  | [] => pure []
  | ta :: tas => do
    let c ← cell ta
    let r ← inst ta c.targs none
    let rs ← instArgs inst tas
    pure (r :: rs)

/-- transform.go:324-329 -/
def passArgs (tt : Text → Option TPtr) : List TPtr → TM (List TPtr)
  | [] => pure []
  | ta :: tas => do
    let c ← cell ta
    let rs ← passArgs tt tas
    pure ((tt c.name).getD ta :: rs)

/-- transform.go:311-348 `instantiateField`. -/
def instField (inst : Inst) (tt : Text → Option TPtr) (f : Text × TPtr) : TM (Text × TPtr) := do
  let c ← cell f.2
  if c.targs ≠ [] then do
    let args ← passArgs tt c.targs
    let r ← inst f.2 args none
    pure (f.1, r)
  else
    match tt c.name with
    | some t => if c.pkg = "" then (do setTyargs t c.tyargs; pure (f.1, t)) else pure f
    | none => pure f

/-- The loop transform.go:388-394, 473-486 and 489-502. -/
def instFields (inst : Inst) (tt : Text → Option TPtr) : List (Text × TPtr) → TM (List (Text × TPtr))
  | [] => pure []
  | f :: fs => do
    let g ← instField inst tt f
    let gs ← instFields inst tt fs
    pure (g :: gs)

/-- Type parameters and function results, transform.go:397-424 and 503-531: replaced if they are a parameter of the
template, otherwise kept. -/
def instParts (tt : Text → Option TPtr) : List (Text × TPtr) → TM (List (Text × TPtr))
  | [] => pure []
  | f :: fs => do
    let c ← cell f.2
    let gs ← instParts tt fs
    match tt c.name with
    | some t => if c.pkg = "" then pure ((f.1, t) :: gs) else pure (f :: gs)
    | none => pure (f :: gs)

/-- transform.go:427-429 and 534-536: the instance becomes known. -/
def register (k : TKind) (p : String) (name : Text) (d : TDecl) : TM Unit := fun s =>
  some (.ok ((), { s with
    kinds := Function.update s.kinds p (Function.update (s.kinds p) name (some k))
    decls := Function.update s.decls k (Function.update (s.decls k) p (Function.update (s.decls k p) name (some d))) }))

/-- transform.go:350-431 `instantiateStruct`, 433-538 `instantiateChoice`. -/
def instCompound (inst : Inst) (k : TKind) (p : String) (d : TDecl) (targs : List TPtr) (name : Text) : TM TPtr := do
  if d.tparams.length ≠ targs.length then TM.fail "incorrect number of template parameters" else do
  let rs ← instArgs inst targs
  let tt := templateTypes d.tparams rs
  let r ← alloc ⟨false, p, name, 0, [], []⟩
  let s ← TM.get
  if (s.decls k p name).isSome then pure r else do
  let fields ← instFields inst tt d.fields
  let params ← instParts tt d.params
  let funcs ← instParts tt d.funcs
  register k p name ⟨[], fields, params, funcs⟩
  pure r

/-- transform.go:540-546 `generateInstantiatedName`. -/
def genName (t : Text) (args : List Text) : Text := title t ++ (args.map title).flatten

/-- The names of the referenced types. -/
def cellNames : List TPtr → TM (List Text)
  | [] => pure []
  | r :: rs => do
    let c ← cell r
    let ns ← cellNames rs
    pure (c.name :: ns)

/-- transform.go:548-583 `instantiateType` with package scope `p`; `imports` are the packages imported as a whole.
`GetSymbol` (package.go:213-236) looks for enum items when it finds no type, which fails later in the same way.  The fuel is
used up by each nested instantiation. -/
def instType (imports : String → List String) (p : String) : Nat → Inst
  | _, tr, [], _ => pure tr
  | 0, _, _ :: _, _ => fun _ => none
  | n + 1, tr, ta :: tas, nm => do
    let c ← cell tr
    let ns ← cellNames (ta :: tas)
    let s ← TM.get
    match findKind s c.name (p :: imports p) with
    | none => TM.fail "symbol not found"
    | some (k, q) =>
      if k = .struct ∨ k = .choice then
        match s.decls k q c.name with
        | none => TM.fail "symbol not found"
        | some d => do
          let r ← instCompound (instType imports p n) k p d (ta :: tas) (nm.getD (genName c.name ns))
          setTyargs r c.tyargs
          pure r
      else TM.fail "template instantiation not supported for this type"

/-- The loops transform.go:240-257, 268-307: every field type is instantiated. -/
def visitFields (inst : Inst) (nm : Option Text) : List (Text × TPtr) → TM (List (Text × TPtr))
  | [] => pure []
  | f :: fs => do
    let c ← cell f.2
    let r ← inst f.2 c.targs nm
    let gs ← visitFields inst nm fs
    pure ((f.1, r) :: gs)

/-- One step of the loops of transform.go:193-308 `InstantiateTemplates`: an `instantiate` declaration (197-212), a subtype
(216-233), a struct (236-259) or a choice (262-306).  Unions are not looked at. -/
def visit (imports : String → List String) (n : Nat) (k : TKind) (p : String) (name : Text) : TM Unit := fun s =>
  match s.decls k p name with
  | none => some (.ok ((), s))
  | some d =>
    if k = .union ∨ k = .other ∨ (d.tparams ≠ []) then some (.ok ((), s)) else
    TM.bind (visitFields (instType imports p n) (if k = .inst then some name else none) d.fields) (fun fs s =>
      some (.ok ((), { s with
        decls := Function.update s.decls k (Function.update (s.decls k) p
          (Function.update (s.decls k p) name (some { d with fields := fs }))) }))) s

/-- transform.go:193-308 `InstantiateTemplates`.  The loops run over Go maps, so the order is arbitrary; entries added
during a loop may be visited or not.  `order` is the sequence of visits. -/
def instantiateTemplates (imports : String → List String) (n : Nat) : List (TKind × String × Text) → TM Unit
  | [] => pure ()
  | (k, p, name) :: rest => do
    visit imports n k p name
    instantiateTemplates imports n rest

/-! ## What the declarations mean -/

/-- A type of the schema language: builtin or declared, with template arguments.  A template parameter is a name without
package. -/
inductive Ty where
  | mk (builtin : Bool) (pkg : String) (name : Text) (bits : Nat) (args : List Ty)

namespace Ty

def builtin : Ty → Bool | mk b _ _ _ _ => b
def pkg : Ty → String | mk _ p _ _ _ => p
def name : Ty → Text | mk _ _ n _ _ => n
def bits : Ty → Nat | mk _ _ _ b _ => b
def args : Ty → List Ty | mk _ _ _ _ as => as

/-- Type `t` is the template parameter `n`. -/
def isParam (n : Text) (t : Ty) : Prop := t.builtin = false ∧ t.pkg = "" ∧ t.name = n ∧ t.args = []

mutual
/-- Put types in for the parameters. -/
def subst (σ : Text → Option Ty) : Ty → Ty
  | mk b p n w [] => if b = false ∧ p = "" then (σ n).getD (mk b p n w []) else mk b p n w []
  | mk b p n w (a :: as) => mk b p n w (subst σ a :: substAll σ as)
def substAll (σ : Text → Option Ty) : List Ty → List Ty
  | [] => []
  | a :: as => subst σ a :: substAll σ as
end

end Ty

/-- A field, parameter or function result of a declaration: name, type and the type arguments written behind the type. -/
structure TPart where
  name : Text
  ty : Ty
  tyargs : List Text

/-- A declaration of the schema. -/
structure SDecl where
  kind : TKind
  tparams : List Text
  fields : List TPart
  params : List TPart
  funcs : List TPart

/-- The schema: what each package declares. -/
abbrev TSchema := String → Text → Option SDecl

/-- The arguments by parameter name. -/
def SDecl.sigma (d : SDecl) (args : List Ty) : Text → Option Ty := fun n => (d.tparams.zip args).lookup n

/-- The declaration a resolved name stands for after instantiation. -/
def TSt.decl (s : TSt) (p : String) (n : Text) : Option (TKind × TDecl) :=
  match s.kinds p n with
  | none => none
  | some k => (s.decls k p n).map fun d => (k, d)

/-- After instantiation reference `r` stands for the type `a` of the schema, looked at to depth `n`: a type without
arguments is the type of that name, and a template with arguments is a declaration without parameters whose parts have the
names of the template's parts and stand for their types with the arguments put in.  `strict` asks for the type arguments of
every part, too. -/
def StandsFor (strict : Bool) (W : TSchema) (s : TSt) : Nat → Ty → TPtr → Prop
  | 0, _, _ => True
  | n + 1, a, r => ∃ c, s.heap[r]? = some c ∧ c.targs = [] ∧
    if a.args = [] then c.builtin = a.builtin ∧ c.pkg = a.pkg ∧ c.name = a.name ∧ c.bits = a.bits
    else c.builtin = false ∧ ∃ d e, W a.pkg a.name = some d ∧ s.decl c.pkg c.name = some (d.kind, e) ∧ e.tparams = [] ∧
      let same := List.Forall₂ fun (x : TPart) (y : Text × TPtr) => x.name = y.1 ∧
        StandsFor strict W s n (x.ty.subst (d.sigma a.args)) y.2 ∧
        (strict = true → ∃ c, s.heap[y.2]? = some c ∧ c.tyargs = x.tyargs)
      same d.fields e.fields ∧ same d.params e.params ∧ same d.funcs e.funcs

/-- The parts `ys` stand for the parts `xs` of the schema. -/
def PartsStandFor (strict : Bool) (W : TSchema) (s : TSt) (n : Nat) : List TPart → List (Text × TPtr) → Prop :=
  List.Forall₂ fun x y => x.name = y.1 ∧ StandsFor strict W s n x.ty y.2 ∧
    (strict = true → ∃ c, s.heap[y.2]? = some c ∧ c.tyargs = x.tyargs)

mutual
/-- Reference `r` was read from the text of type `t`. -/
inductive Spells (h : List TCell) : TPtr → Ty → Prop
  | mk {r : TPtr} {c : TCell} {args : List Ty} : h[r]? = some c → SpellsArgs h c.targs args →
      Spells h r (.mk c.builtin c.pkg c.name c.bits args)
/-- Template arguments have no type arguments (ZserioParser.g4:338-340). -/
inductive SpellsArgs (h : List TCell) : List TPtr → List Ty → Prop
  | nil : SpellsArgs h [] []
  | cons {r : TPtr} {rs : List TPtr} {t : Ty} {ts : List Ty} {c : TCell} : h[r]? = some c → c.tyargs = [] →
      Spells h r t → SpellsArgs h rs ts → SpellsArgs h (r :: rs) (t :: ts)
end

/-- The parts as parsed. -/
def PartsSpell (h : List TCell) : List TPart → List (Text × TPtr) → Prop :=
  List.Forall₂ fun x y => x.name = y.1 ∧ Spells h y.2 x.ty ∧ ∃ c, h[y.2]? = some c ∧ c.tyargs = x.tyargs

/-- `s` is the model of schema `W` before instantiation; every name is declared once. -/
structure Parsed (W : TSchema) (s : TSt) : Prop where
  kinds : ∀ p n, s.kinds p n = (W p n).map (·.kind)
  decls : ∀ k p n e, s.decls k p n = some e → ∃ d, W p n = some d ∧ d.kind = k
  parts : ∀ p n d, W p n = some d → ∃ e, s.decls d.kind p n = some e ∧ e.tparams = d.tparams ∧
    PartsSpell s.heap d.fields e.fields ∧ PartsSpell s.heap d.params e.params ∧ PartsSpell s.heap d.funcs e.funcs

end Verif
