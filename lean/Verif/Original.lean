import Verif.Imports

/-!
# Symbols and original types

Lookup of symbols through imports, and following of subtypes to the type they stand for.
Source: /repo/internal/ast/package.go, /repo/internal/ast/scope.go.

Packages are identified by name.  Recursive searches take fuel, `none` means that it ran out.
-/

namespace Verif

/-- /repo/internal/ast/type_reference.go:3-19 `TypeReference` after type resolution, without its arguments. -/
structure TyRef where
  builtin : Bool
  pkg : String
  name : String
deriving DecidableEq

/-- The symbols of a scope, by what the two functions below do with them. -/
inductive Sym where
  /-- `*Enum`, `*Union`, `*BitmaskType`, `*Choice`, `*Struct` -/
  | compound
  /-- `*Field`, `*Parameter`, `*Subtype` with their type -/
  | link (t : TyRef)
  /-- `*TypeReference`; not stored in scopes, but a starting point of `GetOriginalSymbol` -/
  | ref (t : TyRef)
  /-- `*EnumItem`, `*Function` -/
  | member
  /-- anything else: `*Const`, `*InstantiateType` -/
  | other
deriving DecidableEq

/-- The packages of a model with their symbol tables, /repo/internal/ast/package.go:9-27, /repo/internal/ast/scope.go. -/
structure World where
  /-- `ImportedPackages` -/
  g : ImportGraph
  /-- `LocalSymbols.TypeScope` -/
  types : String → String → Option Sym
  /-- the members of the current compound scope, if one is set -/
  compound : String → String → Option Sym
  /-- `LocalSymbols.OtherScope` -/
  others : String → String → Option Sym

/-- First package of a list whose table has the name. -/
def firstIn (table : String → String → Option Sym) (name : String) : List String → Option (Sym × String)
  | [] => none
  | q :: qs => match table q name with
    | some s => some (s, q)
    | none => firstIn table name qs

/-- /repo/internal/ast/package.go:209-228 `GetSymbol` with 230-247 `GetType`, 249-268 `GetCurrentCompoundType` and 285-298
`GetOtherType`; the symbol and the package it comes from. -/
def getSymbol (w : World) (fuel : Nat) (p name : String) : Option (Except Unit (Sym × String)) :=
  match firstIn w.types name (p :: w.g p) with
  | some r => some (.ok r)
  | none => match firstIn w.compound name (p :: w.g p) with
    | some r => some (.ok r)
    | none => match getOtherType w.g (fun q => (w.others q name).isSome) fuel p with
      | none => none
      | some (.error _) => some (.error ())
      | some (.ok q) => match w.others q name with
        | some s => some (.ok (s, q))
        | none => some (.error ())

/-- /repo/internal/ast/package.go:29-36 `OriginalTypeReference` -/
structure OrigType where
  type : TyRef
  requiresCast : Bool
  isMarshaler : Bool
deriving DecidableEq

/-- /repo/internal/ast/package.go:352-419: the loop of `GetOriginalType`.  The first number is how many more links may be
followed (100 minus `counter`).  The `:=` inside the loop declares a new `currentScope`, so each lookup starts at `p`. -/
def originalLoop (w : World) (fuel : Nat) (p : String) : Nat → Bool → TyRef → Option (Except Unit OrigType)
  | k, cast, t =>
    if t.builtin then some (.ok ⟨t, cast, false⟩)
    else match getImportedScope w.g fuel p t.pkg with
      | none => none
      | some (.error _) => some (.error ())
      | some (.ok q) => match getSymbol w fuel q t.name with
        | none => none
        | some (.error _) => some (.error ())
        | some (.ok (.compound, _)) => some (.ok ⟨t, cast, true⟩)
        | some (.ok (.link t', _)) => match k with
          | 0 => some (.error ())
          | k + 1 => originalLoop w fuel p k true t'
        | some (.ok _) => some (.error ())

/-- /repo/internal/ast/package.go:352-419 `GetOriginalType` -/
def getOriginalType (w : World) (fuel : Nat) (p : String) (t : TyRef) : Option (Except Unit OrigType) :=
  originalLoop w fuel p 100 false t

/-- The reference a symbol stands for, /repo/internal/ast/package.go:306-327. -/
def Sym.target : Sym → Option TyRef
  | .link t => some t
  | .ref t => some t
  | _ => none

/-- Symbols that are returned as they are, /repo/internal/ast/package.go:306-327. -/
def Sym.final : Sym → Bool
  | .compound => true
  | .member => true
  | _ => false

/-- /repo/internal/ast/package.go:300-350: the loop of `GetOriginalSymbol`; here the scope `p` does move along.  The first
number is how many more lookups may be made. -/
def symbolLoop (w : World) (fuel : Nat) : Nat → String → Sym × String → Option (Except Unit (Sym × String))
  | k, p, s =>
    if s.1.final then some (.ok s)
    else match s.1.target with
      | none => some (.error ())
      | some t =>
        if t.builtin then some (.ok (.ref t, ""))
        else match getImportedScope w.g fuel p t.pkg with
          | none => none
          | some (.error _) => some (.error ())
          | some (.ok q) => match getSymbol w fuel q t.name with
            | none => none
            | some (.error _) => some (.error ())
            | some (.ok s') => match k with
              | 0 => some (.error ())
              | k + 1 => symbolLoop w fuel k q s'

/-- /repo/internal/ast/package.go:300-350 `GetOriginalSymbol` -/
def getOriginalSymbol (w : World) (fuel : Nat) (p : String) (s : Sym × String) : Option (Except Unit (Sym × String)) :=
  symbolLoop w fuel 100 p s

end Verif
