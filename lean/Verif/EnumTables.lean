import Verif.AstEnum

/-!
# The tables of generated enums

The constants, slices and maps that the code of an enum declares, what Go makes of them, and what callers of the generated
functions can do to them: /repo/internal/generator/templates/enum.go.tmpl.
-/

namespace Verif

/-- The numbers of a Go integer type. -/
def GoNum.holds (g : GoNum) (z : Int) : Bool :=
  if g.signed then decide (-(2 : Int) ^ (g.width - 1) ≤ z ∧ z < 2 ^ (g.width - 1)) else decide (0 ≤ z ∧ z < 2 ^ g.width)

/-- One line of the constant block, /repo/internal/generator/templates/enum.go.tmpl:8-18; `none` if Go rejects it: a constant must be a
number of its type.  Simplified: items that are no integers are rejected, whatever text they are. -/
def enumConst (g : GoNum) (i : EItem) : Option (String × BitVec g.width) :=
  match i.expr with
  | some (.ok (.int v)) => if g.holds v.toInt then some (i.name, BitVec.ofInt g.width v.toInt) else none
  | _ => none

/-- /repo/internal/generator/templates/enum.go.tmpl:8-42: the constant block, and the maps from values to names and from names to
values; `none` if Go rejects them: the keys of a map literal must be distinct. -/
def enumTable (g : GoNum) (items : List EItem) : Option (EnumTable g.width) := do
  let cs ← items.mapM (enumConst g)
  if (cs.map (·.2)).Nodup ∧ (cs.map (·.1)).Nodup then some cs else none

/-- The variables of the code of an enum: the maps (lines 32-42), the arrays behind `_XNames` and `_XValues` (lines 20-30), and the
arrays that `XStrings` has made so far. -/
structure EnumVars (w : Nat) where
  table : EnumTable w
  names : List String
  values : List (BitVec w)
  copies : List (List String)

/-- The variables when the program starts. -/
def EnumVars.init {w : Nat} (t : EnumTable w) : EnumVars w := ⟨t, t.map (·.1), t.map (·.2), []⟩

/-- What users of the package do. -/
inductive EnumOp (w : Nat) where
  /-- `XValues()` -/
  | values
  /-- `XStrings()` -/
  | strings
  /-- `XString(s)` -/
  | parse (s : String)
  /-- `v.String()` -/
  | str (v : BitVec w)
  /-- `l[i] = v` for a slice that `XValues` returned -/
  | setValue (i : Nat) (v : BitVec w)
  /-- `l[i] = s` for the slice that call `k` of `XStrings` returned -/
  | setString (k i : Nat) (s : String)

/-- What they get. -/
inductive EnumAnswer (w : Nat) where
  | values (l : List (BitVec w))
  | strings (l : List String)
  | value (v : Option (BitVec w))
  | string (s : String)
  | nothing

/-- /repo/internal/generator/templates/enum.go.tmpl:44-73.  `XValues` (lines 45-47) returns the variable itself, `XStrings` (lines
50-54) a copy.  Indices out of range, at which the user's program panics, change nothing here. -/
def EnumVars.step {w : Nat} (unknown : BitVec w → String) (st : EnumVars w) : EnumOp w → EnumAnswer w × EnumVars w
  | .values => (.values st.values, st)
  | .strings => (.strings st.names, { st with copies := st.copies ++ [st.names] })
  | .parse s => (.value (st.table.parse s), st)
  | .str v => (.string (st.table.str unknown v), st)
  | .setValue i v => (.nothing, { st with values := st.values.set i v })
  | .setString k i s => (.nothing, { st with copies := st.copies.modify k fun l => l.set i s })

/-- The variables after some operations, one after the other. -/
def EnumVars.run {w : Nat} (unknown : BitVec w → String) (st : EnumVars w) (ops : List (EnumOp w)) : EnumVars w :=
  ops.foldl (fun st op => (st.step unknown op).2) st

end Verif
