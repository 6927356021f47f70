import Verif.Files
import Mathlib.Data.List.Lex
import Mathlib.Data.Char

/-!
# The list of generated outputs

Source: /repo/internal/generator/gen.go:182-304.
-/

namespace Verif

/-- A type declaration, as far as the list of outputs goes. -/
structure TypeDecl where
  kind : Text
  name : Text
  hasTemplateParameters : Bool
deriving DecidableEq

/-- /repo/internal/generator/gen.go:182-188 `output`; `source` stands for the data handed to the template. -/
structure Output where
  name : Text
  template : Text
  source : Option TypeDecl
deriving DecidableEq

/-- /repo/internal/generator/gen.go:204-243 `newTypeOutput` -/
def newTypeOutput (d : TypeDecl) : Output := ⟨toSnake d.name, d.kind ++ ".go.tmpl".toList, some d⟩

/-- The comparison of /repo/internal/generator/gen.go:295-301. -/
def outputLess (a b : Output) : Bool :=
  if a.template = b.template then decide (b.name < a.name) else decide (b.template < a.template)

/-- `sort.Slice` uses insertion sort for up to twelve elements (Go sources, sort/zsortfunc.go, `insertionSort_func`): the new
element moves left while it is less than its neighbour.  The list is the sorted part, last element first. -/
def insertBack (less : Output → Output → Bool) (x : Output) : List Output → List Output
  | [] => [x]
  | y :: ys => if less x y then y :: insertBack less x ys else x :: y :: ys

def insertionSort (less : Output → Output → Bool) (l : List Output) : List Output :=
  (l.foldl (fun r x => insertBack less x r) []).reverse

/-- What `sort.Slice` promises: the same elements, none less than one before it.  Which of several such lists it returns
depends on the input. -/
def SortResult (less : Output → Output → Bool) (l r : List Output) : Prop :=
  r.Perm l ∧ r.Pairwise fun a b => less b a = false

/-- The declarations of a package in the order in which the maps are iterated over. -/
structure PkgDecls where
  enums : List TypeDecl
  unions : List TypeDecl
  bitmasks : List TypeDecl
  choices : List TypeDecl
  structs : List TypeDecl

/-- /repo/internal/generator/gen.go:261-293: the outputs before sorting. -/
def PkgDecls.outputs (p : PkgDecls) : List Output :=
  (p.enums ++ p.unions.filter (!·.hasTemplateParameters) ++ p.bitmasks ++ p.choices.filter (!·.hasTemplateParameters) ++
    p.structs.filter (!·.hasTemplateParameters)).map newTypeOutput

/-- /repo/internal/generator/gen.go:303: the output of the package itself. -/
def pkgOutput : Output := ⟨"pkg".toList, "package.go.tmpl".toList, none⟩

/-- /repo/internal/generator/gen.go:255-304 `newOutputs`, with any sorting algorithm. -/
def newOutputs (sort : List Output → List Output) (p : PkgDecls) : List Output := pkgOutput :: sort p.outputs

end Verif
