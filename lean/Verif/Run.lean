import Verif.Strip

/-!
# A run of the generator

Source: /repo/internal/generator/gen.go:65-135, 169-192, 306-337, and /repo/internal/cli/generate.go:23-53: what `generate` leaves on the disk.

What the templates produce and what `go/format` makes of it are parameters.  The disk is a map from paths to texts; directories are not represented.
Each file has its own faults, as the machine may fail at any time.
-/

namespace Verif

/-- Files with their contents. -/
abbrev Disk := Text → Option Text

/-- How a run ends. -/
inductive Ending where
  | done
  /-- with an error -/
  | failed
  | panicked
deriving DecidableEq

/-- What the system does when one file is written: whether the directory is there or can be made, whether the file can be opened, after how many
characters writing fails (if it does), whether the file can be removed again. -/
structure Faults where
  mkdir : Bool
  opens : Bool
  stops : Option Nat
  removes : Bool

/-- The options of a run, /repo/internal/generator/gen.go:22-29; `only` is the argument `outputPackage` of `Generate`. -/
structure GenOptions where
  rootPackage : Text
  noFormat : Bool
  only : Text
  maxLen : Nat

/-- An output, /repo/internal/generator/gen.go:194-201: its name, and what its templates make of it (an error, or code). -/
structure Job where
  name : Text
  code : Except Unit Text

/-- A package of the model with its outputs, in order (/repo/internal/generator/gen.go:257-304). -/
structure JobPackage where
  name : Text
  jobs : List Job

/-- /repo/internal/generator/gen.go:108-109: the directory of a package, for a root that is a clean path (`path.Join`). -/
def outputDir (root pkg : Text) : Text := pathJoin root (pkg.map fun c => if c = '.' then '/' else toLow c)

/-- /repo/internal/generator/gen.go:169-192 `writeGoSource` up to the call of `Write`: the text that is written, or how it ends without one. -/
def sourceText (format : Text → Option Text) (noFormat : Bool) (code : Text) : Except Ending Text :=
  if noFormat then .ok code
  else match stripImports code with
    | none => .error .panicked
    | some code => match format code with
      | none => .error .failed
      | some text => .ok text

/-- /repo/internal/generator/gen.go:124-130, the deferred function: the file is removed, errors of that are ignored. -/
def cleanUp (fl : Faults) (p : Text) (left : Text) (d : Disk) : Disk := Function.update d p (if fl.removes then none else some left)

/-- /repo/internal/generator/gen.go:107-135 `writeToFile`.  Opening creates the file or makes it empty (`O_CREAT`, `O_TRUNC`).  During a panic `retErr`
is still nil, so that the file stays. -/
def writeToFile (format : Text → Option Text) (o : GenOptions) (fl : Faults) (root pkg fn code : Text) (m : PathCounts) (d : Disk) :
    Ending × PathCounts × Disk :=
  match assembleUniqueFilePath m (outputDir root pkg) fn o.maxLen with
  | .error _ => (.failed, m, d)
  | .ok (p, m) =>
    if !fl.mkdir then (.failed, m, d)
    else if !fl.opens then (.failed, m, d)
    else match sourceText format o.noFormat code with
      | .error .panicked => (.panicked, m, Function.update d p (some []))
      | .error _ => (.failed, m, cleanUp fl p [] d)
      | .ok text => match fl.stops with
        | none => (.done, m, Function.update d p (some text))
        | some k => (.failed, m, cleanUp fl p (text.take k) d)

/-- The loops of /repo/internal/generator/gen.go:88-92 and 324-333 over the packages and their outputs, as one loop; `faults i` are those of the
`i`-th file. -/
def writeJobs (format : Text → Option Text) (o : GenOptions) (root : Text) (faults : Nat → Faults) :
    Nat → List (Text × Job) → PathCounts → Disk → Ending × Disk
  | _, [], _, d => (.done, d)
  | i, (pkg, j) :: rest, m, d =>
    match j.code with
    | .error _ => (.failed, d)
    | .ok code =>
      match writeToFile format o (faults i) root pkg j.name code m d with
      | (.done, m, d) => writeJobs format o root faults (i + 1) rest m d
      | (e, _, d) => (e, d)

/-- The outputs of a package one after another, /repo/internal/generator/gen.go:314-321. -/
def joinJobs : List Job → Except Unit Text
  | [] => .ok []
  | j :: js => do
    let code ← j.code
    let rest ← joinJobs js
    pure (code ++ rest)

/-- What a run does: how it ends, the files, and what it prints. -/
structure RunResult where
  ending : Ending
  disk : Disk
  printed : Text

/-- /repo/internal/generator/gen.go:314-323 `generatePackage` for the standard output; the package itself is written with the first preamble. -/
def printPackage (format : Text → Option Text) (o : GenOptions) (fl : Faults) (p : JobPackage) (d : Disk) : RunResult :=
  if o.rootPackage = [] then ⟨.failed, d, []⟩
  else match joinJobs p.jobs with
    | .error _ => ⟨.failed, d, []⟩
    | .ok code => match sourceText format o.noFormat code with
      | .error e => ⟨e, d, []⟩
      | .ok text => match fl.stops with
        | none => ⟨.done, d, text⟩
        | some k => ⟨.failed, d, text.take k⟩

/-- /repo/internal/generator/gen.go:65-94 `Generate`, the first one of a process.  `packages` is `m.Packages` in the order of iteration.  Every package
begins with the check of /repo/internal/generator/gen.go:307-309, so that without a root package nothing is written. -/
def generate (format : Text → Option Text) (o : GenOptions) (root : Text) (faults : Nat → Faults) (packages : List JobPackage) (d : Disk) : RunResult :=
  if root = ['-'] then
    match packages.find? (fun p => p.name = o.only) with
    | none => ⟨.failed, d, []⟩
    | some p => printPackage format o (faults 0) p d
  else if o.rootPackage = [] ∧ packages ≠ [] then ⟨.failed, d, []⟩
  else
    let r := writeJobs format o root faults 0 (packages.flatMap fun p => p.jobs.map fun j => (p.name, j)) (fun _ => none) d
    ⟨r.1, r.2, []⟩

end Verif
