import Verif.Spec

/-!
# Which files are read

Source: /repo/internal/model/model.go:40-88 (`FromFilesystem`, `walkDir`), with `filepath.WalkDir` and `os.Lstat` of the Go
standard library, transcribed from their published source.

Names are lists of characters.  A path is the argument of the command followed by the names of the directory entries that lead
to the file; the text that `filepath.Join` makes of it is not modelled.
-/

namespace Verif

/-- A file system below some path, as /repo/internal/model/model.go:57-79 sees it.  `link` is a symbolic link, whatever it points to: `filepath.WalkDir` does not follow it.
A directory has its entries in the order `os.ReadDir` returns them; `readable` is whether it does return them. -/
inductive FsNode where
  | file
  | link
  | dir (readable : Bool) (entries : List (List Char × FsNode))

/-- `d.IsDir()`, /repo/internal/model/model.go:63 -/
def FsNode.isDir : FsNode → Bool
  | .dir _ _ => true
  | _ => false

/-- `strings.HasPrefix(d.Name(), ".")`, /repo/internal/model/model.go:64, 70 -/
def isHidden (name : List Char) : Bool := ['.'].isPrefixOf name

/-- `strings.HasSuffix(d.Name(), ".zs") || strings.HasSuffix(d.Name(), ".zserio")`, /repo/internal/model/model.go:74 -/
def isSchemaName (name : List Char) : Bool :=
  ['.', 'z', 's'].isSuffixOf name || ['.', 'z', 's', 'e', 'r', 'i', 'o'].isSuffixOf name

mutual
/-- `filepath.walkDir` with the function of /repo/internal/model/model.go:59-79 put in: the paths it appends for the entry
`name` reached by `path`, or the error that ends the walk.  `fs.SkipDir` is only returned for directories and then leaves out
that directory. -/
def walkNode (path : List (List Char)) (name : List Char) : FsNode → Except Unit (List (List (List Char)))
  | .dir readable entries =>
    if isHidden name then .ok []
    else if readable then walkEntries path entries
    else .error ()
  | _ =>
    if isHidden name then .ok []
    else if isSchemaName name then .ok [path]
    else .ok []

/-- The loop of `filepath.walkDir` (called at /repo/internal/model/model.go:59) over the entries of a directory. -/
def walkEntries (path : List (List Char)) : List (List Char × FsNode) → Except Unit (List (List (List Char)))
  | [] => .ok []
  | (n, node) :: rest => do
    let here ← walkNode (path ++ [n]) n node
    let others ← walkEntries path rest
    pure (here ++ others)
end

/-- `os.basename` (Go library, called by `filepath.WalkDir` at /repo/internal/model/model.go:59): the name `os.Lstat` gives to a path.  Slashes at the end go first (but not the first character), then
everything up to the last slash. -/
def stripTrailingSlashes (path : List Char) : List Char :=
  match path with
  | [] => []
  | c :: cs => c :: (cs.reverse.dropWhile (· = '/')).reverse

/-- `os.basename` (Go library), as above.  The path `/` keeps its slash, because the loop that looks for a slash starts before the last character. -/
def baseName (path : List Char) : List Char :=
  match (stripTrailingSlashes path).reverse with
  | [] => []
  | last :: before => (before.takeWhile (· ≠ '/')).reverse ++ [last]

/-- /repo/internal/model/model.go:57-88 `walkDir` -/
def walkDir (root : List Char) (node : Option FsNode) : Except Unit (List (List (List Char))) :=
  match node with
  | none => .error ()
  | some node => walkNode [] (baseName root) node

/-- /repo/internal/model/model.go:40-55 `FromFilesystem`: the files handed to `FromFiles`, each as the argument it comes from
and the entries below it. -/
def filesToParse (args : List (List Char × Option FsNode)) : Except Unit (List (List Char × List (List Char))) :=
  match args with
  | [] => .error ()
  | [(root, node)] => do
    let paths ← walkDir root node
    pure (paths.map fun p => (root, p))
  | _ => .ok (args.map fun a => (a.1, []))

/-- `antlr.NewFileStream`, /repo/internal/model/package.go:11-14: reading a directory or something that is not there fails.
Links are taken to lead to a file. -/
def openFile (node : Option FsNode) : Except Unit Unit :=
  match node with
  | none => .error ()
  | some (.dir _ _) => .error ()
  | some _ => .ok ()

/-- /repo/internal/model/model.go:24-38 `FromFiles` as far as opening goes, for arguments that are files themselves. -/
def openAll : List (List Char × Option FsNode) → Except Unit (List (List Char))
  | [] => .ok []
  | (root, node) :: rest => do
    openFile node
    let others ← openAll rest
    pure (root :: others)

end Verif
