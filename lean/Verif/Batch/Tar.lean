/-!
# Model of `BatchParallel::tar`

`/repo/src/BatchParallel/tar.pm:116-220`. A path is its list of components, as `split(m!/!, ...)` gives them: the first component of an absolute path is empty. Components have no `/` and no newline, and only the first can be empty (no trailing or double slashes). The reading of the list by `tar --files-from` is modelled
too: a line `-C<dir>` changes the directory, relative to the one before.
-/

namespace Verif.Batch.Tar

/-- Used in the model of `tar.pm:138-139` (`flat`). -/
abbrev Name := List Char
/-- Used in the model of `tar.pm:116-142` (`pathToParts`). -/
abbrev Path := List Name

/-- Used in the model of `tar.pm:116-142` (`pathToParts`). -/
structure Opts where
  target : Nat
  pathParts : Option Nat := none
  stripPath : Option Nat := none
deriving Repr

/-- `pathToParts`, lines 116-142: the directory and the rest; at most one of the options is set (lines 68-69). -/
def pathToParts (o : Opts) (p : Path) : Path × Path :=
  match o.pathParts, o.stripPath with
  | some k, _ => (p.take (p.length - k), p.drop (p.length - k))
  | none, some k => (p.take k, p.drop k)
  | none, none => ([], p)

/-- `join("/", @parts)`. Used in the model of `tar.pm:138-139` (`flat`). -/
def joinSlash : Path → Name
  | [] => []
  | [n] => n
  | n :: p => n ++ '/' :: joinSlash p

/-- The name with `/` replaced by `_`, lines 138-139. -/
def flat (p : Path) : Name := (joinSlash p).map fun c => if c = '/' then '_' else c

/-- The name of the destination, lines 151-160, without the directory. -/
def destName (o : Opts) (first last : Path) : Name :=
  let f := flat (pathToParts o first).2
  let l := flat (pathToParts o last).2
  (if f ≠ l then f ++ "--".toList ++ l else f) ++ ".tar".toList

/-- A file: its path and size. Used in the model of `tar.pm:190` (`est`). -/
abbrev File := Path × Nat

/-- Lines 190 and 201: the guess of what a file costs. -/
def est (f : File) : Nat := f.2 + 200

/-- `newThing` for a group, lines 144-163: `none` if it dies; the second argument are the names taken. -/
def newThing (o : Opts) (taken : List Name) (group : List File) : Option Name :=
  match group.head?, group.getLast? with
  | some f, some l => if destName o f.1 l.1 ∈ taken then none else some (destName o f.1 l.1)
  | _, _ => none

/-- Lines 191-213: the groups with their destinations; `none` if it dies. -/
def group (o : Opts) : List File → List File → Nat → List Name → Option (List (Name × List File))
  | [], cur, _, taken =>
    if cur ≠ [] then (newThing o taken cur).map fun n => [(n, cur)] else some []
  | f :: fs, cur, size, taken =>
    if f.1.head?.bind List.head? = some '-' then none
    else if est f > o.target then none
    else if size + est f > o.target then
      match newThing o taken cur with
      | none => none
      | some n => (group o fs [f] (est f) (n :: taken)).map ((n, cur) :: ·)
    else group o fs (cur ++ [f]) (size + est f) taken

/-- Made of the parts of `tar.pm:191-213`. -/
def groups (o : Opts) (fs : List File) : Option (List (Name × List File)) := group o fs [] 0 []

/-! ## The list given to `tar` -/

/-- Used in the model of `tar.pm:165-173` (`tarList`). -/
inductive Line where
  | chdir (dir : Path)
  | member (path : Path)
deriving DecidableEq, Repr

/-- Lines 165-173. `$dir eq ''`: no components, or only the empty one of the root. -/
def tarList (o : Opts) (ps : List Path) : List Line :=
  ps.flatMap fun p =>
    let d := pathToParts o p
    if joinSlash d.1 = [] then [.member d.2] else [.chdir d.1, .member d.2]

/-- Where a path leads from a directory. Made of the parts of `tar.pm:116-142`. -/
def resolve (cwd p : Path) : Path := if p.head? = some [] then p else cwd ++ p

/-- How `tar` takes a line: one that begins with `-C` changes the directory, whatever it was meant to be. (Other options are not modelled.) Made of the parts of `tar.pm:165-173`. -/
def asRead : Line → Line
  | .chdir d => .chdir d
  | .member (('-' :: 'C' :: n) :: p) => .chdir (n :: p)
  | .member p => .member p

/-- What `tar` does with the list: the files it reads and the names it stores them under. Made of the parts of `tar.pm:116-173`. -/
def tarReads : Path → List Line → List (Path × Path)
  | _, [] => []
  | cwd, l :: ls => match asRead l with
    | .chdir d => tarReads (resolve cwd d) ls
    | .member p => (resolve cwd p, p) :: tarReads cwd ls

end Verif.Batch.Tar
