import Verif.Deptool.Deps

/-! # deptool pull: which projects are pulled, and which branches are merged

Model of src/deptool.in: depPull, depPullOne, depPullCheckClean (1847-1886) with the walk over the dependencies (depWalkRecurse, 3387-3426), and of the git interface: getAllBranches, getCurrentBranch (5052-5085) and the choice of the branches in pull (5132-5157).

In the walk a project is a value of a type `α` and what is checked out in it is a value of a type `V`, which says what the project depends on. Whether a project has unknown files or changes is given for the whole run: nobody edits meanwhile, so `depCommitOne` (line 1861) finds nothing to do. `arrives` says which version `pull` leaves, `none` if one of its commands fails and the program dies. Projects that are missing are not modelled (lines 3414-3415). The lines of `git branch -a` are texts without their newline. -/

namespace Verif.DepVC.Pull

open Verif.Deptool.Deps (Text)

/-! ## The walk -/

/-- Not a function of the code; stands for what `deptool.in:1847-1886` finds around it. -/
structure Env (α V : Type) where
  /-- `--unsafe` -/
  unsafePull : Bool
  /-- unknown files or uncommitted changes -/
  dirty : α → Bool
  /-- the file of dependencies in a version of a project -/
  depends : α → V → List α
  /-- the version after `pull` -/
  arrives : α → Option V

/-- Not a function of the code; stands for the uses of `deptool.in:1847-1886`. -/
inductive Ev (α : Type) where
  | checked (x : α)
  | pulled (x : α)
deriving DecidableEq, Repr

/-- Used in the model of `deptool.in:3387-3426` (`walk`). The log has the newest event first. -/
structure St (α V : Type) where
  visited : List α
  vers : α → V
  log : List (Ev α)

/-- Used in the model of `deptool.in:3387-3426` (`walk`). -/
inductive Out (α V : Type) where
  /-- more steps are needed than were given -/
  | stuck
  | died (s : St α V)
  | done (s : St α V)

/-- What `depPullCheckClean` does, lines 1873-1886: does it die? -/
def refuses {α V : Type} (e : Env α V) (x : α) : Bool := !e.unsafePull && e.dirty x

/-- `depWalkRecurse`, lines 3387-3426, with the functions of `depPull`, lines 1853-1854, for the projects of a list one after the other. -/
def walk {α V : Type} [DecidableEq α] (e : Env α V) : Nat → List α → St α V → Out α V
  | _, [], s => .done s
  | 0, _ :: _, _ => .stuck
  | fuel + 1, x :: xs, s =>
    if x ∈ s.visited then walk e fuel xs s
    else if refuses e x then .died { s with visited := x :: s.visited }
    else
      match walk e fuel (e.depends x (s.vers x)) { s with visited := x :: s.visited, log := .checked x :: s.log } with
      | .stuck => .stuck
      | .died s' => .died s'
      | .done s' =>
        match e.arrives x with
        | none => .died s'
        | some v => walk e fuel xs { s' with vers := fun y => if y = x then v else s'.vers y, log := .pulled x :: s'.log }

/-- `depPull`, lines 1847-1855. -/
def pull {α V : Type} [DecidableEq α] (e : Env α V) (fuel : Nat) (root : α) (vers : α → V) : Out α V :=
  walk e fuel [root] { visited := [], vers := vers, log := [] }

/-! ## The branches -/

/-- `\s` of ASCII; used in the model of `deptool.in:5058-5062` (`branchLine`). -/
def isSpace (c : Char) : Bool := c == ' ' || c == '\t' || c == '\n' || c == '\r' || c == '\x0c' || c == '\x0b'

/-- `\S+` on a whole text; used in the model of `deptool.in:5058-5062` (`branchLine`). -/
def solid (t : Text) : Bool := !t.isEmpty && t.all (fun c => !isSpace c)

/-- The values of the table, lines 5059-5063. -/
inductive Info where
  | current
  | plain
  | reference (to : Text)
deriving DecidableEq, Repr

/-- Lines 5062-5063, after the two blanks: what `(\S+) -> (\S+)` finds. -/
def arrow (t : Text) : Option (Text × Text) :=
  match t.dropWhile (fun c => !isSpace c) with
  | ' ' :: '-' :: '>' :: ' ' :: r => if solid (t.takeWhile (fun c => !isSpace c)) && solid r then some (t.takeWhile (fun c => !isSpace c), r) else none
  | _ => none

/-- One line, lines 5058-5067; `none`: the `die`. -/
def branchLine : Text → Option (Text × Info)
  | '*' :: ' ' :: t => if solid t then some (t, .current) else none
  | ' ' :: ' ' :: t =>
    if solid t then some (t, .plain)
    else
      match arrow t with
      | some (a, b) => some (a, .reference b)
      | none => none
  | _ => none

/-- `getAllBranches`, lines 5052-5072, as a list of the entries of the table in the order in which they were made. -/
def allBranches : List Text → List (Text × Info) → Option (List (Text × Info))
  | [], table => some table
  | l :: ls, table =>
    match branchLine l with
    | none => none
    | some (b, i) => if table.any (fun e => e.1 = b) then none else allBranches ls (table ++ [(b, i)])

/-- `getCurrentBranch`, lines 5074-5085; which of two current ones is found first is not determined, but it dies in any case. -/
def currentBranch (table : List (Text × Info)) : Option Text :=
  match table.filter (fun e => e.2 = .current) with
  | [e] => some e.1
  | _ => none

/-- Line 5136. -/
def remoteBranch (remote cur : Text) : Text := ['r', 'e', 'm', 'o', 't', 'e', 's', '/'] ++ remote ++ '/' :: cur

/-- Used in the model of `deptool.in:5135-5136` (`toMerge`). -/
def origin : Text := ['o', 'r', 'i', 'g', 'i', 'n']
/-- Used in the model of `deptool.in:5135-5136` (`toMerge`). -/
def localCache : Text := ['l', 'o', 'c', 'a', 'l', '-', 'c', 'a', 'c', 'h', 'e']

/-- The branches that are merged one after the other, lines 5132-5157, from the lines of `git branch -a`; `none`: it dies. -/
def toMerge (lines : List Text) : Option (List Text) :=
  match allBranches lines [] with
  | none => none
  | some table =>
    match currentBranch table with
    | none => none
    | some cur => some (([origin, localCache].map (fun r => remoteBranch r cur)).filter (fun b => table.any (fun e => e.1 = b)))

end Verif.DepVC.Pull
