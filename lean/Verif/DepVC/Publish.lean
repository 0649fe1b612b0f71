/-! # deptool publish: commit, test, pull and push

Model of src/deptool.in: depCommitOptions and depCommitDoCommit (1929-2010), depPullOne (1856-1863), depPublish and depSyncOne (2490-2533), and of the git interface: tryCommit (4987-5040), pull (5117-5166), tryPush and sync (5168-5200).

The versions of a project are commits; what its files contain is one value, `Tree`. `depBuildStandard` (modelled in `Verif.Deptool.Build`) is one step that looks at the files of all projects at once and succeeds or dies. Before every step somebody may edit files; what other people push shows in the merges and in the pushes that fail. Files that git does not know are in `Verif.DepVC.Unknown`. `git push` is taken to push the head of the current branch. -/

namespace Verif.DepVC

/-- Used in the model of `deptool.in:4980-4985` (`dirty`). -/
abbrev Proj := Nat
/-- Used in the model of `deptool.in:5003-5039` (`Commit`). -/
abbrev Tree := Nat

/-- A commit: its name (a hash of all it consists of) and the files. Used in the model of `deptool.in:5003-5039` (`afterCommit`). -/
structure Commit where
  id : Nat
  tree : Tree
deriving DecidableEq

/-- Used in the model of `deptool.in:5168-5178` (`tryPush`). -/
inductive Remote where
  | localCache | origin
deriving DecidableEq

/-- Not a function of the code; stands for the uses of `deptool.in:1665-1673`. -/
inductive Ev where
  /-- `depBuildStandard` ended well with these files; whether it ran the tests. -/
  | verify (files : Proj → Tree) (tests : Bool)
  | commit (p : Proj) (c : Commit)
  | merged (p : Proj) (c : Commit)
  | push (r : Remote) (p : Proj) (c : Commit)

/-- What happens around the program; the number is that of the step. Used in the model of `deptool.in:1665-1673` (`verify`). -/
structure Env where
  /-- somebody gives a project other files, before the step -/
  edit : Nat → Proj → Option Tree
  /-- build and tests end well -/
  passes : Nat → Bool
  /-- `git commit` ends well (the message was not left empty) -/
  commits : Nat → Bool
  /-- the two `git merge`: `none`, one of them fails; `some none`, up to date; otherwise the new head -/
  merge : Nat → Option (Option Commit)
  /-- the files after a merge into a directory with uncommitted changes -/
  mixed : Nat → Tree
  /-- `git push` ends well -/
  push : Nat → Remote → Bool

/-- Not a function of the code; stands for the uses of `deptool.in:1665-5200`. -/
structure St where
  now : Nat
  head : Proj → Commit
  work : Proj → Tree
  /-- `$options{made_changes}` -/
  made : Bool
  /-- newest first -/
  log : List Ev

/-- Used in the model of `deptool.in:5003-5039` (`afterCommit`). -/
def upd {α : Type} (f : Proj → α) (p : Proj) (v : α) : Proj → α := fun q => if q = p then v else f q

/-- A step begins; edits come before it. Used in the model of `deptool.in:1665-1673` (`verify`). -/
def tick (env : Env) (s : St) : St := { s with now := s.now + 1, work := fun p => (env.edit (s.now + 1) p).getD (s.work p) }

/-- `haveUncommittedChanges`, lines 4980-4985. -/
def dirty (s : St) (p : Proj) : Bool := decide (s.work p ≠ (s.head p).tree)

/-- `depBuildStandard`, lines 1665-1673; `false`: it dies. -/
def verify (env : Env) (tests : Bool) (s : St) : St × Bool :=
  let s1 := tick env s
  if env.passes s1.now then ({ s1 with log := .verify s1.work tests :: s1.log }, true) else (s1, false)

/-- Used in the model of `deptool.in:5003-5039` (`afterCommit`). -/
inductive Try where
  | done | again | die

/-- The commit itself, and the check for changes made meanwhile, lines 5003-5039. With `--amend` the new commit takes the place of the last one, which comes to the same. -/
def afterCommit (env : Env) (p : Proj) (s : St) : St × Try :=
  let c : Commit := ⟨s.now, s.work p⟩
  let s2 := tick env { s with head := upd s.head p c, log := .commit p c :: s.log }
  (s2, if dirty s2 p then .again else .done)

/-- `tryCommit`, lines 4987-5040. -/
def tryCommit (env : Env) (p : Proj) (s : St) : St × Try :=
  let s1 := tick env s
  if env.commits s1.now then afterCommit env p s1
  else (s1, if dirty s1 p then .again else .die)

/-- `depCommitDoCommit`, lines 1986-2010; `false`: it dies (or needs more rounds than there is fuel). -/
def commitOne (env : Env) (tests : Bool) (p : Proj) : Nat → St → St × Bool
  | 0, s => (s, false)
  | f + 1, s =>
    let s1 := tick env s
    if dirty s1 p then
      match verify env tests s1 with
      | (s2, false) => (s2, false)
      | (s2, true) =>
        match tryCommit env p s2 with
        | (s3, .done) => (s3, true)
        | (s3, .again) => commitOne env tests p f s3
        | (s3, .die) => (s3, false)
    else (s1, true)

/-- `pull` of git, lines 5117-5166. -/
def pull (env : Env) (p : Proj) (s : St) : St × Bool :=
  let s1 := tick env s
  match env.merge s1.now with
  | none => (s1, false)
  | some none => (s1, true)
  | some (some c) =>
    ({ s1 with head := upd s1.head p c, work := upd s1.work p (if dirty s1 p then env.mixed s1.now else c.tree), made := s1.made || decide (c ≠ s1.head p), log := .merged p c :: s1.log }, true)

/-- `depPullOne`, lines 1856-1863: `depCommitOne()` without options, for which `depBuildStandard` sets `tests`. -/
def pullOne (env : Env) (fuel : Nat) (p : Proj) (s : St) : St × Bool :=
  match commitOne env true p fuel s with
  | (s1, false) => (s1, false)
  | (s1, true) => pull env p s1

/-- `tryPush`, lines 5168-5178. -/
def tryPush (env : Env) (r : Remote) (p : Proj) (s : St) : St × Bool :=
  let s1 := tick env s
  if env.push s1.now r then ({ s1 with log := .push r p (s1.head p) :: s1.log }, true) else (s1, false)

/-- After a push failed, lines 5189-5192. -/
def syncPull (env : Env) (p : Proj) (s : St) : St × Bool :=
  match pull env p s with
  | (s1, false) => (s1, false)
  | (s1, true) => (s1, s1.made)

/-- `sync`, lines 5180-5200. -/
def syncOne (env : Env) (p : Proj) (s : St) : St × Bool :=
  match tryPush env .localCache p s with
  | (s1, false) => syncPull env p s1
  | (s1, true) =>
    match tryPush env .origin p s1 with
    | (s2, false) => syncPull env p s2
    | (s2, true) => (s2, true)

/-- `depWalk` with a function for each project (`Verif.Deptool.Deps` has the order). Used in the model of `deptool.in:2508-2528` (`publishLoop`). -/
def walk (f : Proj → St → St × Bool) : List Proj → St → St × Bool
  | [], s => (s, true)
  | p :: ps, s =>
    match f p s with
    | (s1, false) => (s1, false)
    | (s1, true) => walk f ps s1

/-- The loop of `depPublish`, lines 2508-2528. -/
def publishLoop (env : Env) (tests : Bool) (ps : List Proj) (fuel : Nat) : Nat → St → St × Bool
  | 0, s => (s, false)
  | n + 1, s =>
    match verify env tests { s with made := false } with
    | (s1, false) => (s1, false)
    | (s1, true) =>
      match walk (pullOne env fuel) ps s1 with
      | (s2, false) => (s2, false)
      | (s2, true) =>
        if s2.made then publishLoop env tests ps fuel n s2
        else
          match walk (syncOne env) ps s2 with
          | (s3, false) => (s3, false)
          | (s3, true) => if s3.made then publishLoop env tests ps fuel n s3 else (s3, true)

/-- `depCommitOptions`, lines 1937-1942. -/
def commitAll (env : Env) (tests : Bool) (ps : List Proj) (fuel : Nat) (s : St) : St × Bool :=
  match verify env tests s with
  | (s1, false) => (s1, false)
  | (s1, true) => walk (fun p => commitOne env tests p fuel) ps s1

/-- `depPublish`, lines 2490-2528: `tests` is the option, `untested` whether deptool.config has `untested_repository`. What is set then, `MTN_SERVER`, means nothing to git (so the comment at line 5183). -/
def publish (env : Env) (tests untested : Bool) (ps : List Proj) (fuel : Nat) (s : St) : St × Bool :=
  if !tests && !untested then (s, false)
  else
    match commitAll env tests ps fuel s with
    | (s1, false) => (s1, false)
    | (s1, true) => publishLoop env tests ps fuel fuel s1

end Verif.DepVC
