import Verif.Deptool.Deps

/-! # deptool init: the copies of git repositories

Model of src/deptool.in: initRepositories (4903-4939) of `deptool::GitVC`. The disk holds the repositories by their path; a directory is there if a repository is in it or below. Each command may fail, and `runCommand` then dies (4107-4120); a failing `clone` leaves nothing behind, and a failing `config` or `remote` changes nothing. Being stopped between two commands is the same as the second one failing. Names contain no newline. -/

namespace Verif.DepVC.GitRepo

open Verif.Deptool.Deps (Text isWord)

/-- The settings of a repository that matter: `remote.origin.mirror`, whether `remote.origin.fetch` has a `+`, and the addresses. Used in the model of `deptool.in:4903-4939` (`initOne`). -/
structure Repo where
  mirror : Bool
  force : Bool
  url : Text
  pushUrl : Option Text
deriving DecidableEq

/-- Used in the model of `deptool.in:4903-4939` (`initOne`). -/
abbrev Disk := List (Text × Repo)

/-- `-d`, line 4920: the directory of a repository, or one that leads to it. -/
def isDir (d : Disk) (p : Text) : Bool := d.any fun x => decide (x.1 = p) || (p ++ ['/']).isPrefixOf x.1

/-- `m!^\w+://!`: what is behind it. Used in the model of `deptool.in:4908` (`urls`) and `4913` (`place`). -/
def scheme (t : Text) : Option Text :=
  match t.takeWhile isWord, t.dropWhile isWord with
  | _ :: _, ':' :: '/' :: '/' :: r => some r
  | _, _ => none

/-- Used in the model of `deptool.in:4907-4912` (`urls`). -/
def tSsh : Text := ['s', 's', 'h', ':', '/', '/', 'g', 'i', 't', 'o', 'l', 'i', 't', 'e', '@']
/-- Used in the model of `deptool.in:4907-4912` (`urls`). -/
def tGit : Text := ['g', 'i', 't', ':', '/', '/']

/-- The address to read from and the one to write to, lines 4907-4912. -/
def urls (server repo : Text) : Text × Text :=
  match scheme repo with
  | some _ => (repo, repo)
  | none => (tGit ++ server ++ '/' :: repo, tSsh ++ server ++ '/' :: repo)

/-- `m!^\w+://[^/]+/(.+)$!`, line 4913. -/
def place (url : Text) : Option Text :=
  match scheme url with
  | none => none
  | some r =>
    match r.takeWhile (· ≠ '/'), r.dropWhile (· ≠ '/') with
    | _ :: _, '/' :: c :: cs => some (c :: cs)
    | _, _ => none

/-- Where we are: the disk, what becomes of the next commands (those not listed succeed), and whether it goes on. Used in the model of `deptool.in:4903-4939` (`initOne`). -/
structure St where
  disk : Disk
  outs : List Bool
  alive : Bool
deriving DecidableEq

/-- `runCommand`: `f` is what it does if it succeeds, lines 4107-4120. -/
def cmd (f : Disk → Option Disk) (s : St) : St :=
  if s.alive then
    match s.outs with
    | false :: os => ⟨s.disk, os, false⟩
    | os =>
      match f s.disk with
      | some d => ⟨d, os.tail, true⟩
      | none => ⟨s.disk, os.tail, false⟩
  else s

/-- A change to the settings of a repository. Used in the model of `deptool.in:4932-4936` (`initOne`). -/
def change (p : Text) (f : Repo → Repo) (d : Disk) : Option Disk :=
  if d.any fun x => decide (x.1 = p) then some (d.map fun x => if x.1 = p then (x.1, f x.2) else x) else none

/-- `git fetch`: it takes a repository, and changes no setting. Used in the model of `deptool.in:4920-4922` (`initOne`). -/
def fetch (p : Text) (d : Disk) : Option Disk := change p id d

/-- `git clone --mirror`, line 4926. -/
def clone (p url : Text) (d : Disk) : Option Disk := some (d ++ [(p, ⟨true, true, url, none⟩)])

/-- Line 4932. -/
def unmirror (r : Repo) : Repo := { r with mirror := false }
/-- Line 4933. -/
def unforce (r : Repo) : Repo := { r with force := false }
/-- Lines 4934-4936. -/
def setPush (u : Text) (r : Repo) : Repo := { r with pushUrl := some u }

/-- The repository is there, lines 4920-4922. -/
def again (p : Text) (s : St) : St := cmd (fetch p) (cmd (fetch p) s)

/-- It is not, lines 4923-4937. -/
def fresh (p url rw : Text) (s : St) : St :=
  let t := cmd (change p unforce) (cmd (change p unmirror) (cmd (clone p url) s))
  if rw ≠ url then cmd (change p (setPush rw)) t else t

/-- One round of the loop, `deptool.in:4906-4938`. -/
def initOne (dir server : Text) (s : St) (repo : Text) : St :=
  if s.alive then
    match place (urls server repo).1 with
    | none => { s with alive := false }
    | some p =>
      if isDir s.disk (dir ++ '/' :: p) then again (dir ++ '/' :: p) s
      else fresh (dir ++ '/' :: p) (urls server repo).1 (urls server repo).2 s
  else s

/-- `initRepositories`, `deptool.in:4903-4939`. -/
def init (dir server : Text) (repos : List Text) (s : St) : St := repos.foldl (initOne dir server) s

end Verif.DepVC.GitRepo
