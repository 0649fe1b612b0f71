import Verif.Deptool.Deps

/-! # deptool tar-init: unpacking releases

Model of src/deptool.in: package deptool::TarVC, init and what it calls (5376-5514). The state is the directory of the projects: names, and files or directories; what is in a directory is one value, `[]` if nothing. The prompts, the clock, `tar`, and the downloads are parameters; the number counts the prompts. Arguments are files, or URLs of releases; `httpFetchLatestRelease` only makes a list of those after a download that is modelled as one for each of them. -/

namespace Verif.DepVC.Tar

open Verif.Deptool.Deps (Text isWord word)

/-- Used in the model of `deptool.in:5416-5433` (`Env`). -/
inductive Node where
  | file
  | dir (content : List Nat)
deriving DecidableEq

/-- Used in the model of `deptool.in:5382-5514` (`St`). -/
abbrev Fs := Text → Option Node

/-- `[\d\-\.]` Used in the model of `deptool.in:5438` (`relTail`). -/
def isRel (c : Char) : Bool := c.isDigit || c == '-' || c == '.'

/-- `.tar.bz2` with dots that match anything, line 5438. -/
def tarTail : Text → Bool
  | _ :: 't' :: 'a' :: 'r' :: _ :: 'b' :: 'z' :: '2' :: _ => true
  | _ => false

/-- The longest `[\d\-\.]+` that `.tar.bz2` follows. Made of the parts of `deptool.in:5438-5438`. -/
def relTail (t : Text) : Option Text :=
  let run := t.takeWhile isRel
  let rest := t.dropWhile isRel
  if run ≠ [] ∧ tarTail rest = true then some run
  else
    match run.reverse with
    | c :: rev => if rev ≠ [] ∧ tarTail (c :: rest) = true then some rev.reverse else none
    | [] => none

/-- `(\w+)-([\d\-\.]+).tar.bz2` at the beginning of a word. Used in the model of `deptool.in:5438-5441` (`parse`). -/
def matchAt (t : Text) : Option (Text × Text) :=
  match t.takeWhile isWord, t.dropWhile isWord with
  | c :: cs, '-' :: rest => (relTail rest).map fun r => (c :: cs, r)
  | _, _ => none

/-- The leftmost match of `\b(\w+)-([\d\-\.]+).tar.bz2`, lines 5438-5441; `prev` says whether there is a letter before. -/
def parse (prev : Bool) : Text → Option (Text × Text)
  | [] => none
  | c :: t =>
    match (if prev = false ∧ isWord c = true then matchAt (c :: t) else none) with
    | some x => some x
    | none => parse (isWord c) t

/-- Used in the model of `deptool.in:5416-5433` (`backup`). -/
structure Env where
  yes : Nat → Bool
  /-- line 5424 -/
  date : Nat → Text
  /-- what is in an archive; `none` if `tar` writes nothing -/
  tar : Text → Option (List (Text × Node))
  /-- whether a download works -/
  fetch : Text → Bool

/-- Not a function of the code; stands for the uses of `deptool.in:5382-5514`. -/
structure St where
  fs : Fs
  now : Nat

/-- Not a function of the code; stands for the uses of `deptool.in:5382-5514`. -/
abbrev Out := St × Bool

/-- `or die` Used in the model of `deptool.in:5416-5433` (`backup`). -/
def andThen (o : Out) (f : St → Out) : Out := if o.2 then f o.1 else o

/-- `userPrompt`; anything but a line that begins with n goes on. Used in the model of `deptool.in:5416-5433` (`backup`). -/
def prompt (env : Env) (s : St) : Out := ({ s with now := s.now + 1 }, env.yes s.now)

/-- Used in the model of `deptool.in:5446-5450` (`clear`). -/
def put (fs : Fs) (n : Text) (x : Option Node) : Fs := fun m => if m = n then x else fs m

/-- rename(2): over nothing, a file over a file, a directory over an empty one. Used in the model of `deptool.in:5416-5433` (`doRename`). -/
def rename (fs : Fs) (a b : Text) : Option Fs :=
  match fs a, fs b with
  | none, _ => none
  | some x, none => some (put (put fs a none) b (some x))
  | some .file, some .file => some (put (put fs a none) b (some .file))
  | some (.dir c), some (.dir []) => some (put (put fs a none) b (some (.dir c)))
  | _, _ => none

/-- Used in the model of `deptool.in:5416-5433` (`backup`). -/
def doRename (a b : Text) (s : St) : Out :=
  match rename s.fs a b with
  | some fs => ({ s with fs := fs }, true)
  | none => (s, false)

/-- Used in the model of `deptool.in:5416-5433` (`backup`). -/
def backupName (p d : Text) : Text := p ++ '.' :: d

/-- `backupOldProjectDir`, lines 5416-5433. -/
def backup (env : Env) (p : Text) (s : St) : Out :=
  if s.fs p = none then (s, true)
  else andThen (prompt env s) fun s1 => andThen (doRename p (backupName p (env.date s.now)) s1) fun s2 => (s2, (s2.fs p).isNone)

/-- Used in the model of `deptool.in:5452-5457` (`untar`). -/
def release (p r : Text) : Text := p ++ '-' :: r

/-- Lines 5446-5450. -/
def clear (env : Env) (n : Text) (s : St) : Out :=
  if s.fs n = none then (s, true)
  else andThen (prompt env s) fun s1 => ({ s1 with fs := put s1.fs n none }, true)

/-- `tar xvvfj` Used in the model of `deptool.in:5452-5457` (`untar`). -/
def extract (fs : Fs) : List (Text × Node) → Fs
  | [] => fs
  | e :: es => extract (put fs e.1 (some e.2)) es

/-- Used in the model of `deptool.in:5452-5457` (`untar`). -/
def isDir : Option Node → Bool
  | some (.dir _) => true
  | _ => false

/-- Lines 5452-5457. -/
def untar (env : Env) (file p r : Text) (s : St) : Out :=
  andThen (prompt env s) fun s1 =>
    let s2 : St := { s1 with fs := extract s1.fs ((env.tar file).getD []) }
    if isDir (s2.fs (release p r)) then doRename (release p r) p s2 else (s2, false)

/-- `unpackProjectsTar`, lines 5435-5458. -/
def unpack (env : Env) (file : Text) (s : St) : Out :=
  match parse false file with
  | none => (s, false)
  | some (p, r) => andThen (backup env p s) fun s1 => andThen (clear env (release p r) s1) fun s2 => untar env file p r s2

/-- Used in the model of `deptool.in:5401-5413` (`one`). -/
def dotTar : Text := ['.', 't', 'a', 'r', '.', 'b', 'z', '2']
/-- Used in the model of `deptool.in:5491-5514` (`fetchHttp`). -/
def dotTmp : Text := ['.', 't', 'm', 'p']

/-- `fetchHttp`, lines 5491-5514, with one of the two commands. -/
def fetchHttp (env : Env) (url output : Text) (s : St) : Out :=
  let s0 : St := { s with fs := put (put s.fs output none) (output ++ dotTmp) none }
  andThen (prompt env s0) fun s1 => if env.fetch url then ({ s1 with fs := put s1.fs output (some .file) }, true) else (s1, false)

/-- An argument of `init`: a file, or the URL of the release `p-r.tar.bz2` (line 5464). -/
inductive Arg where
  | file (path : Text)
  | url (url p r : Text)

/-- Lines 5401-5413 and 5460-5473; `projects` is the directory of the projects. -/
def one (env : Env) (projects : Text) (a : Arg) (s : St) : Out :=
  match a with
  | .file path => unpack env path s
  | .url u p r => andThen (backup env p s) fun s1 => andThen (fetchHttp env u (release p r ++ dotTar) s1) fun s2 => unpack env (projects ++ '/' :: (release p r ++ dotTar)) s2

/-- `init`, lines 5382-5414. -/
def init (env : Env) (projects : Text) : List Arg → St → Out
  | [], s => (s, true)
  | a :: as, s => andThen (one env projects a s) (init env projects as)

end Verif.DepVC.Tar
