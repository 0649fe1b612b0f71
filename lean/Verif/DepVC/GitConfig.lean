import Verif.Deptool.Deps

/-!
# deptool init for git: the user's configuration (src/deptool.in:4840-4901, 4941-4953)

`git config --global` is a list of keys with their values (a key can have several); what `-l` prints is read line by line, so a value with a newline gives several lines.  Left out: keys are lower case (git folds them), the configuration under `~/.config/git` that git reads too although line 4945 does not look for it, the messages, and the modes of the new directory.
-/

namespace Verif.DepVC.GitConfig

open Verif.Deptool.Deps (Text isWord)

/-- What `git config --global` keeps. -/
abbrev Store := List (Text × Text)

/-- The hash `%config` (line 4847). -/
abbrev Conf := Text → Option Text

/-- The keys asked for (line 4882). -/
def kEmail : Text := ['u', 's', 'e', 'r', '.', 'e', 'm', 'a', 'i', 'l']
/-- Line 4882. -/
def kName : Text := ['u', 's', 'e', 'r', '.', 'n', 'a', 'm', 'e']
/-- Line 4882. -/
def kEditor : Text := ['c', 'o', 'r', 'e', '.', 'e', 'd', 'i', 't', 'o', 'r']
/-- Line 4882. -/
def kExcludes : Text := ['c', 'o', 'r', 'e', '.', 'e', 'x', 'c', 'l', 'u', 'd', 'e', 's', 'f', 'i', 'l', 'e']
/-- Line 4882. -/
def kMerge : Text := ['m', 'e', 'r', 'g', 'e', '.', 't', 'o', 'o', 'l']
/-- Line 4882. -/
def kDiff : Text := ['d', 'e', 'p', 't', 'o', 'o', 'l', '.', 'd', 'i', 'f', 'f']
/-- The key of the last step (lines 4856, 4900). -/
def kConfig : Text := ['d', 'e', 'p', 't', 'o', 'o', 'l', '.', 'c', 'o', 'n', 'f', 'i', 'g']

/-- Line 4882. -/
def asked : List Text := [kEmail, kName, kEditor, kExcludes, kMerge, kDiff]

/-- `$config_date` (line 4846). -/
def date : Text := ['2', '0', '1', '1', '-', '1', '2', '-', '0', '7']

/-- `[\w\.]` (line 4949). -/
def kw (c : Char) : Bool := isWord c || c == '.'

/-- `/^([\w\.]+)=(.*)$/` of a line without its newline (line 4949). -/
def parseLine (l : Text) : Option (Text × Text) :=
  match l.takeWhile kw, l.dropWhile kw with
  | _ :: _, '=' :: v => some (l.takeWhile kw, v)
  | _, _ => none

/-- The lines of a text. -/
def splitNl : Text → List Text
  | [] => [[]]
  | c :: cs =>
    if c = '\n' then [] :: splitNl cs
    else
      match splitNl cs with
      | [] => [[c]]
      | l :: ls => (c :: l) :: ls

/-- The lines that `git config --global -l` prints (line 4946). -/
def listed (d : Store) : List Text := d.flatMap fun e => splitNl (e.1 ++ '=' :: e.2)

/-- `$config->{$1} = $2` (line 4950). -/
def put (c : Conf) (k v : Text) : Conf := fun x => if x = k then some v else c x

/-- The loop of readConfig (lines 4947-4951); `none` if it dies at line 4949. -/
def readLines : Conf → List Text → Option Conf
  | c, [] => some c
  | c, l :: ls =>
    match parseLine l with
    | some (k, v) => readLines (put c k v) ls
    | none => none

/-- `readConfig` (lines 4941-4953). Without the file nothing is listed. -/
def readConfig (c : Conf) (d : Store) : Option Conf := readLines c (listed d)

/-- The built-in values (lines 4847-4850): the name is the first part of the gecos field, if there is one. -/
def builtin (gecos : Option Text) : Conf := fun x =>
  if x = kEditor then some ['e', 'm', 'a', 'c', 's']
  else if x = kMerge then some ['k', 'd', 'i', 'f', 'f', '3']
  else if x = kDiff then some ['d', 'i', 'f', 'f', 't', 'o', 'o', 'l']
  else if x = kName then gecos
  else none

/-- `$config{$ent} ||= ''` (line 4883): the text `0` is false too. -/
def dflt (c : Conf) (k : Text) : Text :=
  match c k with
  | some v => if v = ['0'] then [] else v
  | none => []

/-- `\s` of ASCII. -/
def isBlank (c : Char) : Bool := c == ' ' || c == '\t' || c == '\n' || c == '\r' || c == '\x0b' || c == '\x0c'

/-- Line 4887: a blank answer means the default. -/
def pick (d a : Text) : Text := if a.all isBlank then d else a

/-- The two tests (lines 4888-4895). -/
def okVal (k v : Text) : Bool := v ≠ [] && (k ≠ kEmail || v.contains '@')

/-- One entry with its `redo` (lines 4882-4895): the value and the rest of the input.  At the end of the input `<STDIN>` is undefined, which counts as blank, again and again: `none` if this goes on forever. -/
def ask (k d : Text) : List Text → Option (Text × List Text)
  | [] => if okVal k d then some (d, []) else none
  | a :: as => if okVal k (pick d a) then some (pick d a, as) else ask k d as

/-- The values of a key. -/
def vals (d : Store) (k : Text) : List Text := (d.filter (·.1 = k)).map (·.2)

/-- `git config --global k v`: fails if there are several values, replaces the one or adds it. -/
def setKey (k v : Text) (d : Store) : Option Store :=
  match vals d k with
  | [] => some (d ++ [(k, v)])
  | [_] => some (d.map fun e => if e.1 = k then (k, v) else e)
  | _ => none

/-- The state: configuration, ignore file, input and what becomes of the next commands (succeeding beyond the list). -/
structure St where
  store : Store
  ignores : Option Text
  stdin : List Text
  outs : List Bool
deriving DecidableEq

/-- How it ends. -/
inductive End where
  | upToDate | done | died | asking
deriving DecidableEq

/-- `main::quietRunCommand('git','config','--global',$ent,$val)` (lines 4897, 4900, 4114-4120): dies if it fails. -/
def setCmd (k v : Text) (s : St) : Option St :=
  if s.outs.head? = some false then none
  else
    match setKey k v s.store with
    | some d => some { s with store := d, outs := s.outs.tail }
    | none => none

/-- The loop over the entries and the last command (lines 4882-4900). -/
def askAll (c : Conf) : List Text → St → St × End
  | [], s =>
    match setCmd kConfig date s with
    | some s' => (s', .done)
    | none => (s, .died)
  | k :: ks, s =>
    match ask k (dflt c k) s.stdin with
    | none => (s, .asking)
    | some (v, rest) =>
      match setCmd k v { s with stdin := rest } with
      | some s' => askAll c ks s'
      | none => ({ s with stdin := rest }, .died)

/-- What is written to a new ignore file (lines 4875-4877). -/
def ignoreText : Text := "# File automatically generated by deptool, changes may be overwritten.\n*~\n\\#*\\#\n".toList

/-- `initConfig` (lines 4840-4901); `path` is the name of the ignore file (line 4868). -/
def initConfig (gecos : Option Text) (path : Text) (s : St) : St × End :=
  match readConfig (builtin gecos) s.store with
  | none => (s, .died)
  | some c =>
    if c kConfig = some date then (s, .upToDate)
    else askAll (put c kExcludes path) asked { s with ignores := some (s.ignores.getD ignoreText) }

end Verif.DepVC.GitConfig
