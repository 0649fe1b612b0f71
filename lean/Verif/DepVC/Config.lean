import Verif.Deptool.Deps

/-! # deptool.config

Model of src/deptool.in: the checks of readConfig (4038-4078) and getVCDeps (4080-4090). The file has been evaluated: its value is a list of keys and values, each key once. Left out: the missing file, an expression that dies, and a value that is not a hash (lines 4026-4040). -/

namespace Verif.DepVC.Config

open Verif.Deptool.Deps (Text isWord)

/-- A value of Perl that is no array: undefined, a string (or number), or a reference with the name `ref` gives and the text it turns into. Used in the model of `deptool.in:4042-4069` (`check`). -/
inductive Atom where
  | undef
  | str (t : Text)
  | ref (name text : Text)
deriving DecidableEq, Repr

/-- A value: one of these, or a reference to an array with the text it turns into. Used in the model of `deptool.in:4042-4069` (`check`). -/
inductive Val where
  | atom (a : Atom)
  | array (elems : List Atom) (text : Text)
deriving DecidableEq, Repr

abbrev Hash := List (Text × Val)

def kParallel : Text := ['p', 'a', 'r', 'a', 'l', 'l', 'e', 'l', '_', 't', 'e', 's', 't']
def kPath : Text := kParallel ++ ['_', 'p', 'a', 't', 'h']
def kSequential : Text := ['s', 'e', 'q', 'u', 'e', 'n', 't', 'i', 'a', 'l', '_', 't', 'e', 's', 't', 's']
def kDeps : Text := ['d', 'e', 'p', 'e', 'n', 'd', 'e', 'n', 'c', 'i', 'e', 's']
def kUntested : Text := ['u', 'n', 't', 'e', 's', 't', 'e', 'd', '_', 'r', 'e', 'p', 'o', 's', 'i', 't', 'o', 'r', 'y']

/-- Access to the hash; undefined if there is no such key. Used in the model of `deptool.in:4042-4069` (`check`). -/
def get (h : Hash) (k : Text) : Val :=
  match h.find? fun e => e.1 = k with
  | some e => e.2
  | none => .atom .undef

/-- `defined`. Used in the model of `deptool.in:4042-4069` (`check`). -/
def defd : Val → Bool
  | .atom .undef => false
  | _ => true

/-- A value as a string. Used in the model of `deptool.in:4043` (`check`). -/
def Atom.text : Atom → Text
  | .undef => []
  | .str t => t
  | .ref _ t => t

/-- A value as a string. Used in the model of `deptool.in:4043` (`check`). -/
def Val.text : Val → Text
  | .atom a => a.text
  | .array _ t => t

/-- `ref`. Used in the model of `deptool.in:4046-4063` (`check`). -/
def Atom.refName : Atom → Text
  | .ref n _ => n
  | _ => []

/-- `ref`. Used in the model of `deptool.in:4046-4063` (`check`). -/
def Val.refName : Val → Text
  | .atom a => a.refName
  | .array _ _ => ['A', 'R', 'R', 'A', 'Y']

/-- `$` also matches before a newline at the end. Used in the model of `deptool.in:4043` and `4067` (`check`). -/
def trimEnd (t : Text) : Text := if t.getLast? = some '\n' then t.dropLast else t

/-- `/^[01]$/`, line 4043. -/
def zeroOne (t : Text) : Bool := trimEnd t == ['0'] || trimEnd t == ['1']

/-- `/\bRegexp$/`, line 4055. -/
def isRegexp (n : Text) : Bool :=
  match n.reverse with
  | 'p' :: 'x' :: 'e' :: 'g' :: 'e' :: 'R' :: r => !(r.head?.any isWord)
  | _ => false

/-- `/^.+(;\w+)?$/`, line 4067: the dot matches the separator too. -/
def depOk (t : Text) : Bool := !(trimEnd t).isEmpty && !(trimEnd t).contains '\n'

/-- Lines 4042-4069: whether none of the checks dies. -/
def check (h : Hash) : Bool :=
  (!defd (get h kParallel) || zeroOne (get h kParallel).text) &&
  (!defd (get h kPath) || (get h kPath).refName == ['C', 'O', 'D', 'E']) &&
  (!defd (get h kSequential) ||
    match get h kSequential with
    | .array es _ => es.all fun e => isRegexp e.refName
    | .atom _ => false) &&
  (!defd (get h kDeps) ||
    match get h kDeps with
    | .array es _ => es.all fun e => depOk e.text
    | .atom _ => false)

/-- `%expect`, lines 4072-4073. -/
def expected : List Text := [kDeps, kParallel, kPath, kSequential, kUntested]

/-- `readConfig` from line 4042: the keys it warns about; `none` if it dies. -/
def readConfig (h : Hash) : Option (List Text) :=
  if check h then some ((h.map (·.1)).filter fun k => !expected.contains k) else none

/-- `getVCDeps` (lines 4080-4090), the texts of the dependencies. -/
def getVCDeps (h : Hash) : List Text :=
  match get h kDeps with
  | .array es _ => es.map Atom.text
  | .atom _ => []

end Verif.DepVC.Config
