import Verif.Deptool.Deps

/-! # lintel-config

Model of src/lintel-config.in (9-76). The three values that CMake puts into the script are parameters: the prefix of the installation, the list of features joined by semicolons, and the version. Simplified: these contain no characters that the shell or `echo` would treat specially (quotes, backslashes, wildcards, a hyphen at the beginning of the features), and the prefix no blanks. -/

namespace Verif.Misc.LintelConfig

open Verif.Deptool.Deps (Text)

/-- What CMake has put into the script, lines 9-13, 34 and 69. -/
structure Setup where
  pre : Text
  features : Text
  version : Text

/-- `sed 's/;/ /g'`, line 34. -/
def sed (t : Text) : Text := t.map fun c => if c = ';' then ' ' else c

/-- The blanks at which the shell splits. Used in the model of `lintel-config.in:34-58` (`words`). -/
def isBlank (c : Char) : Bool := c = ' ' || c = '\t' || c = '\n'

/-- The words of a text, `w` being the word begun. Used in the model of `lintel-config.in:34-58` (`words`). -/
def go (w : Text) : Text → List Text
  | [] => if w = [] then [] else [w]
  | c :: t => if isBlank c then (if w = [] then go [] t else w :: go [] t) else go (w ++ [c]) t

/-- The words the shell makes of an unquoted variable, lines 51 and 54. -/
def words (t : Text) : List Text := go [] t

/-- `echo` of several words. Used in the model of `lintel-config.in:51` (`run`). -/
def echo : List Text → Text
  | [] => []
  | [w] => w
  | w :: ws => w ++ ' ' :: echo ws

def usageLine : Text := ['U', 's', 'a', 'g', 'e', ':', ' ', 'l', 'i', 'n', 't', 'e', 'l', '-', 'c', 'o', 'n', 'f', 'i', 'g', ' ', '<', 'O', 'P', 'T', 'I', 'O', 'N', '>']

/-- Lines 53-59: the loop over the features. -/
def hasFeature (f : Text) : List Text → Nat
  | [] => 1
  | w :: ws => if w = f then 0 else hasFeature f ws

/-- The script, lines 36-76: the lines it prints (of the usage message only the first) and the status it exits with. After `esac` an assignment follows, so that its status is 0. -/
def run (s : Setup) (args : List Text) : List Text × Nat :=
  let opt := args.headD []
  let snd := (args.drop 1).headD []
  if opt = ['-', '-', 'c', 'f', 'l', 'a', 'g', 's'] then ([['-', 'I'] ++ (s.pre ++ ['/', 'i', 'n', 'c', 'l', 'u', 'd', 'e'])], 0)
  else if opt = ['-', '-', 'l', 'i', 'b', 's'] then
    if s.pre ++ ['/', 'l', 'i', 'b'] = ['/', 'u', 's', 'r', '/', 'l', 'i', 'b'] then ([['-', 'l', 'L', 'i', 'n', 't', 'e', 'l']], 0)
    else ([['-', 'L'] ++ (s.pre ++ ['/', 'l', 'i', 'b']) ++ [' ', '-', 'l', 'L', 'i', 'n', 't', 'e', 'l']], 0)
  else if opt = ['-', '-', 'f', 'e', 'a', 't', 'u', 'r', 'e', 's'] then ([echo (words (sed s.features))], 0)
  else if opt = ['-', '-', 'h', 'a', 's', '-', 'f', 'e', 'a', 't', 'u', 'r', 'e'] then ([], hasFeature snd (words (sed s.features)))
  else if opt = ['-', '-', 'd', 'a', 't', 'a', 'd', 'i', 'r'] then ([s.pre ++ ['/', 's', 'h', 'a', 'r', 'e']], 0)
  else if opt = ['-', '-', 'h', 'e', 'l', 'p'] then ([usageLine], 1)
  else if opt = ['-', '-', 'v', 'e', 'r', 's', 'i', 'o', 'n'] then ([s.version], 0)
  else ([['u', 'n', 'k', 'n', 'o', 'w', 'n', ' ', 'o', 'p', 't', 'i', 'o', 'n', ' '] ++ opt, usageLine], 1)

end Verif.Misc.LintelConfig
