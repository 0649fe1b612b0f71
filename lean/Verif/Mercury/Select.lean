import Verif.Deptool.Deps

/-! # The arguments of select

Model of src/mercury-plot.in: sqlselect (910-936), up to the command that is given to adjust_sql, with what Getopt::Long does with the two options (configured as it comes: names may be shortened and their case does not matter, an option may begin with `--`, `-` or `+`, other arguments are left where they are). Left out: the fallback to csv if Data::ShowTable is missing. -/

namespace Verif.Mercury.Select

open Verif.Deptool.Deps (Text)

/-- A text cut at its spaces. Used in the model of `mercury-plot.in:911` (`words`). -/
def cut : Text → List Text
  | [] => [[]]
  | c :: t =>
    if c = ' ' then [] :: cut t
    else
      match cut t with
      | [] => [[c]]
      | h :: r => (c :: h) :: r

/-- `split(/ /o, $_)`, line 911: empty fields at the end are dropped. -/
def words (t : Text) : List Text := ((cut t).reverse.dropWhile fun w => w.isEmpty).reverse

/-- `join(' ', @ARGV)`, line 936. -/
def joined : List Text → Text
  | [] => []
  | [w] => w
  | w :: ws => w ++ ' ' :: joined ws

def dd : Text := ['-', '-']

/-- Lines 917-922: `--` is put before the first word that does not begin with it. -/
def mark : List Text → List Text
  | [] => []
  | w :: ws => if dd.isPrefixOf w then w :: mark ws else dd :: w :: ws

/-- Which option a name means: the format (`true`) or the file. Used in the model of `mercury-plot.in:923-924` (`getopts`). -/
def optName (n : Text) : Option Bool :=
  match (List.isPrefixOf (n.map Char.toLower) ['f', 'o', 'r', 'm', 'a', 't'], List.isPrefixOf (n.map Char.toLower) ['f', 'i', 'l', 'e', 'n', 'a', 'm', 'e']) with
  | (true, false) => some true
  | (false, true) => some false
  | _ => none

/-- The options. Used in the model of `mercury-plot.in:913-914` (`getopts`). -/
structure Opts where
  format : Text
  filename : Option Text
deriving DecidableEq

/-- Used in the model of `mercury-plot.in:923-924` (`getopts`). -/
def Opts.set (o : Opts) (b : Bool) (v : Text) : Opts := if b then { o with format := v } else { o with filename := some v }

/-- What is behind the sign of an option, if it is one. Used in the model of `mercury-plot.in:923-924` (`getopts`). -/
def optBody : Text → Option Text
  | '-' :: '-' :: b => some b
  | ['-'] => none
  | '-' :: b => some b
  | '+' :: b => some b
  | _ => none

/-- `GetOptions`, lines 923-924: the options and the arguments that are left; `none` if it fails. -/
def getopts : List Text → Opts → Option (Opts × List Text)
  | [], o => some (o, [])
  | w :: ws, o =>
    if w = dd then some (o, ws)
    else
      match optBody w with
      | none => (getopts ws o).map fun r => (r.1, w :: r.2)
      | some b =>
        if b.takeWhile (· ≠ '=') ≠ [] ∧ b.contains '=' then
          match optName (b.takeWhile (· ≠ '=')), (b.dropWhile (· ≠ '=')).drop 1 with
          | some k, c :: v => getopts ws (o.set k (c :: v))
          | _, _ => none
        else
          match optName b, ws with
          | some k, v :: ws' => getopts ws' (o.set k v)
          | _, _ => none

/-- How it goes on. Used in the model of `mercury-plot.in:910-936` (`select`). -/
inductive Out where
  | died
  | usage
  | query (o : Opts) (sql : Text)
deriving DecidableEq

def tSelect : Text := ['s', 'e', 'l', 'e', 'c', 't']
def tTable : Text := ['t', 'e', 'x', 't', '-', 't', 'a', 'b', 'l', 'e']

/-- `sqlselect`, lines 910-936. -/
def select (t : Text) : Out :=
  match words t with
  | [] => .died
  | w :: ws =>
    if w = tSelect then
      match getopts (w :: mark ws) ⟨tTable, none⟩ with
      | some (o, rest) => .query o (joined rest)
      | none => .usage
    else .died

end Verif.Mercury.Select
