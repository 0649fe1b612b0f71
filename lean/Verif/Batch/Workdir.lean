import Verif.Deptool.Deps

/-! # batch-parallel: old working directories

Model of src/batch-parallel.in: clean_a_workdir (277-305) and cleanup_workdir (307-320), and of the name of a new directory in write_joblist (327-335). The directory of working directories is a list of names with their files; times are seconds. Names have no newline; files can be looked at and removed, directories cannot be removed as files are. -/

namespace Verif.Batch.Workdir

open Verif.Deptool.Deps (Text)

/-- A file or a directory in a working directory. Used in the model of `batch-parallel.in:277-305` (`cleanup`). -/
structure Entry where
  name : Text
  mtime : Nat
  isDir : Bool
deriving DecidableEq

/-- `/(log\.\d+)$/`. Used in the model of `batch-parallel.in:286` (`isLog`). -/
def endsLog (n : Text) : Bool :=
  !(n.reverse.takeWhile Char.isDigit).isEmpty && ['.', 'g', 'o', 'l'].isPrefixOf (n.reverse.dropWhile Char.isDigit)

/-- `/^(joblist)|(log\.\d+)$/`, line 286: the beginning belongs to the first alternative only and the end to the second. -/
def isLog (n : Text) : Bool := ['j', 'o', 'b', 'l', 'i', 's', 't'].isPrefixOf n || endsLog n

/-- Digits and signs of a time; `none` is a digit. Used in the model of `batch-parallel.in:317` (`stamped`). -/
def stampPat : List (Option Char) :=
  [none, none, none, none, some '-', none, none, some '-', none, none, some 'T', none, none, some ':', none, none, some ':', none, none]

/-- Used in the model of `batch-parallel.in:317` (`stamped`). -/
def fits : List (Option Char) → Text → Bool
  | [], [] => true
  | none :: p, c :: t => c.isDigit && fits p t
  | some d :: p, c :: t => c == d && fits p t
  | _, _ => false

/-- `/^.+\d{4}-\d{2}-\d{2}T\d{2}:\d{2}:\d{2}$/`, line 317. -/
def stamped (n : Text) : Bool := 19 < n.length && fits stampPat (n.drop (n.length - 19))

/-- A week, line 315. -/
def week : Nat := 7 * 24 * 3600

/-- Lines 283-292: some file says that the job is not old. -/
def recent (now : Nat) (es : List Entry) : Bool := es.any fun e => isLog e.name && decide (now ≤ e.mtime + week)

/-- Lines 297-303: the files are removed up to a directory; what is left then. -/
def removeAll : List Entry → Option (List Entry)
  | [] => none
  | e :: es => if e.isDir then some (e :: es) else removeAll es

/-- `cleanup_workdir`, lines 307-320, with `clean_a_workdir`, lines 277-305: what is there afterwards, and whether it died. -/
def cleanup (noExec : Bool) (now : Nat) : List (Text × List Entry) → List (Text × List Entry) × Bool
  | [] => ([], false)
  | (n, es) :: r =>
    if stamped n && !recent now es && !noExec then
      match removeAll es with
      | none => cleanup noExec now r
      | some es' => ((n, es') :: r, true)
    else ((n, es) :: (cleanup noExec now r).1, (cleanup noExec now r).2)

/-- The last `k` digits of a number. Used in the model of `batch-parallel.in:329-335` (`dirName`). -/
def digs : Nat → Nat → Text
  | 0, _ => []
  | k + 1, n => digs k (n / 10) ++ [Nat.digitChar (n % 10)]

/-- The name of a new working directory, lines 327-335: the host, the time (year, month, day, hour, minute, second) and the rest of the second, which `sprintf("%.6f", $now)` always gives with its point. -/
def dirName (host : Text) (y mo d h mi s us : Nat) : Text :=
  host ++ ('-' :: '-' :: (digs 4 y ++ '-' :: (digs 2 mo ++ '-' :: (digs 2 d ++ 'T' :: (digs 2 h ++ ':' :: (digs 2 mi ++ ':' :: (digs 2 s ++ '.' :: digs 6 us)))))))

end Verif.Batch.Workdir
