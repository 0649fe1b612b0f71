import Verif.DepVC.Ctest

/-! # deptool: checking out a missing dependency

Model of src/deptool.in: depWalkTryCheckout (3428-3450) and depWalkTryInit (3452-3479). What a checkout and an init do is given from outside, as functions of the state of the disk and the databases; the list of branches and the answer of the user are texts. -/

namespace Verif.DepVC.TryCheckout

open Verif.Deptool.Deps (Text isWord)
open Verif.DepVC.Ctest (isSpace)

/-- How a checkout ends: well, with `No branches found matching`, or with another message. Used in the model of `deptool.in:3433-3446` (`tryCheckout`). -/
inductive Out
  | ok
  | noBranch
  | failed
deriving DecidableEq

/-- Used in the model of `deptool.in:3428-3450` (`tryCheckout`). -/
structure Env (σ : Type) where
  checkout : σ → Out × σ
  init : Text → σ → Bool × σ
  /-- `-d "$projects/$dep"` -/
  here : σ → Bool

/-- `m!^(\w+\.[^/]+)/!`, line 3458. -/
def host (line : Text) : Option Text :=
  match line.dropWhile isWord with
  | '.' :: r =>
    if (line.takeWhile isWord).isEmpty || (r.takeWhile (· != '/')).isEmpty || (r.dropWhile (· != '/')).isEmpty then none
    else some (line.takeWhile isWord ++ '.' :: r.takeWhile (· != '/'))
  | _ => none

/-- Line 3456. -/
def unknown : Text := "unknown.example.com".toList

/-- Lines 3456-3462. -/
def uniq : List Text → Text
  | [] => unknown
  | l :: ls => match host l with
    | some h => h
    | none => uniq ls

/-- `chomp`, line 3470. -/
def chomp (t : Text) : Text := if t.getLast? = some '\n' then t.dropLast else t

/-- The branch to make, lines 3466-3472; no answer at the end of the input. -/
def branch (dep : Text) (lines : List Text) (ans : Option Text) : Text :=
  match ans with
  | none => uniq lines ++ '/' :: dep
  | some a => if a.all isSpace then uniq lines ++ '/' :: dep else chomp a

/-- `die … if $@` and `die … unless -d …`, lines 3444-3449. -/
def finish {σ : Type} (E : Env σ) (r : Out × σ) : Bool × σ := (decide (r.1 = .ok) && E.here r.2, r.2)

/-- `depWalkTryCheckout`, lines 3428-3450: whether it returns, and the state. -/
def tryCheckout {σ : Type} (E : Env σ) (dep : Text) (lines : List Text) (ans : Option Text) (s : σ) : Bool × σ :=
  match E.checkout s with
  | (.noBranch, s1) =>
    match E.init (branch dep lines ans) s1 with
    | (true, s2) => finish E (E.checkout s2)
    | (false, s2) => (false, s2)
  | r => finish E r

end Verif.DepVC.TryCheckout
