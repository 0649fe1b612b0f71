/-! # deptool pull, sync and pin with monotone

Model of src/deptool.in: the monotone interface's foundPin, hadPin, getCurHeads, pullAndMerge, getCurRevision, pullDoUpdate, pull and sync (4397-4514) and setPin (1801-1827).

What monotone answers is not modelled: the answers to the questions are given as lists, one turn of a loop after the other, so that other people may change the database at any point. A loop whose answers run out is still running. Revisions are texts; monotone prints them as forty hexadecimal digits, so that matching them as regular expressions (lines 4405, 4418) is comparing them. -/

namespace Verif.DepVC.Pin

/-- Used in the model of `deptool.in:4451` (`isRevision`). -/
abbrev Text := List Char

/-- What a run does, in order. Not a function of the code; stands for the uses of `deptool.in:4435-4514`. -/
inductive Ev where
  /-- `mtn pull` or `mtn sync`, line 4434 or 4512 -/
  | transfer
  /-- `mtn automate get_base_revision_id` said this, line 4447 -/
  | revision (r : Text)
  /-- `mtn automate heads` said this, line 4424 -/
  | heads (hs : List Text)
  /-- the user is asked, lines 4441 and 4497 -/
  | prompt
  /-- `mtn merge` was successful, line 4442 -/
  | merge
  /-- `mtn update` was successful, line 4498 -/
  | update
  /-- "You are currently pinned", line 4469 -/
  | pinned
  /-- "You would be pinned", line 4478 -/
  | wouldPin
deriving DecidableEq

/-- Not a function of the code; stands for the uses of `deptool.in:4435-4443`. -/
inductive Out where
  | returned
  | died
  /-- still running: the answers ran out -/
  | running
deriving DecidableEq

/-- Used in the model of `deptool.in:4451` (`isRevision`). -/
def isHex (c : Char) : Bool := c.isDigit || (decide ('a' ≤ c) && decide (c ≤ 'f')) || (decide ('A' ≤ c) && decide (c ≤ 'F'))

/-- `/^[a-fA-F0-9]{40}$/`, line 4451. -/
def isRevision (t : Text) : Bool := decide (t.length = 40) && t.all isHex

/-- The file of the pins, line 1866: its lines without their newlines. -/
inductive PinFile where
  | absent
  /-- `-f` but not `-r` -/
  | unreadable
  | lines (ls : List Text)
deriving DecidableEq

/-- `foundPin`, lines 4397-4408. -/
def foundPin (f : PinFile) (rev head : Text) : Bool :=
  match f with
  | .lines ls => ls.any fun l => decide (l = head ++ ' ' :: rev)
  | _ => false

/-- `hadPin`, lines 4410-4421. -/
def hadPin (f : PinFile) (rev : Text) : Bool :=
  match f with
  | .lines ls => ls.any fun l => rev.isSuffixOf l
  | _ => false

/-- The answers in one turn of the loop at lines 4488-4500. -/
structure Turn where
  rev : Text
  heads : List Text
  /-- the user goes on -/
  go : Bool
  /-- `mtn update` is successful -/
  updates : Bool

/-- What happened, `made_changes`, and the end. Used in the model of `deptool.in:4488-4500` (`updateLoop`). -/
structure Run where
  log : List Ev
  made : Bool
  out : Out
deriving DecidableEq

/-- Events before a run. Used in the model of `deptool.in:4488-4500` (`updateLoop`). -/
def Run.after (es : List Ev) (r : Run) : Run := { r with log := es ++ r.log }

/-- Lines 4488-4500. -/
def updateLoop : List Turn → Bool → Run
  | [], made => ⟨[], made, .running⟩
  | t :: ts, made =>
    if isRevision t.rev then
      match t.heads with
      | [h] =>
        if t.rev = h then ⟨[.revision t.rev, .heads [h]], made, .returned⟩
        else if t.go then
          if t.updates then (updateLoop ts true).after [.revision t.rev, .heads [h], .prompt, .update]
          else ⟨[.revision t.rev, .heads [h], .prompt], made, .died⟩
        else ⟨[.revision t.rev, .heads [h], .prompt], made, .died⟩
      | hs => ⟨[.revision t.rev, .heads hs], made, .died⟩
    else ⟨[.revision t.rev], made, .died⟩

/-- `pullDoUpdate`, lines 4457-4501: the first answers, then those of the loop. -/
def doUpdate (f : PinFile) (rev : Text) (heads : List Text) (ts : List Turn) (made : Bool) : Run :=
  if isRevision rev then
    if f = .absent then (updateLoop ts made).after [.revision rev]
    else
      match heads with
      | [h] =>
        if foundPin f rev h then ⟨[.revision rev, .heads [h], .pinned], made, .returned⟩
        else if hadPin f rev then (updateLoop ts made).after [.revision rev, .heads [h], .wouldPin]
        else (updateLoop ts made).after [.revision rev, .heads [h]]
      | hs => ⟨[.revision rev, .heads hs], made, .died⟩
  else ⟨[.revision rev], made, .died⟩

/-- The answers in one turn of the loop at lines 4435-4443. -/
structure MergeTurn where
  heads : List Text
  go : Bool
  merges : Bool

/-- Lines 4435-4443. -/
def mergeLoop : List MergeTurn → List Ev × Out
  | [] => ([], .running)
  | t :: ts =>
    if t.heads = [] then ([.heads []], .died)
    else if t.heads.length = 1 then ([.heads t.heads], .returned)
    else if t.go && t.merges then (.heads t.heads :: .prompt :: .merge :: (mergeLoop ts).1, (mergeLoop ts).2)
    else ([.heads t.heads, .prompt], .died)

/-- `pull`, lines 4504-4508; `ok`: `mtnOp` is successful. -/
def pull (ok : Bool) (ms : List MergeTurn) (f : PinFile) (rev : Text) (heads : List Text) (ts : List Turn) (made : Bool) : Run :=
  if ok then
    match (mergeLoop ms).2 with
    | .returned => (doUpdate f rev heads ts made).after (.transfer :: (mergeLoop ms).1)
    | o => ⟨.transfer :: (mergeLoop ms).1, made, o⟩
  else ⟨[], made, .died⟩

/-- `sync`, lines 4510-4514. -/
def sync (ok : Bool) (f : PinFile) (rev : Text) (heads : List Text) (ts : List Turn) (made : Bool) : Run :=
  if ok then (doUpdate f rev heads ts made).after [.transfer] else ⟨[], made, .died⟩

/-- `depCommitHaveUnknown`, lines 1962-1977, called with an interface or without: calling a method of an undefined value dies. -/
def haveUnknownOf (vcs : Option Bool) : Option Bool := vcs

/-- What setPin sees: unknown files (`none` cannot be: the question itself is answered), changes, the heads, the revision given, the answer of `mtn update`, and the current revision. Used in the model of `deptool.in:1801-1827` (`setPin`). -/
structure PinIn where
  unknown : Bool
  changes : Bool
  heads : List Text
  given : Option Text
  updates : Bool
  cur : Text

/-- `setPin`, lines 1801-1827: the line added to the file, or `none` when it dies. Line 1805 calls `depCommitHaveUnknown` without the interface. -/
def setPin (i : PinIn) : Option Text :=
  match haveUnknownOf none with
  | none => none
  | some true => none
  | some false =>
    if i.changes then none
    else
      match i.heads with
      | [h] =>
        match i.given with
        | some r => if i.updates then some (h ++ ' ' :: r) else none
        | none => if isRevision i.cur then some (h ++ ' ' :: i.cur) else none
      | _ => none

end Verif.DepVC.Pin
