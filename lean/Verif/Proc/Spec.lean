import Verif.Proc.Model

/-! # What the manager promises, in terms of what can be seen -/

namespace Verif.Proc

/-! ## Each process exits, is reaped and reported once -/

/-- The life of whatever has the number `p`. -/
inductive Life where
  | absent
  | live (managed fn : Bool)
  | zombie (managed fn : Bool) (s : Status)
  | due (fn : Bool) (s : Status)
deriving DecidableEq, Repr

/-- One thing after the other: started, exited with a status, reaped with this status; then, if it was the manager's with an exit function, the exit function called with this status; if it was not the manager's, a warning. -/
def Life.next (p : Pid) (e : Event) (l : Life) : Option Life :=
  match e with
  | .forked q m f => if q = p then (if l = .absent then some (.live m f) else none) else some l
  | .exited q s => if q = p then (match l with | .live m f => some (.zombie m f s) | _ => none) else some l
  | .reaped q s => if q = p then (match l with | .zombie m f t => if t = s then some (if m then (if f then .due true s else .absent) else .due false s) else none | _ => none) else some l
  | .called q s => if q = p then (if l = .due true s then some .absent else none) else some l
  | .warned q s => if q = p then (if l = .due false s then some .absent else none) else some l
  | _ => some l

/-- The life after these events (the newest is first), if they are in order. -/
def life (p : Pid) : List Event → Option Life
  | [] => some .absent
  | e :: l => (life p l).bind (Life.next p e)

/-- Started by the manager and not yet reaped. -/
def Ours (p : Pid) (l : List Event) : Prop := (∃ f, life p l = some (.live true f)) ∨ ∃ f s, life p l = some (.zombie true f s)

/-! ## Who reports what -/

/-- Calls that have not returned yet, each with what it reaped (the newest is first); `waitAll` and `waitPid` have what their own `wait`s returned. -/
inductive Item where
  | wait (timed : Bool) (acc : List (Pid × Status))
  | all (acc : List (Pid × Status))
  | pid (p : Pid) (acc : List (Pid × Status))
deriving DecidableEq, Repr

def hand (acc : List (Pid × Status)) : List Item → List Item
  | .all r :: st => .all (acc ++ r) :: st
  | .pid p r :: st => .pid p (acc ++ r) :: st
  | st => st

def Item.next (e : Event) (st : List Item) : Option (List Item) :=
  match e with
  | .beganWait t => some (.wait t [] :: st)
  | .beganAll => some (.all [] :: st)
  | .beganPid p => some (.pid p [] :: st)
  | .reaped p s => match st with | .wait t acc :: st => some (.wait t ((p, s) :: acc) :: st) | _ => none
  | .gaveWait _ => match st with | .wait _ acc :: st => some (hand acc st) | _ => none
  | .gaveAll _ => match st with | .all _ :: st => some st | _ => none
  | .gavePid p (some _) => match st with | .pid q _ :: st => if q = p then some st else none | _ => none
  | _ => some st

/-- The calls that have not returned after these events. -/
def open' : List Event → Option (List Item)
  | [] => some []
  | e :: l => (open' l).bind (Item.next e)

/-- The map `r` is what was reaped: for each number, the last status. -/
def Tells (r acc : List (Pid × Status)) : Prop := ∀ p, get p r = (acc.find? fun x => x.1 = p).map (·.2)

/-- The value of each call tells what it reaped itself; only a `wait` with a time limit may return nothing; `waitAll` returns when no process of the manager is left. `waitPid` returns undef for processes that are not the manager's only. The program dies when `wait` is
called directly without processes, or with processes it cannot signal; or when the process `waitPid` waits for was reaped by others. -/
def Honest : List Event → Prop
  | [] => True
  | .gaveWait r :: l => (∃ t acc st, open' l = some (.wait t acc :: st) ∧ Tells r acc ∧ (t = false → r ≠ [])) ∧ Honest l
  | .gaveAll r :: l => (∃ acc st, open' l = some (.all acc :: st) ∧ Tells r acc ∧ ∀ p, ¬ Ours p l) ∧ Honest l
  | .gavePid p (some s) :: l => (∃ acc st, open' l = some (.pid p acc :: st) ∧ (acc.find? fun x => x.1 = p).map (·.2) = some s) ∧ Honest l
  | .gavePid p none :: l => ¬ Ours p l ∧ Honest l
  | .beganPid p :: l => Ours p l ∧ Honest l
  | .died .noChildren :: l => (∃ t st, open' l = some (.wait t [] :: st) ∧ (∀ p, ¬ Ours p l) ∧ (∀ r st', st ≠ .all r :: st') ∧ (∀ q r st', st ≠ .pid q r :: st')) ∧ Honest l
  | .died .internal :: l => (∃ t st p, open' l = some (.wait t [] :: st) ∧ Ours p l) ∧ Honest l
  | .died .vanished :: l => (∃ p acc st, open' l = some (.pid p acc :: st) ∧ ¬ Ours p l) ∧ Honest l
  | _ :: l => Honest l

end Verif.Proc
