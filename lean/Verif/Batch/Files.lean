/-!
# Model of building files: `BatchParallel::common`

`/repo/src/BatchParallel/common.pm:92-107` (`file_older`), `140-154` (`determine_things_to_build`), `239-270` (what is done with a thing). A thing is built by a child that writes to `<dest>-new` (any contents, any number of times); the parent moves that to `<dest>` once the
child has ended with success. `d k` is the destination of thing `k`. Contents are of any type. The parent may be stopped at any moment; children go on.
-/

namespace Verif.Batch.Files
variable {C : Type}

/-- Part of the model of `common.pm:92-148`. -/
inductive Phase where
  | idle
  | running
  | succeeded
  | unlinked
  | moved
  | failed
deriving DecidableEq, Repr

/-- A child ended: with success or not, and what was in `<dest>-new` at that moment. Part of the model of `common.pm:92-148`. -/
structure Finished (C : Type) where
  thing : Nat
  ok : Bool
  left : Option C
deriving DecidableEq, Repr

/-- Part of the model of `common.pm:92-148`. -/
structure State (C : Type) where
  dest : Nat → Option C
  new : Nat → Option C := fun _ => none
  phase : Nat → Phase := fun _ => .idle
  /-- The parent was stopped, or died. -/
  stopped : Bool := false
  log : List (Finished C) := []

/-- Part of the model of `common.pm:92-148`. -/
inductive Move (C : Type) where
  | start (k : Nat)
  /-- The child of `k` writes to, or removes, `<dest>-new`. -/
  | write (k : Nat) (c : Option C)
  | exit (k : Nat) (ok : Bool)
  /-- Lines 255-256: `<dest>-new` is there and `<dest>` is removed. -/
  | unlink (k : Nat)
  /-- Line 257. -/
  | rename (k : Nat)
  | stop

/-- Part of the model of `common.pm:92-148`. -/
def upd {β : Type} (f : Nat → β) (i : Nat) (b : β) : Nat → β := fun j => if j = i then b else f j

/-- Part of the model of `common.pm:92-148`. -/
def step (d : Nat → Nat) (s : State C) : Move C → State C
  | .start k => if s.stopped ∨ s.phase k ≠ .idle then s else { s with phase := upd s.phase k .running }
  | .write k c => if s.phase k ≠ .running then s else { s with new := upd s.new (d k) c }
  | .exit k ok => if s.phase k ≠ .running then s else { s with phase := upd s.phase k (if ok then .succeeded else .failed), log := ⟨k, ok, s.new (d k)⟩ :: s.log }
  | .unlink k =>
    if s.stopped ∨ s.phase k ≠ .succeeded then s
    else if (s.new (d k)).isNone then { s with stopped := true }
    else { s with dest := upd s.dest (d k) none, phase := upd s.phase k .unlinked }
  | .rename k =>
    if s.stopped ∨ s.phase k ≠ .unlinked then s
    else if (s.new (d k)).isNone then { s with stopped := true }
    else { s with dest := upd s.dest (d k) (s.new (d k)), new := upd s.new (d k) none, phase := upd s.phase k .moved }
  | .stop => { s with stopped := true }

/-- Part of the model of `common.pm:92-148`. -/
def run (d : Nat → Nat) (s : State C) (ms : List (Move C)) : State C := ms.foldl (step d) s

/-! ## Times -/

/-- `file_older`, lines 92-107, for one input that exists: `-M` is an age, so larger is older. Perl's times are whole seconds. -/
def fileOlder (dest : Option Int) (src : Int) : Bool :=
  match dest with
  | none => true
  | some t => decide (-t > -src)

/-- Lines 147-148: a thing is built if its destination is not there or is older. -/
def needsBuild (dest : Option Int) (src : Int) : Bool := dest.isNone || fileOlder dest src

end Verif.Batch.Files
