import Verif.Assert.Model

/-! # What is promised of failed assertions -/

namespace Verif.Assert.Spec
open Verif.Assert

/-- The hook does nothing but write. -/
def Calm (acts : List Act) : Prop := ∀ a ∈ acts, ∃ n, a = .say n

/-- What such a body writes. -/
def writes : List Act → List Ev
  | [] => []
  | .say n :: as => .said n :: writes as
  | _ :: as => writes as

/-- The trace of calling hooks, one after the other, each once. -/
def calls (bodies : Nat → List Act) (site : Site) (t : Text) (hs : List Nat) : List Ev :=
  hs.flatMap fun h => .call h site t :: writes (bodies h)

/-- The hooks registered since the last clearing, in order. -/
def befores : List Op → List Nat
  | ops => ops.foldl (fun l o => match o with | .before h => l ++ [h] | .clearFns => [] | _ => l) []

def afters : List Op → List Nat
  | ops => ops.foldl (fun l o => match o with | .after h => l ++ [h] | .clearFns => [] | _ => l) []

/-- The hook registers no hooks and clears none. -/
def Leaves (acts : List Act) : Prop := ∀ a ∈ acts, (∀ h, a ≠ .addPre h) ∧ (∀ h, a ≠ .addPost h) ∧ a ≠ .clear

/-- The hook contains no assertion that fails. -/
def Sound (acts : List Act) : Prop := ∀ a ∈ acts, ∀ si m, a ≠ .check false si m

end Verif.Assert.Spec

namespace Verif.Assert.Spec
open Verif.Assert

/-- The text a message is shown as; none when evaluating the message throws something that is not a `std::exception`. -/
def shown : Msg → Option Text
  | .str n => some (.given n)
  | .format n => some (.given n)
  | .formatTooMany => some .tooMany
  | .formatTooFew => some .tooFew
  | .formatThrows => some .unknown
  | .throwsStd => some .evaluating
  | .throwsOther => none

end Verif.Assert.Spec
