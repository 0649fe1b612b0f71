import Verif.Hash.Model

/-!
# Model of `StringId` (`/repo/include/Lintel/StringId.hpp`, `/repo/src/StringId.cpp`)

Built on the model of `HashTable`. An entry (`HTE`) holds the string itself where the code holds a pointer to a copy that
is never freed or changed. Strings are any type with equality, the hash of their bytes any function.
-/

namespace Verif.StrId

open Verif.Hash

variable {S : Type} [DecidableEq S]

/-- `HTE`, `StringId.hpp:29-34`. -/
structure HTE (S : Type) where
  str : S
  id : Nat
deriving DecidableEq

/-- `idmap`: `HTEHashStr`, `HTEEqualStr` (`StringId.hpp:35-46`), chain length 2 (`HashTable.hpp:101`). -/
def strCfg (hash : S → Nat) (dflt : S) : Cfg (HTE S) :=
  ⟨fun k => hash k.str, fun a b => decide (a.str = b.str), fun n m => decide (n ≥ 2 * m), ⟨dflt, 0⟩⟩

/-- `revmap`: `HTEHashId`, `HTEEqualId` (`StringId.hpp:47-58`), chain length 4 (`StringId.cpp:16`). -/
def idCfg (dflt : S) : Cfg (HTE S) :=
  ⟨fun k => k.id, fun a b => decide (a.id = b.id), fun n m => decide (n ≥ 4 * m), ⟨dflt, 0⟩⟩

/-- Not a function of the code; stands for the uses of `StringId.cpp:15-62`. -/
structure State (S : Type) where
  idmap : Table (HTE S)
  revmap : Table (HTE S)
  nextid : Nat

/-- Constructor, `StringId.cpp:15-19`. -/
def initial : State S := ⟨empty', empty', 1⟩

/-- `getId`, `StringId.cpp:34-46`. -/
def getId (hash : S → Nat) (dflt : S) (s : State S) (str : S) : Res (State S × Nat) := do
  let r ← lookup (strCfg hash dflt) s.idmap ⟨str, 0⟩
  match r with
  | none => do
    let a ← add (strCfg hash dflt) s.idmap ⟨str, s.nextid⟩
    let b ← add (idCfg dflt) s.revmap ⟨str, s.nextid⟩
    pure (⟨a.1, b.1, (s.nextid + 1) % 2 ^ 32⟩, s.nextid)
  | some loc => do
    let d ← deref s.idmap loc
    pure (s, d.id)

/-- `getString`, `StringId.cpp:57-62`. The string of the key is not looked at. -/
def getString (dflt : S) (s : State S) (id : Nat) : Res S := do
  let r ← lookup (idCfg dflt) s.revmap ⟨dflt, id⟩
  match r with
  | none => .abort
  | some loc => do
    let d ← deref s.revmap loc
    pure d.str

/-- `StringId.hpp:26`. -/
inductive Op (S : Type) where
  | getId (str : S)
  | getString (id : Nat)
  /-- `maxId`, `StringId.hpp:26` -/
  | maxId

/-- Not a function of the code; stands for the uses of `StringId.cpp:34-62`. -/
inductive Out (S : Type) where
  | id (n : Nat)
  | str (s : S)
deriving DecidableEq

/-- Not a function of the code; stands for the uses of `StringId.cpp:34-62`. -/
def step (hash : S → Nat) (dflt : S) (s : State S) : Op S → Res (State S × Out S)
  | .getId str => do
    let r ← getId hash dflt s str
    pure (r.1, .id r.2)
  | .getString id => do
    let r ← getString dflt s id
    pure (s, .str r)
  | .maxId => pure (s, .id s.nextid)

/-- Not a function of the code; stands for the uses of `StringId.cpp:15-62`. -/
def run (hash : S → Nat) (dflt : S) : State S → List (Op S) → Res (State S × List (Out S))
  | s, [] => .ok (s, [])
  | s, op :: ops => do
    let r ← step hash dflt s op
    let q ← run hash dflt r.1 ops
    pure (q.1, r.2 :: q.2)

end Verif.StrId
