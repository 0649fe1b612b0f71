import Verif.Hash.MapModel

/-! # Models of `HashUnique` and `RotatingHashMap`

`/repo/include/Lintel/HashUnique.hpp`, `/repo/include/Lintel/RotatingHashMap.hpp`. -/

namespace Verif.Hash

/-! ## HashUnique -/

section
variable {K : Type}

/-- `exists`, `HashUnique.hpp:34-37`. -/
def uExists (c : Cfg K) (t : Table K) (k : K) : Res Bool := do
  let r ← lookup c t k
  pure r.isSome

/-- `add`, `HashUnique.hpp:42-50`. -/
def uAdd (c : Cfg K) (t : Table K) (k : K) : Res (Table K × Bool) := do
  let r ← lookup c t k
  match r with
  | none => do
    let r ← add c t k
    pure (r.1, true)
  | some _ => pure (t, false)

/-- `addOrReplace`, `HashUnique.hpp:54-58`. -/
def uAddOrReplace (c : Cfg K) (t : Table K) (k : K) : Res (Table K × Bool) := do
  let r ← addOrReplace c t k
  pure (r.1, r.2.2)

/-- `remove`, `HashUnique.hpp:60-62` (returns nothing). -/
def uRemove (c : Cfg K) (t : Table K) (k : K) (must : Bool) : Res (Table K) := do
  let r ← remove c t k must
  pure r.1

/-- Used in the model of `HashUnique.hpp:34-62` (`uStep`). -/
inductive UOp (K : Type) where
  | exists' (k : K)
  | add (k : K)
  | addOrReplace (k : K)
  | remove (k : K) (mustExist : Bool)
  | clear
  | reserve (want : Nat)
  | size
  | walk

/-- Used in the model of `HashUnique.hpp:34-62` (`uStep`). -/
inductive UOut (K : Type) where
  | unit
  | bool (b : Bool)
  | nat (n : Nat)
  | list (l : List K)
deriving Repr, DecidableEq

/-- Made of the parts of `HashUnique.hpp:34-62`. -/
def uStep (c : Cfg K) (t : Table K) : UOp K → Res (Table K × UOut K)
  | .exists' k => do
    let b ← uExists c t k
    pure (t, .bool b)
  | .add k => do
    let r ← uAdd c t k
    pure (r.1, .bool r.2)
  | .addOrReplace k => do
    let r ← uAddOrReplace c t k
    pure (r.1, .bool r.2)
  | .remove k must => do
    let t ← uRemove c t k must
    pure (t, .unit)
  | .clear => pure (clear t, .unit)
  | .reserve want => do
    let t ← reserve t want
    pure (t, .unit)
  | .size => pure (t, .nat (size t))
  | .walk => do
    let l ← walk t
    pure (t, .list l)

/-- Made of the parts of `HashUnique.hpp:34-62`. -/
def uRun (c : Cfg K) : Table K → List (UOp K) → Res (List (UOut K))
  | _, [] => .ok []
  | t, op :: ops => do
    let r ← uStep c t op
    let outs ← uRun c r.1 ops
    pure (r.2 :: outs)

end

/-! ## RotatingHashMap -/

section
variable {K V : Type}

/-- `table_recent`, `table_old`, `RotatingHashMap.hpp:185-188`. -/
structure Rot (K V : Type) where
  recent : Table (K × V)
  old : Table (K × V)

/-- Constructor, `RotatingHashMap.hpp:54-57`. -/
def rNew : Rot K V := ⟨empty', empty'⟩

/-- `lookup`, `RotatingHashMap.hpp:64-77`: a hit in the old table is copied to the recent table and
removed from the old one. Returns the slot in the recent table. The `DEBUG_SINVARIANT` of line 74 is
compiled out. -/
def rLookup (m : MapCfg K V) (r : Rot K V) (k : K) : Res (Rot K V × Option Nat) := do
  let a ← lookup m.cfg r.recent (k, m.dv)
  match a with
  | some loc => pure (r, some loc)
  | none => do
    let b ← lookup m.cfg r.old (k, m.dv)
    match b with
    | none => pure (r, none)
    | some loc => do
      let e ← deref r.old loc
      let q ← mIndex m r.recent k
      let x ← deref q.1 q.2
      let recent ← store q.1 q.2 (x.1, e.2)
      let o ← mRemove m r.old k true
      pure (⟨recent, o.1⟩, some q.2)

/-- `operator[]`, `RotatingHashMap.hpp:83-90`. -/
def rIndex (m : MapCfg K V) (r : Rot K V) (k : K) : Res (Rot K V × Nat) := do
  let a ← rLookup m r k
  match a.2 with
  | some loc => pure (a.1, loc)
  | none => do
    let q ← mIndex m a.1.recent k
    pure (⟨q.1, a.1.old⟩, q.2)

/-- `existsNoPromote`, `RotatingHashMap.hpp:102-106`. -/
def rExistsNoPromote (m : MapCfg K V) (r : Rot K V) (k : K) : Res Bool := do
  let a ← mExists m r.recent k
  if a then pure true else mExists m r.old k

/-- `remove`, `RotatingHashMap.hpp:109-115`. -/
def rRemove (m : MapCfg K V) (r : Rot K V) (k : K) (must : Bool) : Res (Rot K V × Bool) := do
  let a ← mRemove m r.recent k false
  let b ← mRemove m r.old k false
  Res.require (!must || a.2 || b.2)
  pure (⟨a.1, b.1⟩, a.2 || b.2)

/-- `rotate()`, `RotatingHashMap.hpp:117-121`. -/
def rRotate (r : Rot K V) : Rot K V := ⟨empty', r.recent⟩

/-- `rotate(fn)`, `RotatingHashMap.hpp:129-135`: the pairs handed to `fn`. The callback does not
change the values it is given in this model. -/
def rRotateFn (r : Rot K V) : Res (Rot K V × List (K × V)) := do
  let l ← walk r.old
  pure (rRotate r, l)

/-- `walk`, `RotatingHashMap.hpp:149-156`. -/
def rWalk (r : Rot K V) : Res (List (K × V)) := do
  let a ← walk r.recent
  let b ← walk r.old
  pure (a ++ b)

/-- Used in the model of `RotatingHashMap.hpp:158-168` (`rStep`). -/
inductive ROp (K V : Type) where
  | set (k : K) (v : V)
  | index (k : K)
  | lookup (k : K)
  | exists' (k : K)
  | existsNoPromote (k : K)
  | existsRecent (k : K)
  | existsOld (k : K)
  | remove (k : K) (mustExist : Bool)
  | rotate
  | rotateFn
  | flushRotate
  | flushRotateFn
  | walk
  | size
  | sizeRecent
  | sizeOld

/-- One call. `set` is `m[k] = v`. Sizes: `RotatingHashMap.hpp:158-168`; `exists`:
`RotatingHashMap.hpp:95-97`; `exists_recent`, `exists_old`: `175-182`; `flushRotate`: `138-147`. -/
def rStep (m : MapCfg K V) (r : Rot K V) : ROp K V → Res (Rot K V × MOut K V)
  | .set k v => do
    let q ← rIndex m r k
    let x ← deref q.1.recent q.2
    let recent ← store q.1.recent q.2 (x.1, v)
    pure (⟨recent, q.1.old⟩, .unit)
  | .index k => do
    let q ← rIndex m r k
    let x ← deref q.1.recent q.2
    pure (q.1, .val x.2)
  | .lookup k => do
    let q ← rLookup m r k
    match q.2 with
    | none => pure (q.1, .opt none)
    | some loc => do
      let x ← deref q.1.recent loc
      pure (q.1, .opt (some x.2))
  | .exists' k => do
    let q ← rLookup m r k
    pure (q.1, .bool q.2.isSome)
  | .existsNoPromote k => do
    let b ← rExistsNoPromote m r k
    pure (r, .bool b)
  | .existsRecent k => do
    let b ← mExists m r.recent k
    pure (r, .bool b)
  | .existsOld k => do
    let b ← mExists m r.old k
    pure (r, .bool b)
  | .remove k must => do
    let q ← rRemove m r k must
    pure (q.1, .bool q.2)
  | .rotate => pure (rRotate r, .unit)
  | .rotateFn => do
    let q ← rRotateFn r
    pure (q.1, .list q.2)
  | .flushRotate => pure (rRotate (rRotate r), .unit)
  | .flushRotateFn => do
    let q ← rRotateFn r
    let q' ← rRotateFn q.1
    pure (q'.1, .list (q.2 ++ q'.2))
  | .walk => do
    let l ← rWalk r
    pure (r, .list l)
  | .size => pure (r, .nat (size r.recent + size r.old))
  | .sizeRecent => pure (r, .nat (size r.recent))
  | .sizeOld => pure (r, .nat (size r.old))

/-- Made of the parts of `RotatingHashMap.hpp:158-188`. -/
def rRun (m : MapCfg K V) : Rot K V → List (ROp K V) → Res (List (MOut K V))
  | _, [] => .ok []
  | r, op :: ops => do
    let q ← rStep m r op
    let outs ← rRun m q.1 ops
    pure (q.2 :: outs)

end
end Verif.Hash
