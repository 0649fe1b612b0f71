import Verif.Hash.TableModel

/-! # Model of `HashMap` (`/repo/include/Lintel/HashMap.hpp`)

A `HashMap` is a `HashTable` of pairs, hashed and compared by their first component
(`HashMap.hpp:98-111`). -/

namespace Verif.Hash

variable {K V : Type}

/-- The table configuration of a `HashMap`: `kh`, `ke` are `KHash` and `KEqual`, `dk`, `dv` are
`K()` and `V()`. `HashMap.hpp:98-111`, `200`. -/
def mapCfg (kh : K → Nat) (ke : K → K → Bool) (full : Nat → Nat → Bool) (dk : K) (dv : V) : Cfg (K × V) :=
  { hash := fun p => kh p.1, eq := fun a b => ke a.1 b.1, full := full, dflt := (dk, dv) }

/-- A `HashMap` instance: template parameters, growth test, default objects. Used in the model of `HashMap.hpp:123-132` (`mIndex`). -/
structure MapCfg (K V : Type) where
  kh : K → Nat
  ke : K → K → Bool
  full : Nat → Nat → Bool
  dk : K
  dv : V

/-- Used in the model of `HashMap.hpp:123-132` (`mIndex`). -/
def MapCfg.cfg (m : MapCfg K V) : Cfg (K × V) := mapCfg m.kh m.ke m.full m.dk m.dv

/-- `operator[]`, `HashMap.hpp:123-132`. Returns the slot of the pair. -/
def mIndex (m : MapCfg K V) (t : Table (K × V)) (k : K) : Res (Table (K × V) × Nat) := do
  let r ← lookup m.cfg t (k, m.dv)
  match r with
  | none => add m.cfg t (k, m.dv)
  | some loc => pure (t, loc)

/-- `m[k] = v`: assign the second component behind the returned reference. Made of the parts of `HashMap.hpp:123-132`. -/
def mSet (m : MapCfg K V) (t : Table (K × V)) (k : K) (v : V) : Res (Table (K × V)) := do
  let r ← mIndex m t k
  let e ← deref r.1 r.2
  store r.1 r.2 (e.1, v)

/-- `addUnlessExist`, `HashMap.hpp:136-146`. -/
def mAddUnlessExist (m : MapCfg K V) (t : Table (K × V)) (k : K) : Res (Table (K × V) × Bool) := do
  let r ← lookup m.cfg t (k, m.dv)
  match r with
  | none => do
    let r ← add m.cfg t (k, m.dv)
    pure (r.1, true)
  | some _ => pure (t, false)

/-- `lookup`, `HashMap.hpp:113-119`, `314-322`: the value pointed at, if any. -/
def mLookup (m : MapCfg K V) (t : Table (K × V)) (k : K) : Res (Option V) := do
  let r ← lookup m.cfg t (k, m.dv)
  match r with
  | none => pure none
  | some loc => do
    let e ← deref t loc
    pure (some e.2)

/-- `exists`, `HashMap.hpp:174-176`. -/
def mExists (m : MapCfg K V) (t : Table (K × V)) (k : K) : Res Bool := do
  let r ← mLookup m t k
  pure r.isSome

/-- `cGet`, `HashMap.hpp:151-159`. -/
def mCGet (m : MapCfg K V) (t : Table (K × V)) (k : K) : Res V := do
  let r ← mLookup m t k
  match r with
  | none => .abort
  | some v => pure v

/-- `dGet`, `HashMap.hpp:162-171`. The function-local static is `V()`. -/
def mDGet (m : MapCfg K V) (t : Table (K × V)) (k : K) : Res V := do
  let r ← mLookup m t k
  match r with
  | none => pure m.dv
  | some v => pure v

/-- `remove`, `HashMap.hpp:179-182`. -/
def mRemove (m : MapCfg K V) (t : Table (K × V)) (k : K) (must : Bool) : Res (Table (K × V) × Bool) :=
  remove m.cfg t (k, m.dv) must

/-- `it = find(k); if (it != end()) erase(it)`, `HashMap.hpp:223-237`. -/
def mFindErase (m : MapCfg K V) (t : Table (K × V)) (k : K) : Res (Table (K × V) × Bool) :=
  findErase m.cfg t (k, m.dv)

/-- `keys`, `HashMap.hpp:259-266`. -/
def mKeys (t : Table (K × V)) : Res (List K) := do
  let l ← walk t
  pure (l.map (·.1))

/-- The prune loop of the clients, with enough fuel for every table (see `pruneLoop`; `remove` only
looks at the key of its argument). Used in the model of `HashMap.hpp:113-266` (`mStep`). -/
def prune {α : Type} (c : Cfg α) (sel : α → Bool) (t : Table α) : Res (Table α × List α) :=
  pruneLoop c sel ((t.chains.length + 1) * (t.chains.length + 1)) t (begin' t)

/-- Calls on a `HashMap`. Used in the model of `HashMap.hpp:113-266` (`mStep`). -/
inductive MOp (K V : Type) where
  | set (k : K) (v : V)
  | index (k : K)
  | addUnlessExist (k : K)
  | lookup (k : K)
  | exists' (k : K)
  | cGet (k : K)
  | dGet (k : K)
  | remove (k : K) (mustExist : Bool)
  | findErase (k : K)
  | clear
  | reserve (want : Nat)
  | size
  | keys
  | walk
  | prune (sel : K × V → Bool)

/-- Used in the model of `HashMap.hpp:113-266` (`mStep`). -/
inductive MOut (K V : Type) where
  | unit
  | val (v : V)
  | opt (v : Option V)
  | bool (b : Bool)
  | nat (n : Nat)
  | keys (l : List K)
  | list (l : List (K × V))
deriving Repr, DecidableEq

/-- One call. Made of the parts of `HashMap.hpp:113-266`. -/
def mStep (m : MapCfg K V) (t : Table (K × V)) : MOp K V → Res (Table (K × V) × MOut K V)
  | .set k v => do
    let t ← mSet m t k v
    pure (t, .unit)
  | .index k => do
    let r ← mIndex m t k
    let e ← deref r.1 r.2
    pure (r.1, .val e.2)
  | .addUnlessExist k => do
    let r ← mAddUnlessExist m t k
    pure (r.1, .bool r.2)
  | .lookup k => do
    let r ← mLookup m t k
    pure (t, .opt r)
  | .exists' k => do
    let r ← mExists m t k
    pure (t, .bool r)
  | .cGet k => do
    let r ← mCGet m t k
    pure (t, .val r)
  | .dGet k => do
    let r ← mDGet m t k
    pure (t, .val r)
  | .remove k must => do
    let r ← mRemove m t k must
    pure (r.1, .bool r.2)
  | .findErase k => do
    let r ← mFindErase m t k
    pure (r.1, .bool r.2)
  | .clear => pure (clear t, .unit)
  | .reserve want => do
    let t ← reserve t want
    pure (t, .unit)
  | .size => pure (t, .nat (size t))
  | .keys => do
    let l ← mKeys t
    pure (t, .keys l)
  | .walk => do
    let l ← walk t
    pure (t, .list l)
  | .prune sel => do
    let r ← prune m.cfg sel t
    pure (r.1, .list r.2)

/-- A whole history. Made of the parts of `HashMap.hpp:113-266`. -/
def mRun (m : MapCfg K V) : Table (K × V) → List (MOp K V) → Res (List (MOut K V))
  | _, [] => .ok []
  | t, op :: ops => do
    let r ← mStep m t op
    let outs ← mRun m r.1 ops
    pure (r.2 :: outs)

end Verif.Hash
