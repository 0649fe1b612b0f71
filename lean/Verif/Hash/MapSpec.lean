import Verif.Hash.MapModel

/-! # Finite-map specification of `HashMap`

The state is an association list (one pair per key) and whether anything was added since creation
or the last `clear`. -/

namespace Verif.Hash

variable {K V : Type}

structure MapSt (K V : Type) where
  items : List (K × V)
  used : Bool

/-- Value of a key. -/
def mget (ke : K → K → Bool) (l : List (K × V)) (k : K) : Option V := (l.find? (fun p => ke k p.1)).map (·.2)

/-- `m[k] = v`: the pair of a present key keeps its place and its stored key. -/
def mput (ke : K → K → Bool) (l : List (K × V)) (k : K) (v : V) : List (K × V) :=
  if (mget ke l k).isSome then l.map (fun p => if ke k p.1 then (p.1, v) else p) else (k, v) :: l

/-- Drop a key. -/
def mdel (ke : K → K → Bool) (l : List (K × V)) (k : K) : List (K × V) := l.filter (fun p => !ke k p.1)

/-- What each call may return and the map after it; `dv` is `V()`. -/
def MapStep (ke : K → K → Bool) (dv : V) (s : MapSt K V) : MOp K V → MOut K V → MapSt K V → Prop
  | .set k v, o, s' => o = .unit ∧ s' = ⟨mput ke s.items k v, true⟩
  | .index k, o, s' =>
    o = .val ((mget ke s.items k).getD dv) ∧
    s' = if (mget ke s.items k).isSome then s else ⟨(k, dv) :: s.items, true⟩
  | .addUnlessExist k, o, s' =>
    o = .bool (mget ke s.items k).isNone ∧
    s' = if (mget ke s.items k).isSome then s else ⟨(k, dv) :: s.items, true⟩
  | .lookup k, o, s' => o = .opt (mget ke s.items k) ∧ s' = s
  | .exists' k, o, s' => o = .bool (mget ke s.items k).isSome ∧ s' = s
  | .cGet k, o, s' => s' = s ∧ ∃ v, mget ke s.items k = some v ∧ o = .val v
  | .dGet k, o, s' => o = .val ((mget ke s.items k).getD dv) ∧ s' = s
  | .remove k must, o, s' =>
    ((mget ke s.items k).isSome = true ∨ must = false) ∧ o = .bool (mget ke s.items k).isSome ∧
    s' = ⟨mdel ke s.items k, s.used⟩
  | .findErase k, o, s' => o = .bool (mget ke s.items k).isSome ∧ s' = ⟨mdel ke s.items k, s.used⟩
  | .clear, o, s' => o = .unit ∧ s' = ⟨[], false⟩
  | .reserve want, o, s' => s.used = false ∧ want ≤ 141650939 ∧ o = .unit ∧ s' = s
  | .size, o, s' => o = .nat s.items.length ∧ s' = s
  | .keys, o, s' => s' = s ∧ ∃ l, o = .keys l ∧ l.Perm (s.items.map (·.1))
  | .walk, o, s' => s' = s ∧ ∃ l, o = .list l ∧ l.Perm s.items
  | .prune sel, o, s' => s' = ⟨s.items.filter (fun p => !sel p), s.used⟩ ∧
    ∃ seen, o = .list seen ∧ (∀ p, p ∈ seen ↔ p ∈ s.items) ∧ (seen.filter sel).Perm (s.items.filter sel)

/-- When a call stops the program. -/
def MapAborts (ke : K → K → Bool) (s : MapSt K V) : MOp K V → Prop
  | .cGet k => mget ke s.items k = none
  | .remove k must => must = true ∧ mget ke s.items k = none
  | .reserve want => s.used = true ∨ 141650939 < want
  | _ => False

/-- The call could take the number of keys above `cap`. -/
def MapOver (cap : Nat) (s : MapSt K V) : MOp K V → Prop
  | .set _ _ | .index _ | .addUnlessExist _ => cap ≤ s.items.length
  | _ => False

/-- The results a history may have; open after an add with `cap` keys stored. -/
def MapRun (cap : Nat) (ke : K → K → Bool) (dv : V) : MapSt K V → List (MOp K V) → Res (List (MOut K V)) → Prop
  | _, [], r => r = .ok []
  | s, op :: ops, r =>
    MapOver cap s op ∨
    (MapAborts ke s op ∧ r = .abort) ∨
    ∃ o s' r', MapStep ke dv s op o s' ∧ MapRun cap ke dv s' ops r' ∧ r = r'.map (o :: ·)

/-- The property in words: the value most recently stored under a key equal to `k` and not since
removed. The history is given newest call first. Only calls that change the map matter. -/
def lastStored (ke : K → K → Bool) (dv : V) (k : K) : List (MOp K V) → Option V
  | [] => none
  | .set k' v :: older => if ke k' k then some v else lastStored ke dv k older
  | .index k' :: older | .addUnlessExist k' :: older =>
    if ke k' k then some ((lastStored ke dv k older).getD dv) else lastStored ke dv k older
  | .remove k' _ :: older | .findErase k' :: older => if ke k' k then none else lastStored ke dv k older
  | .clear :: _ => none
  | .lookup _ :: older | .exists' _ :: older | .cGet _ :: older | .dGet _ :: older | .reserve _ :: older
  | .size :: older | .keys :: older | .walk :: older | .prune _ :: older => lastStored ke dv k older

end Verif.Hash
