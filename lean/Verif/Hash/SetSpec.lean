import Verif.Hash.SetModel

/-! # Specifications of `HashUnique` (a set) and `RotatingHashMap` (a map with ages) -/

namespace Verif.Hash

section
variable {K : Type}

structure SetSt (K : Type) where
  keys : List K
  used : Bool

/-- Membership up to key equality. -/
def umem (ke : K → K → Bool) (l : List K) (k : K) : Bool := l.any (ke k)

def SetStep (ke : K → K → Bool) (s : SetSt K) : UOp K → UOut K → SetSt K → Prop
  | .exists' k, o, s' => o = .bool (umem ke s.keys k) ∧ s' = s
  | .add k, o, s' => o = .bool (!umem ke s.keys k) ∧ s' = if umem ke s.keys k then s else ⟨k :: s.keys, true⟩
  | .addOrReplace k, o, s' => o = .bool (umem ke s.keys k) ∧ s' = if umem ke s.keys k then s else ⟨k :: s.keys, true⟩
  | .remove k must, o, s' => (umem ke s.keys k = true ∨ must = false) ∧ o = .unit ∧
    s' = ⟨s.keys.filter (fun x => !ke k x), s.used⟩
  | .clear, o, s' => o = .unit ∧ s' = ⟨[], false⟩
  | .reserve want, o, s' => s.used = false ∧ want ≤ 141650939 ∧ o = .unit ∧ s' = s
  | .size, o, s' => o = .nat s.keys.length ∧ s' = s
  | .walk, o, s' => s' = s ∧ ∃ l, o = .list l ∧ l.Perm s.keys

def SetAborts (ke : K → K → Bool) (s : SetSt K) : UOp K → Prop
  | .remove k must => must = true ∧ umem ke s.keys k = false
  | .reserve want => s.used = true ∨ 141650939 < want
  | _ => False

def SetOver (cap : Nat) (s : SetSt K) : UOp K → Prop
  | .add _ | .addOrReplace _ => cap ≤ s.keys.length
  | _ => False

def SetRun (cap : Nat) (ke : K → K → Bool) : SetSt K → List (UOp K) → Res (List (UOut K)) → Prop
  | _, [], r => r = .ok []
  | s, op :: ops, r =>
    SetOver cap s op ∨
    (SetAborts ke s op ∧ r = .abort) ∨
    ∃ o s' r', SetStep ke s op o s' ∧ SetRun cap ke s' ops r' ∧ r = r'.map (o :: ·)

/-- The property in words: `k` was added and not removed since (newest call first). -/
def addedSince (ke : K → K → Bool) (k : K) : List (UOp K) → Bool
  | [] => false
  | .add k' :: older | .addOrReplace k' :: older => if ke k' k then true else addedSince ke k older
  | .remove k' _ :: older => if ke k' k then false else addedSince ke k older
  | .clear :: _ => false
  | .exists' _ :: older | .reserve _ :: older | .size :: older | .walk :: older => addedSince ke k older

end

section
variable {K V : Type}

/-- One entry of the rotating map: key, value, and how many rotations since its last use
(`0` = recent, `1` = old; entries that would reach `2` are dropped). -/
structure AgedEntry (K V : Type) where
  key : K
  val : V
  age : Nat

def aget (ke : K → K → Bool) (l : List (AgedEntry K V)) (k : K) : Option (AgedEntry K V) := l.find? (fun e => ke k e.key)

/-- Using a key makes its entry recent; an entry that was old is stored again under the key used. -/
def refresh (k : K) (e : AgedEntry K V) : AgedEntry K V := if e.age = 0 then e else ⟨k, e.val, 0⟩

def touch (ke : K → K → Bool) (l : List (AgedEntry K V)) (k : K) : List (AgedEntry K V) :=
  l.map (fun e => if ke k e.key then refresh k e else e)

def aput (ke : K → K → Bool) (l : List (AgedEntry K V)) (k : K) (v : V) : List (AgedEntry K V) :=
  if (aget ke l k).isSome then l.map (fun e => if ke k e.key then { refresh k e with val := v } else e)
  else ⟨k, v, 0⟩ :: l

/-- A rotation ages every entry and drops those untouched since the previous rotation. -/
def arotate (l : List (AgedEntry K V)) : List (AgedEntry K V) :=
  (l.filter (fun e => e.age = 0)).map (fun e => { e with age := 1 })

def pairOf (e : AgedEntry K V) : K × V := (e.key, e.val)

def RotStep (ke : K → K → Bool) (dv : V) (s : List (AgedEntry K V)) : ROp K V → MOut K V → List (AgedEntry K V) → Prop
  | .set k v, o, s' => o = .unit ∧ s' = aput ke s k v
  | .index k, o, s' => o = .val (((aget ke s k).map (·.val)).getD dv) ∧
    s' = if (aget ke s k).isSome then touch ke s k else ⟨k, dv, 0⟩ :: s
  | .lookup k, o, s' => o = .opt ((aget ke s k).map (·.val)) ∧ s' = touch ke s k
  | .exists' k, o, s' => o = .bool (aget ke s k).isSome ∧ s' = touch ke s k
  | .existsNoPromote k, o, s' => o = .bool (aget ke s k).isSome ∧ s' = s
  | .existsRecent k, o, s' => o = .bool (((aget ke s k).map (·.age)) == some 0) ∧ s' = s
  | .existsOld k, o, s' => o = .bool (((aget ke s k).map (·.age)) == some 1) ∧ s' = s
  | .remove k must, o, s' => ((aget ke s k).isSome = true ∨ must = false) ∧ o = .bool (aget ke s k).isSome ∧
    s' = s.filter (fun e => !ke k e.key)
  | .rotate, o, s' => o = .unit ∧ s' = arotate s
  | .rotateFn, o, s' => s' = arotate s ∧ ∃ l, o = .list l ∧ l.Perm ((s.filter (fun e => e.age = 1)).map pairOf)
  | .flushRotate, o, s' => o = .unit ∧ s' = []
  | .flushRotateFn, o, s' => s' = [] ∧ ∃ l, o = .list l ∧ l.Perm (s.map pairOf)
  | .walk, o, s' => s' = s ∧ ∃ l, o = .list l ∧ l.Perm (s.map pairOf)
  | .size, o, s' => o = .nat s.length ∧ s' = s
  | .sizeRecent, o, s' => o = .nat (s.filter (fun e => e.age = 0)).length ∧ s' = s
  | .sizeOld, o, s' => o = .nat (s.filter (fun e => e.age = 1)).length ∧ s' = s

def RotAborts (ke : K → K → Bool) (s : List (AgedEntry K V)) : ROp K V → Prop
  | .remove k must => must = true ∧ aget ke s k = none
  | _ => False

def RotOver (cap : Nat) (s : List (AgedEntry K V)) : ROp K V → Prop
  | .set _ _ | .index _ | .lookup _ | .exists' _ => cap ≤ s.length
  | _ => False

def RotRun (cap : Nat) (ke : K → K → Bool) (dv : V) : List (AgedEntry K V) → List (ROp K V) → Res (List (MOut K V)) → Prop
  | _, [], r => r = .ok []
  | s, op :: ops, r =>
    RotOver cap s op ∨
    (RotAborts ke s op ∧ r = .abort) ∨
    ∃ o s' r', RotStep ke dv s op o s' ∧ RotRun cap ke dv s' ops r' ∧ r = r'.map (o :: ·)

end
end Verif.Hash
