import Verif.Cube.Model
import Verif.Hash.MapSpec

/-! # What `HashTupleStats` and `StatsCube` are to do

The base data is a finite map from tuples to statistics and the cube a finite map from tuples with wildcards to statistics, each a list
with one pair per key (`mget`, `mput` of `Verif.Hash.MapSpec`). -/

namespace Verif.Cube

open Verif.Hash Verif.Tuple

variable {α S D : Type} (P : Params α S D)

structure St (α S : Type) where
  base : List (List α × S)
  cube : List (AnyTuple α × S)

/-- The statistic of a tuple in the base data. -/
def baseVal (l : List (List α × S)) (k : List α) : Option S := mget (tupleEq P.field) l k

/-- The statistic of a tuple with wildcards in the cube. -/
def cubeVal (l : List (AnyTuple α × S)) (q : AnyTuple α) : Option S := mget (fun a b => a.eq P.field b) l q

/-- A row agrees with a tuple with wildcards: equal in every field without wildcard. -/
def agrees (q : AnyTuple α) (row : List α) : Bool := (List.zip q.any (List.zip q.data row)).all fun x => x.1 || P.field.eq x.2.1 x.2.2

/-- The statistics of those rows that count for `q`: they agree with it and the tuple made of the row with the wildcards of `q` is
wanted. -/
def counted (rows : List (List α × S)) (q : AnyTuple α) : List S :=
  (rows.filter fun b => agrees P q b.1 && P.wanted (q.any.any id) ⟨b.1, q.any⟩).map (·.2)

/-- Keys of a list are pairwise different tuples of the right arity. -/
def CubeKeys (arity : Nat) (l : List (AnyTuple α × S)) : Prop :=
  (∀ x ∈ l, x.1.data.length = arity ∧ x.1.any.length = arity) ∧ l.Pairwise fun x y => x.1.eq P.field y.1 = false

def BaseKeys (arity : Nat) (l : List (List α × S)) : Prop :=
  (∀ x ∈ l, x.1.length = arity) ∧ l.Pairwise fun x y => tupleEq P.field x.1 y.1 = false

/-- `new` is the cube `old` with the rows added in the given order: the entry of each tuple with wildcards has exactly the rows merged into it that
count for it; a tuple for which no row counts keeps its entry or has none. -/
def CubeOf (arity : Nat) (old : List (AnyTuple α × S)) (rows : List (List α × S)) (new : List (AnyTuple α × S)) : Prop :=
  CubeKeys P arity new ∧
  ∀ q : AnyTuple α, q.data.length = arity → q.any.length = arity →
    cubeVal P new q = if (counted P rows q).isEmpty then cubeVal P old q
      else some ((counted P rows q).foldl P.merge ((cubeVal P old q).getD P.fresh))

/-- A value occurs in a column of the rows. -/
def InColumn (rows : List (List α × S)) (i : Nat) (x : α) : Prop := ∃ b ∈ rows, ∃ y, b.1[i]? = some y ∧ P.field.eq x y = true

/-- All combinations of the values occurring in the columns, each once, with the row's statistic or `zero`. -/
def ZeroRows (arity : Nat) (base : List (List α × S)) (zero : S) (l : List (List α × S)) : Prop :=
  (l.Pairwise fun x y => tupleEq P.field x.1 y.1 = false) ∧
  (∀ x ∈ l, x.1.length = arity ∧ (∀ i v, x.1[i]? = some v → InColumn P base i v) ∧ x.2 = (baseVal P base x.1).getD zero) ∧
  (∀ k : List α, k.length = arity → (∀ i v, k[i]? = some v → InColumn P base i v) → ∃ x ∈ l, tupleEq P.field k x.1 = true)

/-- The zero statistic. -/
def zeroStat (zeroValue : D) (countZeros : Bool) : S := if countZeros then P.add P.fresh zeroValue else P.fresh

/-- What each call may return and the state after it. -/
def Step (arity : Nat) (s : St α S) : Op α S D → Out α S → St α S → Prop
  | .add k d, o, s' => o = .unit ∧ s'.cube = s.cube ∧ s'.base = mput (tupleEq P.field) s.base k (P.add ((baseVal P s.base k).getD P.fresh) d)
  | .addToCube k v, o, s' => o = .unit ∧ s'.base = s.base ∧ CubeOf P arity s.cube [(k, v)] s'.cube
  | .cube, o, s' => o = .unit ∧ s'.base = s.base ∧ ∃ rows, rows.Perm s.base ∧ CubeOf P arity s.cube rows s'.cube
  | .zeroCube z cz, o, s' => o = .unit ∧ s'.base = s.base ∧
    ∃ rows, ZeroRows P arity s.base (zeroStat P z cz) rows ∧ CubeOf P arity s.cube rows s'.cube
  | .walkBase, o, s' => s' = s ∧ ∃ l, o = .base l ∧ l.Perm s.base
  | .walkBaseOrdered, o, s' => s' = s ∧ ∃ l, o = .base l ∧ l.Perm s.base ∧ l.Pairwise fun x y => tupleLt P.field x.1 y.1 = true
  | .walkZeros z cz, o, s' => s' = s ∧ ∃ l, o = .base l ∧ ZeroRows P arity s.base (zeroStat P z cz) l
  | .walk, o, s' => s' = s ∧ ∃ l, o = .cube l ∧ l.Perm s.cube
  | .walkOrdered, o, s' => s' = s ∧ ∃ l, o = .cube l ∧ l.Perm s.cube ∧ l.Pairwise fun x y => x.1.lt P.field y.1 = true
  | .baseSize, o, s' => s' = s ∧ o = .nat s.base.length
  | .size, o, s' => s' = s ∧ o = .nat s.cube.length
  | .pruneBase sel, o, s' => o = .unit ∧ s'.cube = s.cube ∧ s'.base = s.base.filter fun x => !sel x.1
  | .prune sel, o, s' => o = .unit ∧ s'.base = s.base ∧ s'.cube = s.cube.filter fun x => !sel x.1
  | .clear clearBase, o, s' => o = .unit ∧ s'.cube = [] ∧ s'.base = if clearBase then [] else s.base

/-- The tuples handed to a call have the arity of the type. -/
def Typed (arity : Nat) : Op α S D → Prop
  | .add k _ | .addToCube k _ => k.length = arity
  | _ => True

/-- The call could take a table above `cap` entries. -/
def Over (arity cap : Nat) (s : St α S) : Op α S D → Prop
  | .add _ _ => cap ≤ s.base.length
  | .addToCube _ _ => cap < s.cube.length + 2 ^ arity
  | .cube => cap < s.cube.length + s.base.length * 2 ^ arity
  | .zeroCube _ _ => cap < s.cube.length + s.base.length ^ arity * 2 ^ arity
  | _ => False

/-- The results a history may have; open after a call that is too big. -/
def Run (arity cap : Nat) : St α S → List (Op α S D) → Res (List (Out α S)) → Prop
  | _, [], r => r = .ok []
  | s, op :: ops, r =>
    Over arity cap s op ∨ ∃ o s' r', Step P arity s op o s' ∧ Run arity cap s' ops r' ∧ r = r'.map (o :: ·)

end Verif.Cube
