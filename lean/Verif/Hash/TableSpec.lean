import Verif.Hash.TableModel

/-! # Multimap specification of `HashTable`

The state is the multiset of stored entries (a list, compared up to permutation) and whether
anything was added since creation or the last `clear`. Nothing here mentions buckets, chains,
slots or hash values. -/

namespace Verif.Hash

variable {α : Type}

structure MultiSt (α : Type) where
  items : List α
  used : Bool

/-- What each call may return and the multiset after it. `eq k x` says that `x` has key `k`. -/
def MultiStep (eq : α → α → Bool) (s : MultiSt α) : TOp α → TOut α → MultiSt α → Prop
  | .add d, o, s' => o = .opt (some d) ∧ s'.items.Perm (d :: s.items) ∧ s'.used = true
  | .addOrReplace d, o, s' =>
    (∃ x ∈ s.items, eq d x = true ∧ o = .repl x true ∧ s' = s) ∨
    ((∀ x ∈ s.items, eq d x = false) ∧ o = .repl d false ∧ s'.items.Perm (d :: s.items) ∧ s'.used = true)
  | .lookup k, o, s' => s' = s ∧
    ((∃ x ∈ s.items, eq k x = true ∧ o = .opt (some x)) ∨ ((∀ x ∈ s.items, eq k x = false) ∧ o = .opt none))
  | .remove k must, o, s' => s'.used = s.used ∧
    ((∃ x, eq k x = true ∧ s.items.Perm (x :: s'.items) ∧ o = .bool true) ∨
     ((∀ x ∈ s.items, eq k x = false) ∧ must = false ∧ s'.items = s.items ∧ o = .bool false))
  | .findErase k, o, s' => s'.used = s.used ∧
    ((∃ x, eq k x = true ∧ s.items.Perm (x :: s'.items) ∧ o = .bool true) ∨
     ((∀ x ∈ s.items, eq k x = false) ∧ s'.items = s.items ∧ o = .bool false))
  | .clear, o, s' => o = .unit ∧ s' = ⟨[], false⟩
  | .reserve want, o, s' => s.used = false ∧ want ≤ 141650939 ∧ o = .unit ∧ s' = s
  | .size, o, s' => o = .nat s.items.length ∧ s' = s
  | .walk, o, s' => s' = s ∧ ∃ l, o = .list l ∧ l.Perm s.items
  | .random _ _, o, s' => s' = s ∧
    ((s.items = [] ∧ o = .opt none) ∨ ∃ x ∈ s.items, o = .opt (some x))

/-- When a call stops the program. -/
def MultiAborts (eq : α → α → Bool) (s : MultiSt α) : TOp α → Prop
  | .remove k must => must = true ∧ ∀ x ∈ s.items, eq k x = false
  | .reserve want => s.used = true ∨ 141650939 < want
  | _ => False

/-- The call could take the number of stored entries above `cap`. -/
def MultiOver (cap : Nat) (s : MultiSt α) : TOp α → Prop
  | .add _ | .addOrReplace _ => cap ≤ s.items.length
  | _ => False

/-- The results a history may have. Until an add is made with `cap` entries stored, undefined
behaviour is not among them; what happens after such an add is left open. -/
def MultiRun (cap : Nat) (eq : α → α → Bool) : MultiSt α → List (TOp α) → Res (List (TOut α)) → Prop
  | _, [], r => r = .ok []
  | s, op :: ops, r =>
    MultiOver cap s op ∨
    (MultiAborts eq s op ∧ r = .abort) ∨
    ∃ o s' r', MultiStep eq s op o s' ∧ MultiRun cap eq s' ops r' ∧ r = r'.map (o :: ·)

end Verif.Hash
