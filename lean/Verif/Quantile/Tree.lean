import Verif.Quantile.Lemmas2

/-! # The tree of collapses -/

namespace Verif.Quantile

variable {V : Type}

/-- Leaves under a buffer of level `l` made with `m` buffers. -/
def leaves : Nat → Nat → Nat
  | _, 0 => 1
  | 0, _ + 1 => 0
  | m + 1, l + 1 => leaves m (l + 1) + leaves (m + 1) l

/-- Sum of the weights of all collapses under it, itself included. -/
def inner (m : Nat) : Nat → Nat
  | 0 => 0
  | l + 1 => if m ≤ 1 then 0 else ((List.range m).map fun j => inner (j + 1) l).sum + leaves m (l + 1)

theorem leaves_one : ∀ l, leaves 1 l = 1
  | 0 => by rw [leaves]
  | l + 1 => by rw [leaves, leaves_one l, leaves]

theorem inner_one : ∀ l, inner 1 l = 0
  | 0 => rfl
  | l + 1 => by rw [inner]; rfl

/-- The weights are those of a tree, the first buffer having `m` buffers. -/
def TreeW : Nat → List (Buf V) → Prop
  | _, [] => True
  | m, d :: ds => d.wt = leaves m d.lev ∧ TreeW (m - 1) ds

def treeS : Nat → List (Buf V) → Nat
  | _, [] => 0
  | m, d :: ds => inner m d.lev + treeS (m - 1) ds

theorem treeW_append : ∀ (m : Nat) (a b : List (Buf V)), TreeW m (a ++ b) ↔ TreeW m a ∧ TreeW (m - a.length) b
  | m, [], b => by simp [TreeW]
  | m, d :: a, b => by
    simp only [List.cons_append, TreeW, treeW_append (m - 1) a b, List.length_cons, and_assoc]
    rw [show m - 1 - a.length = m - (a.length + 1) by omega]

theorem treeS_append : ∀ (m : Nat) (a b : List (Buf V)), treeS m (a ++ b) = treeS m a + treeS (m - a.length) b
  | m, [], b => by simp [treeS]
  | m, d :: a, b => by
    simp only [List.cons_append, treeS, treeS_append (m - 1) a b, List.length_cons]
    rw [show m - 1 - a.length = m - (a.length + 1) by omega]; omega

/-- A run of buffers of one level, up to the last. -/
theorem run_leaves (l : Nat) : ∀ (m : Nat) (ds : List (Buf V)), TreeW m ds → (∀ d ∈ ds, d.lev = l) → ds.length + 1 = m →
    wsum ds + 1 = leaves m (l + 1)
  | m, [], _, _, h => by
    subst h
    exact (leaves_one (l + 1)).symm
  | m, d :: ds, hT, hl, h => by
    obtain ⟨m', rfl⟩ : ∃ m', m = m' + 1 := ⟨m - 1, by simp at h; omega⟩
    have ih := run_leaves l m' ds hT.2 (fun d hd => hl d (List.mem_cons_of_mem _ hd)) (by simpa using h)
    have h1 := hT.1
    rw [hl d (List.mem_cons_self ..)] at h1
    rw [leaves, ← ih, ← h1]
    simp only [wsum, List.map_cons, List.sum_cons]; omega

theorem run_inner (l : Nat) : ∀ (m : Nat) (ds : List (Buf V)), (∀ d ∈ ds, d.lev = l) → ds.length + 1 = m →
    treeS m ds = ((List.range m).map fun j => inner (j + 1) l).sum
  | m, [], _, h => by
    subst h
    simp [treeS, inner_one]
  | m, d :: ds, hl, h => by
    obtain ⟨m', rfl⟩ : ∃ m', m = m' + 1 := ⟨m - 1, by simp at h; omega⟩
    have ih := run_inner l m' ds (fun d hd => hl d (List.mem_cons_of_mem _ hd)) (by simpa using h)
    rw [treeS, hl d (List.mem_cons_self ..), Nat.add_sub_cancel, ih, List.range_succ]
    simp; omega

/-- How the ghost fields of a sketch follow from its buffers; `xl` and `xh` come from merged sketches. -/
def Tree (s : Sk V) (bs : List (Buf V)) (xl xh : Nat) : Prop :=
  TreeW s.slots.length bs ∧ bs.Pairwise (fun a b => b.lev ≤ a.lev) ∧
  ∃ ol oh, s.lo = ol + xl ∧ s.hi = oh + xh ∧ oh = ol + (if s.evenLow then 0 else 1) ∧
    (ol + oh + 1 ≤ treeS s.slots.length bs ∨ (ol = 0 ∧ oh = 0))

end Verif.Quantile
