import Verif.Quantile.Lemmas5
import Mathlib.Tactic.Linarith
import Mathlib.Tactic.FieldSimp
import Mathlib.Tactic.Ring
import Mathlib.Data.Nat.Choose.Basic

/-! # How large the error can get -/

namespace Verif.Quantile

open Verif

variable {V : Type} [LinearOrder V]

theorem leaves_choose : ∀ (m l : Nat), leaves (m + 1) l = (m + l).choose l
  | m, 0 => by rw [leaves]; simp
  | 0, l + 1 => by rw [leaves, leaves, leaves_choose 0 l]; simp
  | m + 1, l + 1 => by
    rw [leaves, leaves_choose m (l + 1), leaves_choose (m + 1) l, show m + 1 + (l + 1) = (m + 1 + l) + 1 by omega, Nat.choose_succ_succ,
      show m + (l + 1) = m + 1 + l by omega, Nat.succ_eq_add_one]
    omega

theorem leaves_mono (m : Nat) : ∀ {l l' : Nat}, l ≤ l' → leaves (m + 1) l ≤ leaves (m + 1) l' := by
  intro l l' h
  induction h with
  | refl => exact Nat.le_refl _
  | step _ ih => rw [Nat.succ_eq_add_one, leaves]; omega

theorem leaves_pos (m l : Nat) : 0 < leaves (m + 1) l := by
  rw [leaves_choose]; exact Nat.choose_pos (Nat.le_add_left _ _)

theorem inner_succ (a l : Nat) : inner (a + 3) (l + 1) = inner (a + 2) (l + 1) + inner (a + 3) l + leaves (a + 3) l := by
  have h1 : inner (a + 3) (l + 1) = ((List.range (a + 3)).map fun j => inner (j + 1) l).sum + leaves (a + 3) (l + 1) := by
    rw [inner, if_neg (by omega)]
  have h2 : inner (a + 2) (l + 1) = ((List.range (a + 2)).map fun j => inner (j + 1) l).sum + leaves (a + 2) (l + 1) := by
    rw [inner, if_neg (by omega)]
  have h3 : leaves (a + 3) (l + 1) = leaves (a + 2) (l + 1) + leaves (a + 3) l := by rw [leaves]
  rw [h1, h2, List.range_succ]
  simp only [List.map_append, List.sum_append, List.map_cons, List.map_nil, List.sum_cons, List.sum_nil, show a + 2 + 1 = a + 3 from rfl]
  omega

theorem inner_two (l : Nat) : inner 2 (l + 1) = inner 2 l + (l + 2) := by
  rw [inner, if_neg (by omega), leaves_choose]
  have : ((List.range 2).map fun j => inner (j + 1) l).sum = inner 1 l + inner 2 l := by simp [List.range_succ]
  rw [this, inner_one, show 1 + (l + 1) = (l + 1) + 1 by omega, Nat.choose_succ_self_right]
  omega

theorem inner_closed : ∀ (a l : Nat), inner (a + 2) l + (a + l).choose (a + 2) = l * (a + 1 + l).choose (a + 1)
  | a, 0 => by
    have : a.choose (a + 2) = 0 := Nat.choose_eq_zero_of_lt (by omega)
    simp [inner, this]
  | 0, l + 1 => by
    have ih := inner_closed 0 l
    simp only [Nat.zero_add] at ih ⊢
    rw [inner_two]
    have h1 : (1 + l).choose 1 = 1 + l := Nat.choose_one_right _
    have h2 : (1 + (l + 1)).choose 1 = 1 + (l + 1) := Nat.choose_one_right _
    have h3 : (l + 1).choose 2 = l.choose 1 + l.choose 2 := Nat.choose_succ_succ _ _
    have h4 : l.choose 1 = l := Nat.choose_one_right _
    rw [h1] at ih
    rw [h2, h3, h4]
    nlinarith
  | a + 1, l + 1 => by
    have i1 := inner_closed a (l + 1)
    have i2 := inner_closed (a + 1) l
    have hrec := inner_succ a l
    rw [show a + 1 + 2 = a + 3 from rfl] at *
    rw [hrec]
    have h1 : (a + 1 + (l + 1)).choose (a + 3) = (a + 1 + l).choose (a + 2) + (a + 1 + l).choose (a + 3) := by
      rw [show a + 1 + (l + 1) = (a + 1 + l) + 1 by omega]; exact Nat.choose_succ_succ _ _
    have h2 : (a + 1 + 1 + (l + 1)).choose (a + 1 + 1) = (a + 2 + l).choose (a + 1) + (a + 2 + l).choose (a + 2) := by
      rw [show a + 1 + 1 + (l + 1) = (a + 2 + l) + 1 by omega]; exact Nat.choose_succ_succ _ _
    have h3 : leaves (a + 3) l = (a + 2 + l).choose (a + 2) := by
      rw [leaves_choose, Nat.choose_symm_add]
    rw [show a + (l + 1) = a + 1 + l by omega, show a + 1 + (l + 1) = a + 2 + l by omega] at i1
    rw [show a + 1 + 1 + l = a + 2 + l by omega, show a + 1 + 1 = a + 2 by omega] at i2
    rw [h1, h2, h3]
    nlinarith

/-- Sum of the collapses per leaf. -/
def ratio (m l : Nat) : Rat := (l : Rat) - (l : Rat) * ((l : Rat) - 1) / (m * (m + l - 1))

theorem choose_ratio (a l : Nat) : ((a : Rat) + 2) * (a + 1 + l) * (a + l).choose (a + 2) = l * ((l : Rat) - 1) * (a + 1 + l).choose (a + 1) := by
  have h1 : (a + l + 1) * (a + l).choose (a + 1) = (a + l + 1).choose (a + 2) * (a + 2) := Nat.add_one_mul_choose_eq _ _
  have h2 : (a + l).choose (a + 1 + 1) * (a + 1 + 1) = (a + l).choose (a + 1) * (a + l - (a + 1)) := Nat.choose_succ_right_eq _ _
  have h3 : (a + l + 1) * (a + l).choose a = (a + l + 1).choose (a + 1) * (a + 1) := Nat.add_one_mul_choose_eq _ _
  have h4 : (a + l).choose (a + 1) * (a + 1) = (a + l).choose a * (a + l - a) := Nat.choose_succ_right_eq _ _
  rw [show a + 1 + l = a + l + 1 by omega]
  cases l with
  | zero => 
    have : a.choose (a + 2) = 0 := Nat.choose_eq_zero_of_lt (by omega)
    simp [this]
  | succ l =>
    rw [show a + (l + 1) - (a + 1) = l by omega] at h2
    rw [show a + (l + 1) - a = l + 1 by omega] at h4
    rw [show a + 1 + 1 = a + 2 from rfl] at h2
    have q2 : ((a + (l + 1)).choose (a + 2) : Rat) * (a + 2) = (a + (l + 1)).choose (a + 1) * l := by exact_mod_cast h2
    have q3 : ((a : Rat) + (l + 1) + 1) * (a + (l + 1)).choose a = (a + (l + 1) + 1).choose (a + 1) * (a + 1) := by exact_mod_cast h3
    have q4 : ((a + (l + 1)).choose (a + 1) : Rat) * (a + 1) = (a + (l + 1)).choose a * (l + 1) := by exact_mod_cast h4
    push_cast
    set A : Rat := ((a + (l + 1)).choose a : Rat)
    set B : Rat := ((a + (l + 1)).choose (a + 1) : Rat)
    set C : Rat := ((a + (l + 1)).choose (a + 2) : Rat)
    set D : Rat := ((a + (l + 1) + 1).choose (a + 1) : Rat)
    have ha : ((a : Rat) + 1) ≠ 0 := by positivity
    have e : ((a : Rat) + 1) * ((a + 2) * (a + 1 + (l + 1)) * C) = (a + 1) * ((l + 1) * (l + 1 - 1) * D) := by
      calc ((a : Rat) + 1) * ((a + 2) * (a + 1 + (l + 1)) * C) = (a + 1) * (a + 1 + (l + 1)) * (C * (a + 2)) := by ring
        _ = (a + 1 + (l + 1)) * l * (B * (a + 1)) := by rw [q2]; ring
        _ = l * (l + 1) * ((a + (l + 1) + 1) * A) := by rw [q4]; ring
        _ = _ := by rw [q3]; ring
    have := mul_left_cancel₀ ha e
    linarith

theorem inner_ratio (a l : Nat) : (inner (a + 2) l : Rat) = ratio (a + 2) l * leaves (a + 2) l := by
  have h1 : (inner (a + 2) l : Rat) + (a + l).choose (a + 2) = l * (a + 1 + l).choose (a + 1) := by exact_mod_cast inner_closed a l
  have h2 := choose_ratio a l
  have h3 : leaves (a + 2) l = (a + 1 + l).choose (a + 1) := by rw [leaves_choose, Nat.choose_symm_add]
  rw [h3]
  unfold ratio
  have hp : ((a : Rat) + 2) * (a + 1 + l) ≠ 0 := by positivity
  have h4 : ((a + l).choose (a + 2) : Rat) = l * ((l : Rat) - 1) / ((a + 2) * (a + 1 + l)) * (a + 1 + l).choose (a + 1) := by
    field_simp
    linarith
  have h5 : (((a + 2 : Nat) : Rat) * (((a + 2 : Nat) : Rat) + l - 1)) = (a + 2) * (a + 1 + l) := by push_cast; ring
  rw [h5, sub_mul, ← h4]
  linarith

theorem ratio_l (m l : Nat) (hm : 1 ≤ m) : ratio m l ≤ ratio m (l + 1) := by
  unfold ratio
  have hm' : (1 : Rat) ≤ m := by exact_mod_cast hm
  have hl : (0 : Rat) ≤ l := by positivity
  by_cases h0 : l = 0
  · subst h0; simp
  have hl1 : (1 : Rat) ≤ l := by exact_mod_cast Nat.one_le_iff_ne_zero.2 h0
  have p1 : (0 : Rat) < m * (m + l - 1) := by nlinarith
  have p2 : (0 : Rat) < m * (m + l) := by nlinarith
  push_cast
  have e : (m : Rat) * (m + (l + 1) - 1) = m * (m + l) := by ring
  rw [e]
  have key : ((l : Rat) + 1) * (l + 1 - 1) / (m * (m + l)) ≤ l * (l - 1) / (m * (m + l - 1)) + 1 := by
    rw [div_add_one (ne_of_gt p1), div_le_div_iff₀ p2 p1]
    have h : 0 ≤ (m : Rat) * ((m - 1) * (m * m + 2 * m * l + l * l - l)) := by
      have : 0 ≤ (m : Rat) * m + 2 * m * l + l * l - l := by nlinarith
      exact mul_nonneg (by linarith) (mul_nonneg (by linarith) this)
    nlinarith
  linarith

theorem ratio_m (m l : Nat) (hm : 1 ≤ m) : ratio m l ≤ ratio (m + 1) l := by
  unfold ratio
  have hm' : (1 : Rat) ≤ m := by exact_mod_cast hm
  have hl : (0 : Rat) ≤ l := by positivity
  by_cases h0 : l = 0
  · subst h0; simp
  have hl1 : (1 : Rat) ≤ l := by exact_mod_cast Nat.one_le_iff_ne_zero.2 h0
  have p1 : (0 : Rat) < m * (m + l - 1) := by nlinarith
  push_cast
  have : (l : Rat) * (l - 1) / ((m + 1) * (m + 1 + l - 1)) ≤ l * (l - 1) / (m * (m + l - 1)) :=
    div_le_div_of_nonneg_left (mul_nonneg hl (by linarith)) p1 (by nlinarith)
  linarith

theorem ratio_mono_l {m : Nat} (hm : 1 ≤ m) {l l' : Nat} (h : l ≤ l') : ratio m l ≤ ratio m l' := by
  induction h with
  | refl => exact le_refl _
  | step _ ih => exact le_trans ih (ratio_l m _ hm)

theorem ratio_zero (m : Nat) : ratio m 0 = 0 := by simp [ratio]

theorem ratio_nonneg {m : Nat} (hm : 1 ≤ m) (l : Nat) : 0 ≤ ratio m l := by
  rw [← ratio_zero m]; exact ratio_mono_l hm (Nat.zero_le l)

theorem inner_le (m l H : Nat) (hm : 1 ≤ m) (h : l ≤ H) : (inner m l : Rat) ≤ ratio m H * leaves m l := by
  obtain ⟨m, rfl⟩ : ∃ m', m = m' + 1 := ⟨m - 1, by omega⟩
  cases m with
  | zero =>
    rw [inner_one]
    exact_mod_cast mul_nonneg (ratio_nonneg hm H) (by positivity)
  | succ a =>
    rw [show a + 1 + 1 = a + 2 from rfl, inner_ratio]
    exact mul_le_mul_of_nonneg_right (ratio_mono_l hm h) (by positivity)

theorem treeS_le (H : Nat) : ∀ (m : Nat) (bs : List (Buf V)), TreeW m bs → bs.length ≤ m → (∀ d ∈ bs, d.lev ≤ H) →
    (treeS m bs : Rat) ≤ ratio m H * wsum bs
  | m, [], _, _, _ => by simp [treeS, wsum]
  | m, d :: bs, hT, hlen, hl => by
    simp only [List.length_cons] at hlen
    have h1 := inner_le m d.lev H (by omega) (hl d (List.mem_cons_self ..))
    rw [← hT.1] at h1
    have h2 := treeS_le H (m - 1) bs hT.2 (by omega) (fun d hd => hl d (List.mem_cons_of_mem _ hd))
    have h3 : ratio (m - 1) H * wsum bs ≤ ratio m H * wsum bs := by
      by_cases hm : m = 1
      · have : bs = [] := List.length_eq_zero_iff.1 (by omega)
        subst this; simp [wsum]
      · have := ratio_m (m - 1) H (by omega)
        rw [show m - 1 + 1 = m by omega] at this
        exact mul_le_mul_of_nonneg_right this (by positivity)
    have h4 : (wsum (d :: bs) : Rat) = d.wt + wsum bs := by simp [wsum]
    rw [treeS, h4]
    push_cast
    linarith [mul_add (ratio m H) (d.wt : Rat) (wsum bs : Rat)]

/-- The bound of the paper is one for the tree. -/
theorem ratio_paper (b l : Nat) (hb : 1 ≤ b) (hl : 1 ≤ l) :
    ratio b l * (b + l).choose (l + 1) ≤ l * (b + l).choose (l + 1) - (b + l - 1).choose (l - 1) + (b + l - 1).choose l := by
  obtain ⟨c, rfl⟩ : ∃ c, b = c + 1 := ⟨b - 1, by omega⟩
  obtain ⟨j, rfl⟩ : ∃ j, l = j + 1 := ⟨l - 1, by omega⟩
  have g1 : (c + 1 + j + 1) * (c + 1 + j).choose (j + 1) = (c + 1 + j + 1).choose (j + 1 + 1) * (j + 1 + 1) := Nat.add_one_mul_choose_eq _ _
  have g2 : (c + 1 + j).choose (j + 1) * (j + 1) = (c + 1 + j).choose j * (c + 1 + j - j) := Nat.choose_succ_right_eq _ _
  rw [show c + 1 + j - j = c + 1 by omega] at g2
  rw [show c + 1 + (j + 1) - 1 = c + 1 + j by omega, show j + 1 - 1 = j by omega, show c + 1 + (j + 1) = c + 1 + j + 1 by omega]
  have q1 : ((c : Rat) + 1 + j + 1) * (c + 1 + j).choose (j + 1) = (c + 1 + j + 1).choose (j + 1 + 1) * (j + 2) := by
    have : ((c : Rat) + 1 + j + 1) * (c + 1 + j).choose (j + 1) = (c + 1 + j + 1).choose (j + 1 + 1) * (j + 1 + 1) := by exact_mod_cast g1
    rw [this]; ring
  have q2 : ((c + 1 + j).choose (j + 1) : Rat) * (j + 1) = (c + 1 + j).choose j * (c + 1) := by exact_mod_cast g2
  unfold ratio
  have hX : (0 : Rat) ≤ ((c + 1 + j).choose (j + 1) : Rat) := by positivity
  generalize ((c + 1 + j).choose (j + 1) : Rat) = X at *
  generalize ((c + 1 + j + 1).choose (j + 1 + 1) : Rat) = L at *
  generalize ((c + 1 + j).choose j : Rat) = Y at *
  have hc : (0 : Rat) ≤ c := by positivity
  have hj : (0 : Rat) ≤ j := by positivity
  have eL : L = ((c : Rat) + 1 + j + 1) * X / (j + 2) := by field_simp; linarith
  have eY : Y = X * (j + 1) / (c + 1) := by field_simp; linarith
  push_cast
  have key : (0 : Rat) ≤ (j + 1) * (j + 1 - 1) / ((c + 1) * (c + 1 + (j + 1) - 1)) * L - Y + X := by
    have hd : ((c : Rat) + 1) * (c + 1 + (j + 1) - 1) = (c + 1) * (c + 1 + j) := by ring
    have : ((j : Rat) + 1) * (j + 1 - 1) / ((c + 1) * (c + 1 + (j + 1) - 1)) * L - Y + X =
        X * ((c * (c + 1) * (j + 2) + j * (j + 1) * c) / ((c + 1) * (c + 1 + j) * (j + 2))) := by
      rw [eL, eY, hd]
      field_simp
      ring
    rw [this]
    positivity
  linarith [sub_mul ((j : Rat) + 1) ((j + 1) * (j + 1 - 1) / ((c + 1) * (c + 1 + (j + 1) - 1))) L]

/-- What the bounds below rest on. -/
def Covers (ε : Rat) (N n k : Nat) : Prop :=
  0 ≤ ε ∧ ∃ H : Nat, ratio n H * (n + H).choose (H + 1) ≤ 2 * ε * N ∧ N ≤ k * (n + H).choose (H + 1)

theorem Chosen.covers {ε : Rat} {N n k : Nat} (hn : 1 ≤ n) (h : Chosen ε N n k) : Covers ε N n k := by
  obtain ⟨hε, h, hh, hv, hroom⟩ := h
  obtain ⟨H, rfl⟩ : ∃ H, h = H + 2 := ⟨h - 2, by omega⟩
  rw [show n + (H + 2) - 2 = n + H by omega, show H + 2 - 1 = H + 1 by omega] at hv hroom
  refine ⟨hε, H, ?_, hroom⟩
  by_cases hH : H = 0
  · subst hH; rw [ratio_zero, zero_mul]; positivity
  · have hv := hv.resolve_left (by omega)
    have hp := ratio_paper n H hn (by omega)
    rw [show n + (H + 2) - 3 = n + H - 1 by omega, show H + 2 - 3 = H - 1 by omega, show H + 2 - 2 = H by omega] at hv
    push_cast at hv
    linarith

/-- The error from collapses is within `ε` of the number of values. -/
theorem collapse_bound {s : Sk V} {vals : List V} {xl xh : Nat} (hI : Inv s vals xl xh) {ε : Rat} {N : Nat} (hN : vals.length ≤ N)
    (hc : Covers ε N s.slots.length s.size) :
    ∃ ol oh : Nat, s.lo = ol + xl ∧ s.hi = oh + xh ∧ (ol = 0 ∨ (ol : Rat) < ε * vals.length) ∧ (oh : Rat) ≤ ε * vals.length := by
  obtain ⟨bs, last, hS, hR, hT, hne⟩ := hI
  obtain ⟨hTW, hlev, ol, oh, e1, e2, e3, e4⟩ := hT
  obtain ⟨hε, H, hv, hroom⟩ := hc
  refine ⟨ol, oh, e1, e2, ?_⟩
  have hB := hS.1
  have hn : 1 ≤ s.slots.length := by have := hB.two; omega
  have hlen : bs.length ≤ s.slots.length := by
    rcases hS.2 with ⟨_, _, rfl, _⟩ | ⟨_, _, fs, x, rest, lv, hsl, hfs, _⟩
    · simp
    · rw [hsl, ← hfs.length_eq]; simp
  have hk : 0 < s.size := by have := hB.ten; omega
  obtain ⟨n, hnn⟩ : ∃ n, s.slots.length = n + 1 := ⟨s.slots.length - 1, by omega⟩
  have hleaf : (s.slots.length + H).choose (H + 1) = leaves (n + 1) (H + 1) := by
    rw [leaves_choose, hnn]; congr 1; omega
  rw [hleaf] at hv hroom
  have hlevH : ∀ d ∈ bs, d.lev ≤ H := by
    cases hbs : bs with
    | nil => simp
    | cons d0 ds =>
      rw [hbs] at hlev hTW
      have h0 : d0.lev ≤ H := by
        by_contra hgt
        have h1 := hTW.1
        rw [hnn] at h1
        have h2 := leaves_mono n (show H + 1 ≤ d0.lev by omega)
        have h3 : d0.wt ≤ wsum bs := by rw [hbs]; simp [wsum]
        have h4 : 0 < last.length := List.length_pos_iff.2 (hne (by rw [hbs]; simp))
        have h5 := hR.total
        have h6 : s.size * leaves (n + 1) (H + 1) ≤ wsum bs * s.size := by
          rw [Nat.mul_comm]; exact Nat.mul_le_mul_right _ (by omega)
        omega
      intro d hd
      rcases List.mem_cons.1 hd with rfl | hd
      · exact h0
      · exact Nat.le_trans ((List.pairwise_cons.1 hlev).1 d hd) h0
  have hS1 := treeS_le H s.slots.length bs hTW hlen hlevH
  have hLpos : (0 : Rat) < leaves (n + 1) (H + 1) := by exact_mod_cast leaves_pos n (H + 1)
  have hkq : (0 : Rat) < s.size := by exact_mod_cast hk
  have hratio : ratio s.slots.length H ≤ 2 * ε * s.size := by
    have h2 : (N : Rat) ≤ s.size * leaves (n + 1) (H + 1) := by exact_mod_cast hroom
    have h3 : ratio s.slots.length H * leaves (n + 1) (H + 1) ≤ 2 * ε * s.size * leaves (n + 1) (H + 1) := by
      have := mul_le_mul_of_nonneg_left h2 (show 0 ≤ 2 * ε by linarith)
      linarith
    exact le_of_mul_le_mul_right h3 hLpos
  have hS2 : (treeS s.slots.length bs : Rat) ≤ 2 * (ε * vals.length) := by
    have h1 : ratio s.slots.length H * wsum bs ≤ 2 * ε * s.size * wsum bs := mul_le_mul_of_nonneg_right hratio (by positivity)
    have h2 : ((wsum bs : Rat)) * s.size ≤ vals.length := by
      have : wsum bs * s.size ≤ vals.length := by have := hR.total; omega
      exact_mod_cast this
    have h3 := mul_le_mul_of_nonneg_left h2 (show 0 ≤ 2 * ε by linarith)
    linarith
  rcases e4 with e4 | ⟨rfl, rfl⟩
  · have q : (ol : Rat) + oh + 1 ≤ treeS s.slots.length bs := by exact_mod_cast e4
    have h1 : ol ≤ oh := by rw [e3]; split <;> omega
    have h2 : oh ≤ ol + 1 := by rw [e3]; split <;> omega
    have q1 : (ol : Rat) ≤ oh := by exact_mod_cast h1
    have q2 : (oh : Rat) ≤ ol + 1 := by exact_mod_cast h2
    exact ⟨Or.inr (by linarith), by linarith⟩
  · exact ⟨Or.inl rfl, by push_cast; positivity⟩

end Verif.Quantile
