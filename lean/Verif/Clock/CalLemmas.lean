import Verif.Clock.Calibrate
import Verif.Clock.CalSpec
import Mathlib.Tactic.Linarith
import Mathlib.Tactic.NormNum
import Mathlib.Tactic.Ring
import Mathlib.Tactic.FieldSimp
import Mathlib.Algebra.Order.BigOperators.Group.List

/-!
# Lemmas on the calibration
-/

namespace Verif.Clock.Cal

open Verif Verif.Clock.CalSpec

theorem drop_all {α : Type} {R : α → α → Prop} {P : α → Bool} (hP : ∀ x y, R x y → P x = true → P y = true) :
    ∀ (s : List α) (k : Nat), s.Pairwise R → s.countP (fun x => !P x) ≤ k → ∀ x ∈ s.drop k, P x = true := by
  intro s
  induction s with
  | nil => intro k _ _ x hx; simp at hx
  | cons a s ih =>
    intro k hs hk x hx
    rw [List.pairwise_cons] at hs
    by_cases ha : P a = true
    · have : x ∈ a :: s := List.mem_of_mem_drop hx
      rcases List.mem_cons.mp this with rfl | h
      · exact ha
      · exact hP a x (hs.1 x h) ha
    · cases k with
      | zero => simp [List.countP_cons, ha] at hk
      | succ k =>
        refine ih k hs.2 ?_ x (by simpa using hx)
        simp [List.countP_cons, ha] at hk
        simpa using hk

theorem take_all {α : Type} {R : α → α → Prop} {P : α → Bool} (hP : ∀ x y, R x y → P y = true → P x = true)
    (s : List α) (k m : Nat) (hs : s.Pairwise R) (hk : s.countP (fun x => !P x) ≤ k) (hm : m + k ≤ s.length) :
    ∀ x ∈ s.take m, P x = true := by
  intro x hx
  have := drop_all (R := fun x y => R y x) (P := P) (fun x y h hp => hP y x h hp) s.reverse k (List.pairwise_reverse.mpr hs) (by rw [List.countP_reverse]; exact hk) x
  apply this
  rw [List.drop_reverse, List.mem_reverse]
  exact (List.take_subset_take_left s (by omega)) hx

theorem sorted_perm (l : List (Option Rat)) : (sorted l).Perm l := by
  unfold sorted
  have h1 : (((l.filterMap id).insertionSort (· ≤ ·)).map some).Perm ((l.filterMap id).map some) := (List.perm_insertionSort _ _).map _
  refine (h1.append_right _).trans ?_
  clear h1
  induction l with
  | nil => simp
  | cons v l ih =>
    cases v with
    | none =>
      simp only [List.filterMap_cons, id, List.countP_cons, decide_true, if_true, List.replicate_succ]
      exact List.perm_middle.trans (ih.cons _)
    | some x =>
      simp only [List.filterMap_cons, id, List.countP_cons, List.map_cons, List.cons_append]
      simpa using ih

/-- The order of `sort`. -/
def leO : Option Rat → Option Rat → Prop
  | some x, some y => x ≤ y
  | none, some _ => False
  | _, none => True

theorem sorted_pairwise (l : List (Option Rat)) : (sorted l).Pairwise leO := by
  unfold sorted
  rw [List.pairwise_append]
  refine ⟨?_, ?_, ?_⟩
  · rw [List.pairwise_map]
    exact (List.pairwise_insertionSort (· ≤ ·) _).imp (fun h => h)
  · rw [List.pairwise_replicate]; right; trivial
  · intro a _ b hb
    rw [List.mem_replicate] at hb
    rw [hb.2]; cases a <;> trivial

theorem wildCount_eq (lo hi : Rat) (l : List (Option Rat)) : wildCount lo hi l = l.countP (wild lo hi) := by
  induction l with
  | nil => rfl
  | cons v l ih => simp only [wildCount, List.countP_cons, ih]; omega

theorem mean_between {lo hi : Rat} {l : List Rat} (hne : l ≠ []) (h : ∀ x ∈ l, lo ≤ x ∧ x ≤ hi) : lo ≤ mean l ∧ mean l ≤ hi := by
  have hpos : (0 : Rat) < l.length := by
    have : 0 < l.length := List.length_pos_of_ne_nil hne
    exact_mod_cast this
  have h1 := List.card_nsmul_le_sum l lo (fun x hx => (h x hx).1)
  have h2 := List.sum_le_card_nsmul l hi (fun x hx => (h x hx).2)
  rw [nsmul_eq_mul] at h1 h2
  unfold mean
  constructor
  · rw [le_div_iff₀ hpos]; linarith
  · rw [div_le_iff₀ hpos]; linarith

theorem middle_length {α : Type} (l : List α) : (middle l).length = 3 * l.length / 4 - l.length / 4 := by
  unfold middle; simp only [List.length_drop, List.length_take]; omega

theorem middle_inside (lo hi : Rat) (ms : List (Option Rat)) (h : 4 * wildCount lo hi ms ≤ ms.length) :
    ∀ v ∈ middle (sorted ms), ∃ x, v = some x ∧ lo ≤ x ∧ x ≤ hi := by
  intro v hv
  have hl : (sorted ms).length = ms.length := (sorted_perm ms).length_eq
  have hw : (sorted ms).countP (wild lo hi) ≤ ms.length / 4 := by
    rw [(sorted_perm ms).countP_eq, ← wildCount_eq]; omega
  unfold middle at hv
  rw [hl] at hv
  have h1 : v ∈ (sorted ms).drop (ms.length / 4) := by
    rw [List.drop_take] at hv
    exact List.mem_of_mem_take hv
  have h2 : v ∈ (sorted ms).take (3 * ms.length / 4) := List.mem_of_mem_drop hv
  have a1 := drop_all (R := leO) (P := fun v => match v with | none => true | some x => decide (lo ≤ x)) ?_ (sorted ms) (ms.length / 4) (sorted_pairwise ms) ?_ v h1
  have a2 := take_all (R := leO) (P := fun v => match v with | none => false | some x => decide (x ≤ hi)) ?_ (sorted ms) (ms.length / 4) (3 * ms.length / 4) (sorted_pairwise ms) ?_ (by omega) v h2
  · cases v with
    | none => simp at a2
    | some x => exact ⟨x, rfl, by simpa using a1, by simpa using a2⟩
  · intro x y hxy hy
    cases x <;> cases y <;> simp_all [leO]
    exact le_trans hxy hy
  · refine le_trans (List.countP_mono_left ?_) hw
    intro x _ hx
    cases x <;> simp_all [wild]
  · intro x y hxy hx
    cases x <;> cases y <;> simp_all [leO]
    exact le_trans hx hxy
  · refine le_trans (List.countP_mono_left ?_) hw
    intro x _ hx
    cases x <;> simp_all [wild]

theorem verdict_robust {test : List Rat → Bool} {ms : List (Option Rat)} {x : Rat} (hn : 2 ≤ ms.length) (h : verdict test ms = some x) : Robust ms x := by
  intro lo hi hw
  have hin := middle_inside lo hi ms hw
  unfold verdict at h
  simp only at h
  split at h
  · split at h
    · obtain rfl := Option.some.inj h
      apply mean_between
      · intro hnil
        have hl : (middle (sorted ms)).length = 3 * ms.length / 4 - ms.length / 4 := by rw [middle_length, (sorted_perm ms).length_eq]
        cases hm : middle (sorted ms) with
        | nil => rw [hm] at hl; simp at hl; omega
        | cons v l =>
          obtain ⟨x, rfl, _⟩ := hin v (by rw [hm]; simp)
          rw [hm] at hnil; simp at hnil
      · intro y hy
        rw [List.mem_filterMap] at hy
        obtain ⟨v, hv, e⟩ := hy
        obtain ⟨z, rfl, hz⟩ := hin v hv
        simp at e; subst e; exact hz
    · simp at h
  · simp at h

theorem tryLoop_rate (test : List Rat → Bool) (target : Nat) : ∀ (rs : List Round) (ms0 : List (Option Rat)) (f : Nat) (x : Rat) (ms : List (Option Rat)) (rest : List Round),
    tryLoop test target ms0 f rs = .rate x ms rest →
    ∃ seg, rs = seg ++ rest ∧ ms = ms0 ++ seg.filterMap (measure target) ∧ 40 ≤ ms.length ∧ f + seg.countP (fun r => (measure target r).isNone) ≤ max f 128 ∧ verdict test ms = some x := by
  intro rs
  induction rs with
  | nil => intro ms0 f x ms rest h; simp [tryLoop] at h
  | cons r rs ih =>
    intro ms0 f x ms rest h
    have key : ∀ (ms1 : List (Option Rat)) (f1 : Nat), ms1 = ms0 ++ (measure target r).toList → f1 = f + (if (measure target r).isNone then 1 else 0) → f1 ≤ max f 128 →
        (if 40 ≤ ms1.length then match verdict test ms1 with | some x => Try.rate x ms1 rs | none => tryLoop test target ms1 f1 rs else tryLoop test target ms1 f1 rs) = .rate x ms rest →
        ∃ seg, r :: rs = seg ++ rest ∧ ms = ms0 ++ seg.filterMap (measure target) ∧ 40 ≤ ms.length ∧ f + seg.countP (fun r => (measure target r).isNone) ≤ max f 128 ∧ verdict test ms = some x := by
      intro ms1 f1 e1 e2 hf h
      have go : tryLoop test target ms1 f1 rs = .rate x ms rest → ∃ seg, r :: rs = seg ++ rest ∧ ms = ms0 ++ seg.filterMap (measure target) ∧ 40 ≤ ms.length ∧ f + seg.countP (fun r => (measure target r).isNone) ≤ max f 128 ∧ verdict test ms = some x := by
        intro h
        obtain ⟨seg, h1, h2, h3, h4, h5⟩ := ih ms1 f1 x ms rest h
        refine ⟨r :: seg, by rw [h1]; rfl, ?_, h3, ?_, h5⟩
        · rw [h2, e1, List.filterMap_cons]
          cases hq : measure target r <;> simp [hq]
        · rw [List.countP_cons]; omega
      split at h
      · split at h
        · next x' hv =>
          injection h with a b c
          subst a; subst b; subst c
          refine ⟨[r], rfl, ?_, by assumption, ?_, hv⟩
          · rw [e1]; cases hq : measure target r <;> simp [hq]
          · simp only [List.countP_cons, List.countP_nil]; omega
        · exact go h
      · exact go h
    unfold tryLoop at h
    split at h
    · next hm =>
      split at h
      · simp at h
      · next hf =>
        exact key ms0 (f + 1) (by simp [hm]) (by simp [hm]) (by omega) h
    · next v hm =>
      exact key (ms0 ++ [v]) f (by simp [hm]) (by simp [hm]) (by omega) h

theorem tryLoop_failed (test : List Rat → Bool) (target : Nat) : ∀ (rs : List Round) (ms0 : List (Option Rat)) (f : Nat) (ms : List (Option Rat)) (rest : List Round),
    tryLoop test target ms0 f rs = .failed ms rest →
    ∃ seg, rs = seg ++ rest ∧ 129 ≤ f + seg.countP (fun r => (measure target r).isNone) := by
  intro rs
  induction rs with
  | nil => intro ms0 f ms rest h; simp [tryLoop] at h
  | cons r rs ih =>
    intro ms0 f ms rest h
    unfold tryLoop at h
    have go : ∀ ms1 f1, f1 = f + (if (measure target r).isNone then 1 else 0) → tryLoop test target ms1 f1 rs = .failed ms rest → ∃ seg, r :: rs = seg ++ rest ∧ 129 ≤ f + seg.countP (fun r => (measure target r).isNone) := by
      intro ms1 f1 e h
      obtain ⟨seg, h1, h2⟩ := ih ms1 f1 ms rest h
      refine ⟨r :: seg, by rw [h1]; rfl, ?_⟩
      rw [List.countP_cons]; omega
    split at h
    · next hm =>
      split at h
      · injection h with a b
        subst b
        refine ⟨[r], rfl, ?_⟩
        simp [hm]; omega
      · split at h
        · split at h
          · simp at h
          · exact go _ _ (by simp [hm]) h
        · exact go _ _ (by simp [hm]) h
    · next v hm =>
      simp only at h
      split at h
      · split at h
        · simp at h
        · exact go _ _ (by simp [hm]) h
      · exact go _ _ (by simp [hm]) h

end Verif.Clock.Cal
