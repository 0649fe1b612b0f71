import Verif.Res

/-!
# Casts of pointers, `include/Lintel/PointerUtil.hpp` (C151)

A complete object has subobjects of the class cast from (`S`) and of the class cast to (`T`). All bases are public. Pointers into one object are compared; where the object is does not matter.
-/

namespace Verif.Misc.Pointer
open Verif

/-- `dynamic_cast<Target *>(x)` (the C++ standard, [expr.dynamic.cast]): `ts` are the target subobjects of the complete object and `within t x` says that `x` is a base subobject of `t`.
If exactly one of them contains `x`, it is the result; otherwise the only one there is; otherwise null. Used in the model of `PointerUtil.hpp:33-39` (`safeDownCast`). -/
def dynamicCast {S T : Type} (ts : List T) (within : T → S → Bool) : Option S → Option T
  | none => none
  | some x =>
    match ts.filter (fun t => within t x) with
    | [t] => some t
    | _ =>
      match ts with
      | [t] => some t
      | _ => none

/-- `safeDownCast`, `PointerUtil.hpp:33-39` and `:56-64`: `ret == x` compares after converting `ret` to the class of `x`, its base; `up t` is that base subobject. -/
def safeDownCast {S T : Type} [DecidableEq S] (ts : List T) (up : T → S) (x : Option S) : Res (Option T) :=
  let ret := dynamicCast ts (fun t x => decide (up t = x)) x
  if ret.map up = x then .ok ret else .abort

/-- `safeCrossCast`, `PointerUtil.hpp:43-49` and `:69-77`. -/
def safeCrossCast {S T : Type} (ts : List T) (within : T → S → Bool) (x : Option S) : Res (Option T) :=
  match dynamicCast ts within x with
  | none => .abort
  | some t => .ok (some t)

/-- `safeRef`, `PointerUtil.hpp:81-105`. -/
def safeRef {T : Type} : Option T → Res T
  | none => .abort
  | some t => .ok t

/-! ## Properties -/

/-- The only element with a property. -/
def Only {T : Type} (ts : List T) (p : T → Prop) (t : T) : Prop := t ∈ ts ∧ p t ∧ ∀ u ∈ ts, p u → u = t

theorem filter_single {T : Type} (ts : List T) (hd : ts.Nodup) (p : T → Bool) (t : T) : ts.filter p = [t] ↔ Only ts (fun u => p u = true) t := by
  constructor
  · intro h
    have hm : t ∈ ts.filter p := by rw [h]; simp
    refine ⟨(List.mem_filter.mp hm).1, (List.mem_filter.mp hm).2, ?_⟩
    intro u hu hp
    have : u ∈ ts.filter p := List.mem_filter.mpr ⟨hu, hp⟩
    rw [h] at this
    simpa using this
  · rintro ⟨h1, h2, h3⟩
    have hn : (ts.filter p).Nodup := List.Sublist.nodup List.filter_sublist hd
    have hall : ∀ u ∈ ts.filter p, u = t := fun u hu => h3 u (List.mem_filter.mp hu).1 (List.mem_filter.mp hu).2
    have hm : t ∈ ts.filter p := List.mem_filter.mpr ⟨h1, h2⟩
    cases hl : ts.filter p with
    | nil => rw [hl] at hm; cases hm
    | cons a l =>
      rw [hl] at hn hall
      have ha := hall a (by simp)
      cases l with
      | nil => rw [ha]
      | cons b l =>
        have hb := hall b (by simp)
        rw [ha, hb] at hn
        simp at hn

theorem dynamicCast_cases {S T : Type} (ts : List T) (within : T → S → Bool) (x : S) (t : T) (h : dynamicCast ts within (some x) = some t) :
    ts.filter (fun t => within t x) = [t] ∨ ts = [t] := by
  unfold dynamicCast at h
  simp only [] at h
  split at h
  · rename_i u hf
    cases h
    exact .inl hf
  · split at h
    · cases h; exact .inr rfl
    · cases h

/-- A cast down gives the one target object that the pointer is the base of, so that it points to the same place again when converted back, and aborts if there is none or more than one. A null pointer gives
a null pointer, and nothing else does. -/
theorem safeDownCast_spec {S T : Type} [DecidableEq S] (ts : List T) (hd : ts.Nodup) (up : T → S) (x : S) :
    (∀ r, safeDownCast ts up (some x) = .ok r ↔ ∃ t, r = some t ∧ Only ts (fun u => up u = x) t) ∧
      (safeDownCast ts up (some x) = .abort ↔ ¬ ∃ t, Only ts (fun u => up u = x) t) ∧
      safeDownCast ts up none = .ok none := by
  have key : ∀ r, safeDownCast ts up (some x) = .ok r ↔ ∃ t, r = some t ∧ Only ts (fun u => up u = x) t := by
    intro r
    have hiff : ∀ t, Only ts (fun u => decide (up u = x) = true) t ↔ Only ts (fun u => up u = x) t := by intro t; simp [Only]
    constructor
    · intro h
      unfold safeDownCast at h
      simp only [] at h
      by_cases hm : (dynamicCast ts (fun t x => decide (up t = x)) (some x)).map up = some x
      · rw [if_pos hm] at h
        cases hd' : dynamicCast ts (fun t x => decide (up t = x)) (some x) with
        | none => rw [hd'] at hm; cases hm
        | some t =>
          rw [hd'] at hm h
          simp only [Option.map_some, Option.some.injEq] at hm
          cases h
          refine ⟨t, rfl, ?_⟩
          rcases dynamicCast_cases ts _ x t hd' with hf | rfl
          · exact (hiff t).mp ((filter_single ts hd _ t).mp hf)
          · exact ⟨by simp, hm, fun u hu _ => by simpa using hu⟩
      · rw [if_neg hm] at h
        cases h
    · rintro ⟨t, rfl, ho⟩
      have hf := (filter_single ts hd (fun t => decide (up t = x)) t).mpr ((hiff t).mpr ho)
      have hc : dynamicCast ts (fun t x => decide (up t = x)) (some x) = some t := by
        unfold dynamicCast
        simp only [hf]
      unfold safeDownCast
      simp only [hc]
      simp [ho.2.1]
  refine ⟨key, ?_, rfl⟩
  constructor
  · rintro h ⟨t, ht⟩
    have := (key (some t)).mpr ⟨t, rfl, ht⟩
    rw [h] at this
    cases this
  · intro h
    cases hc : safeDownCast ts up (some x) with
    | abort => rfl
    | ok r =>
      obtain ⟨t, _, ht⟩ := (key r).mp hc
      exact absurd ⟨t, ht⟩ h
    | ub =>
      unfold safeDownCast at hc
      simp only [] at hc
      split at hc <;> cases hc

/-- Two base subobjects `false` and `true`, a target object above `true`: the cast from `true` succeeds, from `false` it aborts although `dynamic_cast` finds the target across. -/
example : safeDownCast [7] (fun _ : Nat => true) (some true) = .ok (some 7) ∧ safeDownCast [7] (fun _ : Nat => true) (some false) = .abort ∧
    dynamicCast [7] (fun (_ : Nat) x => x) (some false) = some 7 ∧ ([7] : List Nat).Nodup ∧ Only [7] (fun _ : Nat => true = true) 7 := by
  refine ⟨by decide, by decide, by decide, by decide, by decide, rfl, ?_⟩
  intro u hu _
  simpa using hu

/-- A cast across gives what `dynamic_cast` gives, and is never null: it aborts for a null pointer and when there is no such object. -/
theorem safeCrossCast_spec {S T : Type} (ts : List T) (within : T → S → Bool) (x : Option S) :
    (∀ r, safeCrossCast ts within x = .ok r ↔ ∃ t, r = some t ∧ dynamicCast ts within x = some t) ∧
      safeCrossCast ts within none = .abort ∧ (safeCrossCast ts within x = .abort ↔ dynamicCast ts within x = none) := by
  refine ⟨?_, rfl, ?_⟩
  · intro r
    unfold safeCrossCast
    cases dynamicCast ts within x with
    | none => simp
    | some t => simp [eq_comm]
  · unfold safeCrossCast
    cases dynamicCast ts within x <;> simp

example : safeCrossCast [1, 2] (fun (t : Nat) (x : Nat) => t == x) (some 2) = .ok (some 2) ∧ safeCrossCast [1, 2] (fun (t : Nat) (x : Nat) => t == x) (some 3) = .abort := by
  constructor <;> decide

/-- What `dynamic_cast` finds is a target object of the same complete object. -/
theorem safeCrossCast_mem {S T : Type} (ts : List T) (within : T → S → Bool) (x : Option S) (t : T) (h : safeCrossCast ts within x = .ok (some t)) : t ∈ ts := by
  obtain ⟨t', e, h'⟩ := ((safeCrossCast_spec ts within x).1 _).mp h
  cases e
  unfold dynamicCast at h'
  split at h'
  · cases h'
  · rename_i y
    split at h'
    · rename_i u hf
      cases h'
      have : t ∈ ts.filter (fun t => within t y) := by rw [hf]; simp
      exact (List.mem_filter.mp this).1
    · split at h'
      · cases h'; simp
      · cases h'

/-- A reference is only made of a pointer that is not null. -/
theorem safeRef_spec {T : Type} (p : Option T) (r : T) : (safeRef p = .ok r ↔ p = some r) ∧ safeRef p ≠ .ub := by
  cases p <;> simp [safeRef]

example : safeRef (some 3) = .ok 3 ∧ safeRef (none : Option Nat) = .abort := ⟨rfl, rfl⟩

end Verif.Misc.Pointer
