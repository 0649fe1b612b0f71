import Verif.Thread.Cpus
import Verif.Num.Props

/-! # Counting processors (C112) -/

namespace Verif.Thread.Cpus
open Verif Verif.Str Verif.Num.Spec

/-- The number of places in `s` at which a line starts and `pat` stands; `start`: the first character of `s` starts a line. -/
def lineStarts (pat : Str) : Bool → Str → Nat
  | start, [] => if start ∧ pat = [] then 1 else 0
  | start, c :: s => (if start ∧ pat <+: c :: s then 1 else 0) + lineStarts pat (c == 10) s

/-- Which text an environment gives. -/
def textOf (file : Option Str) : Str := file.getD []

theorem prefix_line (pat : Str) (hp : (10 : Byte) ∉ pat) : ∀ s : Str, pat <+: (getline s).1 ↔ pat <+: s := by
  induction pat with
  | nil => simp
  | cons p pat ih =>
    intro s
    have ih := ih (by simp at hp; exact hp.2)
    cases s with
    | nil => simp [getline]
    | cons c s =>
      unfold getline
      by_cases hc : c = 10
      · subst hc
        simp only [if_true, List.cons_prefix_cons]
        constructor
        · intro h; simp at h
        · rintro ⟨rfl, _⟩; simp at hp
      · simp only [if_neg hc, List.cons_prefix_cons, ih]

theorem prefixequal_iff (s p : Str) : prefixequal s p = true ↔ p <+: s := by
  unfold prefixequal
  rw [Bool.and_eq_true, decide_eq_true_eq, beq_iff_eq, List.prefix_iff_eq_take]
  constructor
  · rintro ⟨_, h⟩; exact h.symm
  · intro h
    refine ⟨?_, h.symm⟩
    have := congrArg List.length h
    rw [List.length_take] at this
    omega

/-- The lines from here on: nothing before the end of this line counts. -/
theorem lineStarts_rest (pat : Str) : ∀ s : Str,
    lineStarts pat false s = if (getline s).2.2 = false then lineStarts pat true (getline s).2.1 else 0 := by
  intro s
  induction s with
  | nil => simp [lineStarts, getline]
  | cons c s ih =>
    rw [show lineStarts pat false (c :: s) = lineStarts pat (c == 10) s from by simp [lineStarts]]
    by_cases hc : c = 10
    · subst hc; simp [getline]
    · rw [show (c == 10) = false by simp [hc], ih]
      simp [getline, hc]

theorem lineStarts_true (pat : Str) (hne : pat ≠ []) (s : Str) :
    lineStarts pat true s = (if pat <+: s then 1 else 0) + lineStarts pat false s := by
  cases s with
  | nil => simp [lineStarts, hne]
  | cons c s => simp [lineStarts]

theorem countLoop_eq : ∀ (k : Nat) (s : Str) (n : Nat), s.length ≤ k → n < 2 ^ 32 →
    countLoop s n = (n + lineStarts processor true s) % 2 ^ 32 := by
  intro k
  have hne : processor ≠ [] := by simp [processor]
  have hnl : (10 : Byte) ∉ processor := by decide
  induction k with
  | zero =>
    intro s n hk hn
    have : s = [] := List.eq_nil_of_length_eq_zero (by omega)
    subst this
    unfold countLoop
    rw [show getline [] = ([], [], true) from rfl]
    simp [prefixequal, processor, lineStarts]
    omega
  | succ k ih =>
    intro s n hk hn
    unfold countLoop
    rw [lineStarts_true processor hne, lineStarts_rest processor]
    have hpre : prefixequal (getline s).1 processor = decide (processor <+: s) := by
      rw [Bool.eq_iff_iff, prefixequal_iff, prefix_line _ hnl]
      simp
    simp only [hpre, decide_eq_true_eq]
    by_cases he : (getline s).2.2 = false
    · have hl := getline_rest s he
      rw [if_pos he, if_pos he]
      rw [ih _ _ (by omega) (by split <;> omega)]
      split <;> omega
    · rw [if_neg he, if_neg he]
      split <;> omega

/-- What a first call must answer. -/
inductive Says (env file : Option Str) : Nat → Prop
  /-- the variable spells the number -/
  | env {e : Str} {n : Nat} : env = some e → Spells 10 e n → n < 2 ^ 32 → 0 < n → Says env file n
  /-- no variable: the lines of the file -/
  | file {f : Str} : env = none → file = some f → 0 < lineStarts processor true f → Says env file (lineStarts processor true f)

/-- **C112, partial.** A first call answers the number that the variable spells; without the variable, the number of lines of the file that start with
`processor`, a tab, a colon and a blank, whether or not the last line ends; and it stops the program when there is no such line or no file. Missing for the full statement:
numbers from `2^31` (`ncpus_negative_false`). -/
theorem ncpus_first_partial (env file : Option Str) (n : Nat) (h : Says env file n) (hn : n < 2 ^ 31) :
    getNCpus env file 0 = .ok ((n : Int), n) := by
  cases h with
  | env he hs h1 h2 =>
    have hx := (Num.stringToInteger_unsigned_partial 32 (by omega) _ (n : Int)).1 (.plain hs) (by simp [InRange]; omega)
    have hx' : Num.stringToInteger Num.uint32 _ = .ok (n : Int) := hx
    simp only [getNCpus, fill, if_true, he, hx', Res.bind_ok, Int.toNat_natCast, h2, decide_true, Res.require_true, Res.pure_eq]
    simp [toInt, hn]
  | @file f he hf h1 =>
    have hc := countLoop_eq f.length f 0 (Nat.le_refl _) (by omega)
    simp only [getNCpus, fill, if_true, he, hf]
    rw [hc, Nat.zero_add, Nat.mod_eq_of_lt (by omega)]
    simp only [h1, decide_true, Res.require_true, Res.pure_eq, Res.bind_ok]
    simp [toInt, hn]

/-- **C112.** Without the variable, a first call stops the program when there is no file or no such line in it. -/
theorem ncpus_none (file : Option Str) (h : lineStarts processor true (textOf file) = 0) : getNCpus none file 0 = .abort := by
  cases file with
  | none => rfl
  | some f =>
    have hc := countLoop_eq f.length f 0 (Nat.le_refl _) (by omega)
    simp only [textOf, Option.getD_some] at h
    simp only [getNCpus, fill, if_true]
    rw [hc, h]
    rfl

/-- A file of two processors whose last line does not end, with a line that only contains the word. -/
example : Says none (some (processor ++ [48, 10, 32] ++ processor ++ [10] ++ processor ++ [49])) 2 :=
  Says.file rfl rfl (by decide)

/-- **C112.** Once a call has answered, every later call gives the same answer, whatever becomes of the variable and the file. -/
theorem ncpus_cached (env file : Option Str) (a : Int) (n : Nat) (h : getNCpus env file 0 = .ok (a, n)) :
    ∀ cs, ∀ r ∈ calls n cs, r = .ok a := by
  have hn : 0 < n ∧ a = toInt n := by
    simp only [getNCpus] at h
    obtain ⟨m, _, h⟩ := Res.bind_eq_ok.1 h
    by_cases hm : 0 < m
    · simp [hm] at h
      obtain ⟨rfl, rfl⟩ := h
      exact ⟨hm, rfl⟩
    · simp [hm, Res.require] at h
  intro cs
  induction cs with
  | nil => simp [calls]
  | cons c cs ih =>
    obtain ⟨e, f⟩ := c
    have : getNCpus e f n = .ok (a, n) := by
      have hz : n ≠ 0 := by omega
      simp [getNCpus, fill, hz, hn.1, hn.2]
    simp only [calls, this]
    intro r hr
    rcases List.mem_cons.1 hr with rfl | hr
    · rfl
    · exact ih r hr

/-- A first call that answers. -/
example : getNCpus (some [49, 54]) none 0 = .ok (16, 16) := by decide

/-- **The full C112 is false.** With 3000000000 in the variable the answer is negative; and with 4294967295, or -1, it is -1, the answer that stands for
"unknown", although the caller has not allowed it. -/
theorem ncpus_negative_false :
    getNCpus (some [51, 48, 48, 48, 48, 48, 48, 48, 48, 48]) none 0 = .ok (-1294967296, 3000000000) ∧
    getNCpus (some [45, 49]) none 0 = .ok (-1, 4294967295) := by decide

end Verif.Thread.Cpus
