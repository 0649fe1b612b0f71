import Verif.Assert.Printf

/-! # C102: the message of an exception -/

namespace Verif.Assert.Printf
open Verif

theorem resize_vsnprintf (B : Nat) (text : List Nat) :
    resize (vsnprintf (List.replicate (B + 1) 0) text) text.length = text.take B ++ List.replicate (text.length - B) 0 := by
  simp only [resize, vsnprintf, List.length_replicate, Nat.add_sub_cancel]
  by_cases h : text.length ≤ B
  · have e : text.take B = text := List.take_of_length_le h
    have e2 : text.length - B = 0 := by omega
    have e3 : text.length - (text ++ [0] ++ (List.replicate (B + 1) 0).drop (text ++ [0]).length).length = 0 := by simp
    rw [e, e2, e3]
    simp
  · have hl : (text.take B ++ [0]).length = B + 1 := by simp; omega
    rw [hl, List.drop_of_length_le (by simp), List.append_nil, hl, List.take_of_length_le (by rw [hl]; omega), List.append_assoc]
    congr 1
    rw [show text.length - B = (text.length - (B + 1)) + 1 by omega, List.replicate_succ, List.singleton_append]

/-- C102. Every text yields its first 1023 characters followed by as many NULs as it has further characters; a format that fails throws. -/
theorem stringPrintF_eq (text : List Nat) :
    stringPrintF (some text) = .ok (text.take 1023 ++ List.replicate (text.length - 1023) 0) ∧ stringPrintF none = .abort :=
  ⟨congrArg Res.ok (resize_vsnprintf 1023 text), rfl⟩

/-- C102. Texts of up to 1023 characters come out unchanged. -/
theorem stringPrintF_partial {text : List Nat} (h : text.length ≤ 1023) : stringPrintF (some text) = .ok text := by
  rw [(stringPrintF_eq text).1, List.take_of_length_le h, show text.length - 1023 = 0 by omega]
  simp

example : stringPrintF (some [72, 105]) = .ok [72, 105] := stringPrintF_partial (by decide)

/-- C102 (violation). No longer text of ordinary characters does. -/
theorem stringPrintF_long_false {text : List Nat} (h : 1023 < text.length) (hz : 0 ∉ text) : stringPrintF (some text) ≠ .ok text := by
  rw [(stringPrintF_eq text).1]
  intro hc
  injection hc with hc
  apply hz
  rw [← hc]
  refine List.mem_append.2 (Or.inr (List.mem_replicate.2 ⟨by omega, rfl⟩))

example : stringPrintF (some (List.replicate 1024 65)) ≠ .ok (List.replicate 1024 65) := stringPrintF_long_false (by rw [List.length_replicate]; decide) (fun h => absurd (List.mem_replicate.1 h).2 (by decide))

end Verif.Assert.Printf
