import Verif.Wrap.Lemmas

/-!
# C52: word wrapping of the usage text
-/

namespace Verif.Wrap
open Verif.Str Verif.Wrap.Spec

/-- C52: for every width and every text (short enough that its wrapped form is indexed by
32 bits) wrapping ends normally; every line is at most `max width 10` bytes long; the output
is the input with blanks turned into newlines and newlines inserted. -/
theorem wordWrap_spec (width : Nat) (text : Str) (h : 11 * text.length < 10 * 2 ^ 32) :
    ∃ out, wordWrap width text = .ok out ∧
      (∀ l ∈ lines out, l.length ≤ max width 10) ∧ SameText text out := by
  have hw : (if width < 10 then 10 else width) = max width 10 := by split <;> omega
  obtain ⟨out, ho, hB⟩ := loop_spec (max width 10) (by omega) text.length [] text
    (text.length + 1) (by omega) (by omega) (by simpa using h)
  refine ⟨out, ?_, broken_lines hB, broken_same hB⟩
  unfold wordWrap
  rw [hw]
  simpa using ho

/-- C52: lines are broken as the comments say: at the right-most blank of the second half of
the line, and only when there is none, after exactly the wrap width. -/
theorem wordWrap_breaks (width : Nat) (text : Str) (h : 11 * text.length < 10 * 2 ^ 32) :
    ∃ out, wordWrap width text = .ok out ∧ Broken (max width 10) text out := by
  have hw : (if width < 10 then 10 else width) = max width 10 := by split <;> omega
  obtain ⟨out, ho, hB⟩ := loop_spec (max width 10) (by omega) text.length [] text
    (text.length + 1) (by omega) (by omega) (by simpa using h)
  refine ⟨out, ?_, hB⟩
  unfold wordWrap
  rw [hw]
  simpa using ho

/-- C52: a text that already fits is returned unchanged. -/
theorem wordWrap_fits (width : Nat) (text : Str) (h : 11 * text.length < 10 * 2 ^ 32)
    (hl : ∀ l ∈ lines text, l.length ≤ max width 10) : wordWrap width text = .ok text := by
  obtain ⟨out, ho, hB⟩ := wordWrap_breaks width text h
  rw [ho, broken_fits hB hl]

theorem sameText_length {a b : Str} (h : SameText a b) : a.length ≤ b.length := by
  induction h with
  | nil => simp
  | same _ _ ih => simpa using ih
  | blank _ ih => simpa using ih
  | ins _ ih => simp; omega

/-- C52: wrapping twice is wrapping once. -/
theorem wordWrap_idem (width : Nat) (text out : Str)
    (h : 11 * text.length < 10 * 2 ^ 32) (ho : wordWrap width text = .ok out)
    (h2 : 11 * out.length < 10 * 2 ^ 32) :
    wordWrap width out = .ok out := by
  obtain ⟨out', ho', hl, _⟩ := wordWrap_spec width text h
  rw [ho] at ho'
  cases ho'
  exact wordWrap_fits width out h2 hl

/-- "hello big wide world" at width 10 becomes "hello big\nwide world". -/
example : wordWrap 10 [104, 101, 108, 108, 111, 32, 98, 105, 103, 32, 119, 105, 100, 101, 32,
    119, 111, 114, 108, 100] =
    .ok [104, 101, 108, 108, 111, 32, 98, 105, 103, 10, 119, 105, 100, 101, 32,
    119, 111, 114, 108, 100] := by decide +kernel

/-- Twelve letters at width 10 are cut after ten. -/
example : wordWrap 10 (List.replicate 12 97) =
    .ok (List.replicate 10 97 ++ 10 :: List.replicate 2 97) := by decide +kernel

/-- The hypotheses of `wordWrap_fits` and `wordWrap_idem` are met by real texts. -/
example : (∀ l ∈ lines [104, 105, 10, 104, 111], l.length ≤ max 10 10) ∧
    wordWrap 10 [104, 105, 10, 104, 111] = .ok [104, 105, 10, 104, 111] := by decide +kernel

/-- C52, the claim for *every* width is false: below 10 columns the text is wrapped at 10. -/
theorem wordWrap_narrow_false : ∃ width text out, wordWrap width text = .ok out ∧
    ∃ l ∈ lines out, width < l.length :=
  ⟨5, [97, 97, 97, 97, 97, 97], [97, 97, 97, 97, 97, 97], by decide +kernel,
    [97, 97, 97, 97, 97, 97], by decide, by decide⟩

end Verif.Wrap
