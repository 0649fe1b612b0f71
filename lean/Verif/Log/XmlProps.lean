import Verif.Log.Xml
import Verif.Log.Spec
import Verif.Num.Props

/-! # C104: log levels from XML -/

namespace Verif.Log.Xml
open Verif Verif.Str Verif.Num Verif.Num.Spec

theorem levelOf_ok {l : Str} (hne : l ≠ []) {x : Nat} : levelOf l = .ok x ↔ stringToInteger uint32 l = .ok (x : Int) ∧ x < 255 := by
  unfold levelOf
  rw [if_neg hne]
  cases h : stringToInteger uint32 l with
  | abort => simp
  | ub => simp
  | ok tmp =>
    have h0 := ((stringToInteger_unsigned_partial 32 (by decide) l tmp).2 h).1
    have h0' : 0 ≤ tmp := h0.1
    simp only [Res.bind_ok, Res.ok.injEq]
    by_cases hlt : tmp < 255
    · rw [decide_eq_true hlt, Res.require_true, Res.bind_ok]
      simp only [Res.pure_eq, Res.ok.injEq, u8]
      omega
    · rw [decide_eq_false hlt, Res.require_false, Res.bind_abort]
      simp only [reduceCtorEq, false_iff]
      omega

/-- C104. An element sets its category to the level its attribute spells, 0 to 254, and to level 1 when the attribute is absent or empty. -/
theorem parseXML_sets (s : Data) (n : Node) (c : Str) (hc : strGetXMLAttr n category = c) :
    (strGetXMLAttr n level = [] → parseXML s n = setDebugLevel s c 1) ∧
    (∀ x : Nat, SpellsInt 10 (strGetXMLAttr n level) x → x < 255 → parseXML s n = setDebugLevel s c x) := by
  subst hc
  refine ⟨fun h => ?_, fun x h hx => ?_⟩
  · unfold parseXML levelOf
    rw [if_pos h]
    rfl
  · have hok := (stringToInteger_unsigned_partial 32 (by decide) _ _).1 h ⟨by omega, by omega⟩
    have hne : strGetXMLAttr n level ≠ [] := by
      intro he
      rw [he] at hok
      revert hok
      have : stringToInteger ⟨false, 32⟩ [] = .abort := by decide
      rw [this]
      simp
    unfold parseXML
    rw [(levelOf_ok hne).2 ⟨hok, hx⟩]
    rfl

/-- C104. Nothing is set otherwise, except that a minus sign is read modulo `2^32`. -/
theorem parseXML_only_partial (s s' : Data) (n : Node) (h : parseXML s n = .ok s') :
    strGetXMLAttr n level = [] ∨ ∃ (x : Nat) (y : Int), x < 255 ∧ SpellsInt 10 (strGetXMLAttr n level) y ∧ (2 ^ 32 : Nat) ∣ ((x : Int) - y).natAbs ∧
      y.natAbs < 2 ^ 32 ∧ (0 ≤ y → y = x) ∧ setDebugLevel s (strGetXMLAttr n category) x = .ok s' := by
  by_cases hne : strGetXMLAttr n level = []
  · exact Or.inl hne
  · right
    unfold parseXML at h
    obtain ⟨x, hx, hs⟩ := Res.bind_eq_ok.1 h
    obtain ⟨h1, h2⟩ := (levelOf_ok hne).1 hx
    obtain ⟨_, y, hy, hd, hb, hpos⟩ := (stringToInteger_unsigned_partial 32 (by decide) _ _).2 h1
    exact ⟨x, y, h2, hy, hd, hb, hpos, hs⟩

-- <log category="b" level="3"/> and <log category="b"/>
example : parseXML init [(category, [98]), (level, [51])] = setDebugLevel init [98] 3 ∧ parseXML init [(category, [98])] = setDebugLevel init [98] 1 :=
  ⟨(parseXML_sets init _ _ rfl).2 3 (.plain (.one (.dec 3 51 (by decide) (by decide)) (by decide))) (by decide), (parseXML_sets init _ _ rfl).1 rfl⟩

/-- C104 (violation). The level 255, which `setDebugLevel` accepts, ends the program; `-4294967295` is level 1. -/
theorem parseXML_255_false :
    parseXML init [(category, [98]), (level, [50, 53, 53])] = .abort ∧
    parseXML init [(category, [98]), (level, [45, 52, 50, 57, 52, 57, 54, 55, 50, 57, 53])] = setDebugLevel init [98] 1 := by decide +kernel

end Verif.Log.Xml
