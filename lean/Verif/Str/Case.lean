import Verif.Str.Model

/-!
# Blanks, case and wide strings (`/repo/src/StringUtil.cpp:348-366`, `439-480`)

The `<cctype>` functions are those of the "C" locale. They are given a `char`, which is signed, so a byte
from 128 on is a negative argument: undefined behaviour by the C standard, here `ub`.
-/

namespace Verif.Str.Case

/-- A `<cctype>` function applied to a `char`. Used in the model of `StringUtil.cpp:352-355` (`allLoop`). -/
def ctype {β : Type} (f : Nat → β) (b : Byte) : Res β := if b.val < 128 then .ok (f b.val) else .ub

/-- Used in the model of `StringUtil.cpp:352-355` (`stringIsBlank`). -/
def isblank (c : Nat) : Bool := c == 32 || c == 9
/-- Used in the model of `StringUtil.cpp:352-355` (`stringIsSpace`). -/
def isspace (c : Nat) : Bool := c == 32 || (decide (9 ≤ c) && decide (c ≤ 13))
/-- Used in the model of `StringUtil.cpp:443-446` (`downcaseString`). -/
def tolower (c : Nat) : Nat := if 65 ≤ c ∧ c ≤ 90 then c + 32 else c
/-- Used in the model of `StringUtil.cpp:443-446` (`upcaseString`). -/
def toupper (c : Nat) : Nat := if 97 ≤ c ∧ c ≤ 122 then c - 32 else c

/-- The loop of `stringIsBlank` and `stringIsSpace`, `StringUtil.cpp:352-355`, `362-365`. -/
def allLoop (f : Nat → Bool) : Str → Res Bool
  | [] => .ok true
  | b :: s => do
    let y ← ctype f b
    if y then allLoop f s else pure false

/-- Made of the parts of `StringUtil.cpp:352-355`. -/
def stringIsBlank (s : Str) : Res Bool := allLoop isblank s
/-- Made of the parts of `StringUtil.cpp:352-355`. -/
def stringIsSpace (s : Str) : Res Bool := allLoop isspace s

/-- The loop of `downcaseString` and `upcaseString`, `StringUtil.cpp:443-446`, `453-456`. -/
def mapLoop (f : Nat → Nat) : Str → Res Str
  | [] => .ok []
  | b :: s => do
    let y ← ctype f b
    let r ← mapLoop f s
    pure (Fin.ofNat 256 y :: r)

/-- Made of the parts of `StringUtil.cpp:443-446`. -/
def downcaseString (s : Str) : Res Str := mapLoop tolower s
/-- Made of the parts of `StringUtil.cpp:443-446`. -/
def upcaseString (s : Str) : Res Str := mapLoop toupper s

/-- The `ctype<wchar_t>` facet of a locale: `widen(c)` and `narrow(w, dfault)`. Used in the model of `StringUtil.cpp:464-471` (`string2wstring`). -/
structure Facet (W : Type) where
  widen : Byte → W
  narrow : W → Byte → Byte

/-- `string2wstring`, `StringUtil.cpp:464-471`. -/
def string2wstring {W : Type} (f : Facet W) (s : Str) : List W := s.map f.widen

/-- `wstring2string`, `StringUtil.cpp:473-480`. -/
def wstring2string {W : Type} (f : Facet W) (s : List W) (dfault : Byte) : Str := s.map fun w => f.narrow w dfault

/-! ## Helper lemmas -/

def Ascii (s : Str) : Prop := ∀ b ∈ s, b.val < 128

theorem allLoop_ascii (f : Nat → Bool) : ∀ s : Str, Ascii s → allLoop f s = .ok (s.all fun b => f b.val) := by
  intro s
  induction s with
  | nil => intro _; rfl
  | cons b s ih =>
    intro h
    have hb : b.val < 128 := h b (by simp)
    have := ih fun x hx => h x (by simp [hx])
    simp only [allLoop, ctype, hb, if_true, Res.bind_ok, List.all_cons]
    cases hf : f b.val
    · simp
    · simp [this]

theorem mapLoop_ascii (f : Nat → Nat) : ∀ s : Str, Ascii s → mapLoop f s = .ok (s.map fun b => Fin.ofNat 256 (f b.val)) := by
  intro s
  induction s with
  | nil => intro _; rfl
  | cons b s ih =>
    intro h
    have hb : b.val < 128 := h b (by simp)
    have := ih fun x hx => h x (by simp [hx])
    simp only [mapLoop, ctype, hb, if_true, Res.bind_ok, this, Res.pure_eq, List.map_cons]

theorem mapLoop_ok (f : Nat → Nat) : ∀ (s r : Str), mapLoop f s = .ok r → Ascii s := by
  intro s
  induction s with
  | nil => intro r _ b hb; cases hb
  | cons b s ih =>
    intro r h
    simp only [mapLoop, ctype] at h
    by_cases hb : b.val < 128
    · simp only [hb, if_true, Res.bind_ok] at h
      rw [Res.bind_eq_ok] at h
      obtain ⟨q, h1, _⟩ := h
      intro x hx
      rcases List.mem_cons.mp hx with rfl | hx
      · exact hb
      · exact ih q h1 x hx
    · simp only [hb, if_false] at h
      cases h

/-! ## C192 -/

/-- The two characters are the same letter, or the same character. -/
def SameLetter (a b : Byte) : Prop :=
  a = b ∨ (65 ≤ a.val ∧ a.val ≤ 90 ∧ b.val = a.val + 32) ∨ (65 ≤ b.val ∧ b.val ≤ 90 ∧ a.val = b.val + 32)

/-- C192. An ASCII string is blank exactly when it has only blanks and tabs, and is space exactly when
it has only the six space characters; the empty string is both. -/
theorem blank_partial (s : Str) (h : Ascii s) :
    (∃ b, stringIsBlank s = .ok b ∧ (b = true ↔ ∀ c ∈ s, c = 32 ∨ c = 9)) ∧
    (∃ b, stringIsSpace s = .ok b ∧ (b = true ↔ ∀ c ∈ s, c = 32 ∨ c = 9 ∨ c = 10 ∨ c = 11 ∨ c = 12 ∨ c = 13)) := by
  refine ⟨⟨_, allLoop_ascii isblank s h, ?_⟩, ⟨_, allLoop_ascii isspace s h, ?_⟩⟩
  · rw [List.all_eq_true]
    refine forall_congr' fun c => forall_congr' fun _ => ?_
    simp only [isblank, Bool.or_eq_true, beq_iff_eq, Fin.ext_iff]
    rfl
  · rw [List.all_eq_true]
    refine forall_congr' fun c => forall_congr' fun _ => ?_
    simp only [isspace, Bool.or_eq_true, Bool.and_eq_true, decide_eq_true_eq, beq_iff_eq, Fin.ext_iff]
    show (_ ∨ _) ↔ (c.val = 32 ∨ c.val = 9 ∨ c.val = 10 ∨ c.val = 11 ∨ c.val = 12 ∨ c.val = 13)
    omega

/-- C192. An ASCII string put in lower case has the same length, the same letters in the same places, and
no upper case letter; the same for upper case; both are settled by doing it once; and two strings have
the same lower case form exactly when they have the same upper case form, that is when they differ only in
the case of letters. -/
theorem case_partial (s : Str) (h : Ascii s) :
    ∃ lo up, downcaseString s = .ok lo ∧ upcaseString s = .ok up ∧ lo.length = s.length ∧ up.length = s.length ∧
      (∀ (i : Nat) (a b : Byte), s[i]? = some a → lo[i]? = some b → SameLetter a b ∧ ¬ (65 ≤ b.val ∧ b.val ≤ 90)) ∧
      (∀ (i : Nat) (a b : Byte), s[i]? = some a → up[i]? = some b → SameLetter a b ∧ ¬ (97 ≤ b.val ∧ b.val ≤ 122)) ∧
      downcaseString lo = .ok lo ∧ upcaseString up = .ok up ∧ downcaseString up = .ok lo ∧ upcaseString lo = .ok up := by
  have hl : ∀ b : Byte, b.val < 128 → (Fin.ofNat 256 (tolower b.val)).val = tolower b.val ∧ tolower b.val < 128 := by
    intro b hb
    have : tolower b.val < 128 := by unfold tolower; split <;> omega
    exact ⟨Nat.mod_eq_of_lt (by omega), this⟩
  have hu : ∀ b : Byte, b.val < 128 → (Fin.ofNat 256 (toupper b.val)).val = toupper b.val ∧ toupper b.val < 128 := by
    intro b hb
    have : toupper b.val < 128 := by unfold toupper; split <;> omega
    exact ⟨Nat.mod_eq_of_lt (by omega), this⟩
  have al : Ascii (s.map fun b => Fin.ofNat 256 (tolower b.val)) := by
    intro x hx
    obtain ⟨y, hy, rfl⟩ := List.mem_map.mp hx
    rw [(hl y (h y hy)).1]
    exact (hl y (h y hy)).2
  have au : Ascii (s.map fun b => Fin.ofNat 256 (toupper b.val)) := by
    intro x hx
    obtain ⟨y, hy, rfl⟩ := List.mem_map.mp hx
    rw [(hu y (h y hy)).1]
    exact (hu y (h y hy)).2
  have again : ∀ (f g k : Nat → Nat) (hg : ∀ b : Byte, b.val < 128 → (Fin.ofNat 256 (g b.val)).val = g b.val)
      (hfg : ∀ n, n < 128 → f (g n) = k n), Ascii (s.map fun b => Fin.ofNat 256 (g b.val)) →
      mapLoop f (s.map fun b => Fin.ofNat 256 (g b.val)) = .ok (s.map fun b => Fin.ofNat 256 (k b.val)) := by
    intro f g k hg hfg ha
    rw [mapLoop_ascii f _ ha, List.map_map]
    congr 1
    refine List.map_congr_left fun b hb => ?_
    show Fin.ofNat 256 (f (Fin.ofNat 256 (g b.val)).val) = _
    rw [hg b (h b hb), hfg _ (h b hb)]
  refine ⟨_, _, mapLoop_ascii tolower s h, mapLoop_ascii toupper s h, by simp, by simp, ?_, ?_, ?_, ?_, ?_, ?_⟩
  · intro i a b ha hb
    rw [List.getElem?_map, ha] at hb
    cases hb
    have hm := h a (List.mem_of_getElem? ha)
    have := (hl a hm).1
    simp only [SameLetter, Fin.ext_iff]
    rw [this]
    unfold tolower
    split <;> omega
  · intro i a b ha hb
    rw [List.getElem?_map, ha] at hb
    cases hb
    have hm := h a (List.mem_of_getElem? ha)
    have := (hu a hm).1
    simp only [SameLetter, Fin.ext_iff]
    rw [this]
    unfold toupper
    split <;> omega
  · exact again tolower tolower tolower (fun b hb => (hl b hb).1) (fun n _ => by unfold tolower; grind) al
  · exact again toupper toupper toupper (fun b hb => (hu b hb).1) (fun n _ => by unfold toupper; grind) au
  · exact again tolower toupper tolower (fun b hb => (hu b hb).1) (fun n _ => by unfold tolower toupper; grind) au
  · exact again toupper tolower toupper (fun b hb => (hl b hb).1) (fun n _ => by unfold tolower toupper; grind) al

/-- C192. Case is the only thing lost: two ASCII strings have the same lower case form exactly when they
are as long and have the same letters. -/
theorem case_equal (s t : Str) (hs : Ascii s) (ht : Ascii t) :
    downcaseString s = downcaseString t ↔ s.length = t.length ∧ ∀ (i : Nat) (a b : Byte), s[i]? = some a → t[i]? = some b → SameLetter a b := by
  unfold downcaseString
  rw [mapLoop_ascii _ s hs, mapLoop_ascii _ t ht]
  have key : ∀ a b : Byte, a.val < 128 → b.val < 128 → (Fin.ofNat 256 (tolower a.val) = Fin.ofNat 256 (tolower b.val) ↔ SameLetter a b) := by
    intro a b ha hb
    have e1 : (Fin.ofNat 256 (tolower a.val)).val = tolower a.val :=
      Nat.mod_eq_of_lt (by have : tolower a.val < 128 := by unfold tolower; split <;> omega
                           omega)
    have e2 : (Fin.ofNat 256 (tolower b.val)).val = tolower b.val :=
      Nat.mod_eq_of_lt (by have : tolower b.val < 128 := by unfold tolower; split <;> omega
                           omega)
    simp only [SameLetter, Fin.ext_iff]
    rw [e1, e2]
    unfold tolower
    split <;> split <;> omega
  induction s generalizing t with
  | nil => cases t with
    | nil => simp
    | cons y t => simp
  | cons x s ih =>
    cases t with
    | nil => simp
    | cons y t =>
      have := ih t (fun b hb => hs b (by simp [hb])) (fun b hb => ht b (by simp [hb]))
      simp only [Res.ok.injEq] at this
      simp only [List.map_cons, Res.ok.injEq, List.cons.injEq, List.length_cons, Nat.add_right_cancel_iff]
      refine (and_congr (key x y (hs x (by simp)) (ht y (by simp))) this).trans ?_
      constructor
      · rintro ⟨h1, h2, h3⟩
        refine ⟨h2, ?_⟩
        intro i a b ha hb
        cases i with
        | zero => simp only [List.getElem?_cons_zero, Option.some.injEq] at ha hb; subst ha; subst hb; exact h1
        | succ i => exact h3 i a b (by simpa using ha) (by simpa using hb)
      · rintro ⟨h2, h3⟩
        exact ⟨h3 0 x y rfl rfl, h2, fun i a b ha hb => h3 (i + 1) a b (by simpa using ha) (by simpa using hb)⟩

/-- C192 is false of strings that are not ASCII: the functions of `<cctype>` are given negative numbers. -/
theorem case_utf8_false : ∃ s, downcaseString s = .ub ∧ upcaseString s = .ub ∧ stringIsSpace s = .ub ∧ stringIsBlank s = .ub :=
  ⟨[195, 169], by decide +kernel, by decide +kernel, by decide +kernel, by decide +kernel⟩

/-- C192. Strings keep their length when widened and narrowed, and come back the same if the locale
gives each of their characters back. -/
theorem wide_partial {W : Type} (f : Facet W) (s : Str) (dfault : Byte) (h : ∀ b ∈ s, f.narrow (f.widen b) dfault = b) :
    (string2wstring f s).length = s.length ∧ wstring2string f (string2wstring f s) dfault = s := by
  refine ⟨by simp [string2wstring], ?_⟩
  unfold wstring2string string2wstring
  rw [List.map_map]
  conv => rhs; rw [← List.map_id s]
  exact List.map_congr_left fun b hb => h b hb

/-- C192. A wide string keeps its length when narrowed; a character without a narrow form becomes the default. -/
theorem narrow_default {W : Type} (f : Facet W) (s : List W) (dfault : Byte) :
    (wstring2string f s dfault).length = s.length ∧
    ∀ (i : Nat) (w : W), s[i]? = some w → f.narrow w dfault = dfault → (wstring2string f s dfault)[i]? = some dfault := by
  refine ⟨by simp [wstring2string], ?_⟩
  intro i w hw h
  simp only [wstring2string, List.getElem?_map, hw, Option.map_some, h]

/-- `Ab-9` -/
example : downcaseString [65, 98, 45, 57] = .ok [97, 98, 45, 57] ∧ upcaseString [65, 98, 45, 57] = .ok [65, 66, 45, 57] := by decide +kernel
example : Ascii [65, 98, 45, 57] := by unfold Ascii; decide +kernel
example : stringIsBlank [32, 9] = .ok true ∧ stringIsBlank [32, 10] = .ok false ∧ stringIsSpace [32, 10] = .ok true := by decide +kernel
example : let f : Facet Nat := ⟨fun b => b.val, fun w d => if h : w < 256 then ⟨w, h⟩ else d⟩
    wstring2string f (string2wstring f [65, 233]) 63 = [65, 233] ∧ wstring2string f [65, 8364] 63 = [65, 63] := by decide +kernel

end Verif.Str.Case
