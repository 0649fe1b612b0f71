import Verif.Str.DoubleLemmas

/-! # What is a number, for `stringToDouble` (C191)

The grammar of C99 7.20.1.3 in the "C" locale, without the functions of the model. -/

namespace Verif.Str.Dbl.Spec

/-- space, tab, newline, vertical tab, form feed, carriage return -/
def Blank (b : Byte) : Prop := b.val = 32 ∨ b.val = 9 ∨ b.val = 10 ∨ b.val = 11 ∨ b.val = 12 ∨ b.val = 13

/-- `0` to `9` -/
def Digit10 (b : Byte) (k : Nat) : Prop := k < 10 ∧ b.val = 48 + k

/-- `0` to `9`, `a` to `f`, `A` to `F` -/
def Digit16 (b : Byte) (k : Nat) : Prop := Digit10 b k ∨ (10 ≤ k ∧ k < 16 ∧ (b.val = 55 + k ∨ b.val = 87 + k))

/-- The letter with this small form. -/
def Letter (c : Nat) (b : Byte) : Prop := b.val = c ∨ b.val = c - 32

/-- The number that digits spell. -/
inductive Digits (D : Byte → Nat → Prop) (base : Nat) : Str → Nat → Prop
  | nil : Digits D base [] 0
  | cons {b : Byte} {ds : Str} {k n : Nat} : D b k → Digits D base ds n → Digits D base (b :: ds) (k * base ^ ds.length + n)

/-- A sign or nothing. -/
def Sign (t : Str) (neg : Bool) : Prop := (t = [] ∧ neg = false) ∨ (t = [43] ∧ neg = false) ∨ (t = [45] ∧ neg = true)

/-- An exponent or nothing. -/
def Expo (letter : Nat) (t : Str) (e : Int) : Prop :=
  (t = [] ∧ e = 0) ∨
  ∃ c sg neg ds n, Letter letter c ∧ Sign sg neg ∧ ds ≠ [] ∧ Digits Digit10 10 ds n ∧ t = c :: (sg ++ ds) ∧ e = (if neg then -1 else 1) * (n : Int)

/-- Digits with perhaps a point among, before or after them, and perhaps an exponent. -/
def Plain (D : Byte → Nat → Prop) (base ebase letter : Nat) (neg : Bool) (t : Str) (v : Num) : Prop :=
  ∃ ip fp ex e n, Digits D base (ip ++ fp) n ∧ (ip ≠ [] ∨ fp ≠ []) ∧ Expo letter ex e ∧
    ((t = ip ++ ex ∧ fp = []) ∨ t = ip ++ 46 :: (fp ++ ex)) ∧ v = .fin neg base ebase n fp.length e

/-- A word in any case. -/
def Spells : List Nat → Str → Prop
  | [], t => t = []
  | c :: cs, t => ∃ b r, t = b :: r ∧ Letter c b ∧ Spells cs r

/-- Letters, digits and the underscore. -/
def NanChar (b : Byte) : Prop := (∃ k, Digit10 b k) ∨ (∃ i, i < 26 ∧ (b.val = 65 + i ∨ b.val = 97 + i)) ∨ b.val = 95

/-- A number without its sign. -/
def Body (neg : Bool) (t : Str) (v : Num) : Prop :=
  Plain Digit10 10 10 101 neg t v ∨
  (∃ x r, t = 48 :: x :: r ∧ Letter 120 x ∧ Plain Digit16 16 2 112 neg r v) ∨
  ((Spells [105, 110, 102] t ∨ Spells [105, 110, 102, 105, 110, 105, 116, 121] t) ∧ v = .inf neg) ∨
  (∃ w br, t = w ++ br ∧ Spells [110, 97, 110] w ∧ v = .nan neg ∧
    (br = [] ∨ ∃ cs, br = 40 :: (cs ++ [41]) ∧ ∀ c ∈ cs, NanChar c))

/-- A number, with blanks before it. -/
def IsNumber (t : Str) (v : Num) : Prop :=
  ∃ sp sg neg w, (∀ b ∈ sp, Blank b) ∧ Sign sg neg ∧ Body neg w v ∧ t = sp ++ (sg ++ w)

/-! ## The model's tests are these -/

theorem blank_iff (b : Byte) : Blank b ↔ isSpace b = true := by
  unfold Blank isSpace
  simp only [Bool.or_eq_true, beq_iff_eq, Bool.and_eq_true, decide_eq_true_eq]
  omega

theorem digit10_iff (b : Byte) (k : Nat) : Digit10 b k ↔ dec b = some k := by
  unfold Digit10 dec
  split
  · rw [Option.some.injEq]; omega
  · simp only [reduceCtorEq, iff_false]; omega

theorem digit16_iff (b : Byte) (k : Nat) : Digit16 b k ↔ hex b = some k := by
  unfold Digit16 Digit10 hex
  split
  · rw [Option.some.injEq]; omega
  · split
    · rw [Option.some.injEq]; omega
    · split
      · rw [Option.some.injEq]; omega
      · simp only [reduceCtorEq, iff_false]; omega

theorem letter_iff (c : Nat) (h : 32 ≤ c) (b : Byte) : Letter c b ↔ isLetter c b = true := by
  unfold Letter isLetter
  simp only [Bool.or_eq_true, beq_iff_eq]
  omega

theorem nanChar_iff (b : Byte) : NanChar b ↔ isNanChar b = true := by
  unfold NanChar isNanChar Digit10
  simp only [Bool.or_eq_true, beq_iff_eq, Bool.and_eq_true, decide_eq_true_eq]
  constructor
  · rintro (⟨k, hk⟩ | ⟨i, hi⟩ | h) <;> omega
  · rintro (((h | h) | h) | h)
    · exact Or.inl ⟨b.val - 48, by omega⟩
    · exact Or.inr (Or.inl ⟨b.val - 65, by omega⟩)
    · exact Or.inr (Or.inl ⟨b.val - 97, by omega⟩)
    · exact Or.inr (Or.inr h)

theorem foldl_digits (dig : Byte → Option Nat) (base : Nat) : ∀ (ds : Str) (a : Nat),
    ds.foldl (fun n b => n * base + (dig b).getD 0) a = a * base ^ ds.length + digitsVal dig base ds := by
  intro ds
  induction ds with
  | nil => intro a; simp [digitsVal]
  | cons b ds ih =>
    intro a
    have h1 := ih (a * base + (dig b).getD 0)
    have h2 := ih (0 * base + (dig b).getD 0)
    unfold digitsVal at h1 h2 ⊢
    simp only [List.foldl_cons, List.length_cons] at h1 h2 ⊢
    rw [h1, h2, Nat.pow_succ, Nat.add_mul, Nat.add_mul, Nat.mul_assoc, Nat.mul_comm base, Nat.zero_mul, Nat.zero_mul, Nat.zero_add]
    omega

theorem digits_iff {D : Byte → Nat → Prop} {dig : Byte → Option Nat} (h : ∀ b k, D b k ↔ dig b = some k) (base : Nat) :
    ∀ (ds : Str) (n : Nat), Digits D base ds n ↔ (∀ d ∈ ds, (dig d).isSome = true) ∧ n = digitsVal dig base ds := by
  intro ds
  have hc : ∀ b (t : Str), digitsVal dig base (b :: t) = (dig b).getD 0 * base ^ t.length + digitsVal dig base t := by
    intro b t
    have := foldl_digits dig base t (0 * base + (dig b).getD 0)
    rw [Nat.zero_mul, Nat.zero_add] at this
    rw [← this]
    simp [digitsVal]
  induction ds with
  | nil =>
    intro n
    constructor
    · intro hd; cases hd; simp [digitsVal]
    · rintro ⟨_, rfl⟩; exact .nil
  | cons b ds ih =>
    intro n
    constructor
    · intro hd
      cases hd with
      | @cons _ _ k m hk hm =>
        have h1 := (h _ _).mp hk
        obtain ⟨h2, h3⟩ := (ih _).mp hm
        refine ⟨?_, by rw [hc, h1, ← h3]; rfl⟩
        intro d hd
        rcases List.mem_cons.mp hd with rfl | hd
        · rw [h1]; rfl
        · exact h2 d hd
    · rintro ⟨h1, rfl⟩
      obtain ⟨k, hk⟩ := Option.isSome_iff_exists.mp (h1 b (by simp))
      rw [hc, hk]
      exact .cons ((h _ _).mpr hk) ((ih _).mpr ⟨fun d hd => h1 d (by simp [hd]), rfl⟩)

theorem expo_iff (letter : Nat) (hl : 32 ≤ letter) (t : Str) (e : Int) : Expo letter t e ↔ Dbl.Expo letter t e := by
  unfold Expo Dbl.Expo
  constructor
  · rintro (h | ⟨c, sg, neg, ds, n, h1, h2, h3, h4, h5, h6⟩)
    · exact Or.inl h
    · obtain ⟨h7, rfl⟩ := (digits_iff digit10_iff 10 _ _).mp h4
      exact Or.inr ⟨c, sg, neg, ds, (letter_iff letter hl c).mp h1, h2, h3, h7, h5, h6⟩
  · rintro (h | ⟨c, sg, neg, ds, h1, h2, h3, h4, h5, h6⟩)
    · exact Or.inl h
    · exact Or.inr ⟨c, sg, neg, ds, _, (letter_iff letter hl c).mpr h1, h2, h3, (digits_iff digit10_iff 10 _ _).mpr ⟨h4, rfl⟩, h5, h6⟩

theorem plain_iff {D : Byte → Nat → Prop} {dig : Byte → Option Nat} (h : ∀ b k, D b k ↔ dig b = some k) (base ebase letter : Nat) (hl : 32 ≤ letter)
    (neg : Bool) (t : Str) (v : Num) : Plain D base ebase letter neg t v ↔ Dbl.Plain dig base ebase letter neg t v := by
  unfold Plain Dbl.Plain
  constructor
  · rintro ⟨ip, fp, ex, e, n, h1, h2, h3, h4, h5⟩
    obtain ⟨h6, rfl⟩ := (digits_iff h base _ _).mp h1
    exact ⟨ip, fp, ex, e, fun d hd => h6 d (by simp [hd]), fun d hd => h6 d (by simp [hd]), h2, (expo_iff letter hl _ _).mp h3, h4, h5⟩
  · rintro ⟨ip, fp, ex, e, h1, h2, h3, h4, h5, h6⟩
    refine ⟨ip, fp, ex, e, _, (digits_iff h base _ _).mpr ⟨?_, rfl⟩, h3, (expo_iff letter hl _ _).mpr h4, h5, h6⟩
    intro d hd
    rcases List.mem_append.mp hd with hd | hd
    · exact h1 d hd
    · exact h2 d hd

theorem spells_iff : ∀ (cs : List Nat), (∀ c ∈ cs, 32 ≤ c) → ∀ (t : Str), Spells cs t ↔ Dbl.Spells cs t := by
  intro cs
  induction cs with
  | nil => intro _ t; exact Iff.rfl
  | cons c cs ih =>
    intro hc t
    unfold Spells Dbl.Spells
    constructor
    · rintro ⟨b, r, h1, h2, h3⟩
      exact ⟨b, r, h1, (letter_iff c (hc c (by simp)) b).mp h2, (ih (fun x hx => hc x (by simp [hx])) r).mp h3⟩
    · rintro ⟨b, r, h1, h2, h3⟩
      exact ⟨b, r, h1, (letter_iff c (hc c (by simp)) b).mpr h2, (ih (fun x hx => hc x (by simp [hx])) r).mpr h3⟩

theorem body_iff (neg : Bool) (t : Str) (v : Num) : Body neg t v ↔ Dbl.Body neg t v := by
  unfold Body Dbl.Body
  rw [plain_iff digit10_iff 10 10 101 (by omega), spells_iff _ (by decide), spells_iff _ (by decide)]
  simp only [plain_iff digit16_iff 16 2 112 (by omega), spells_iff [110, 97, 110] (by decide), letter_iff 120 (by omega), nanChar_iff]

/-- The two are the same. -/
theorem isNumber_iff (t : Str) (v : Num) : IsNumber t v ↔ Dbl.IsNumber t v := by
  unfold IsNumber Dbl.IsNumber
  simp only [blank_iff, body_iff]
  rfl

end Verif.Str.Dbl.Spec
