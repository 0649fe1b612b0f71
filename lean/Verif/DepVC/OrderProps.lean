import Verif.DepVC.SequenceProps
import Verif.Deptool.DepsProps

/-! # C200: the order in which a code review shows the files -/

namespace Verif.DepVC.Sequence

open Verif.Deptool.Deps (Text cutLast word isWord cutLast_none cutLast_append word_no)
open Verif.DepVC.Select (lt lt_self lt_append)
open Verif.DepVC.Walk (lt_mix lt_both lt_total)

/-! ## The specification -/

/-- One comes before the other. -/
def Precedes (l : List Text) (p q : Text) : Prop := ∃ a b c, l = a ++ p :: (b ++ q :: c)

/-- A file with a directory, empty or ending in a slash, a name, and a suffix or none. -/
structure File where
  dir : Text
  name : Text
  suffix : Text

def File.path (f : File) : Text := f.dir ++ (f.name ++ if f.suffix = [] then [] else '.' :: f.suffix)

structure File.Ok (f : File) : Prop where
  dir : f.dir = [] ∨ ∃ d, f.dir = d ++ ['/']
  name : f.name ≠ [] ∧ '/' ∉ f.name
  suffix : f.suffix ≠ [] → word f.suffix = true
  /-- without a suffix, the name does not look as if it had one -/
  none : f.suffix = [] → ∀ a s, f.name = a ++ '.' :: s → a = [] ∨ word s = false

/-- A directory `tests…` below another one, as the program sees it. -/
def File.Test (f : File) : Prop := ∃ a b, f.dir = a ++ '/' :: 't' :: 'e' :: 's' :: 't' :: 's' :: b ∧ ∀ c, b.head? = some c → isWord c = false

def File.CMake (f : File) : Prop := ∃ t, f.name = 'C' :: 'M' :: 'a' :: 'k' :: 'e' :: t

/-- What the comment at line 2785 says: CMake files first, then tests, then by name, headers before sources. -/
def Before (f g : File) : Prop :=
  (f.CMake ∧ ¬ g.CMake) ∨ ((f.CMake ↔ g.CMake) ∧ ((f.Test ∧ ¬ g.Test) ∨ ((f.Test ↔ g.Test) ∧
    (lt f.name g.name = true ∨ (f.name = g.name ∧ f.suffix = ['h', 'p', 'p'] ∧ g.suffix ≠ ['h', 'p', 'p'])))))

/-! ## Reading a name -/

theorem cutLast_some (c : Char) : ∀ (t a b : Text), cutLast c t = some (a, b) → t = a ++ c :: b ∧ c ∉ b := by
  intro t
  induction t with
  | nil => intro a b h; cases h
  | cons x xs ih =>
    intro a b h
    unfold cutLast at h
    cases hc : cutLast c xs with
    | some y =>
      rw [hc] at h
      obtain ⟨y1, y2⟩ := y
      simp only [Option.some.injEq, Prod.mk.injEq] at h
      obtain ⟨h1, h2⟩ := ih y1 y2 hc
      obtain ⟨rfl, rfl⟩ := h
      exact ⟨by rw [h1]; rfl, h2⟩
    | none =>
      rw [hc] at h
      simp only at h
      split at h
      · rename_i hx
        simp only [Option.some.injEq, Prod.mk.injEq] at h
        obtain ⟨rfl, rfl⟩ := h
        refine ⟨by rw [hx]; rfl, ?_⟩
        intro hm
        obtain ⟨s, t, hst, hnt⟩ := List.append_of_mem hm |>.elim fun s ⟨t, e⟩ => (⟨s, t, e, trivial⟩ : ∃ s t, xs = s ++ c :: t ∧ True)
        clear hnt
        -- the last occurrence would have been found
        have : ∀ (u : Text), c ∈ u → cutLast c u ≠ none := by
          intro u
          induction u with
          | nil => intro h; cases h
          | cons y ys ihy =>
            intro hy
            unfold cutLast
            cases hcy : cutLast c ys with
            | some z => simp
            | none =>
              rcases List.mem_cons.mp hy with hy | hy
              · rw [hy]; simp
              · exact absurd hcy (ihy hy)
        exact this xs hm hc
      · cases h

theorem dirName_path (f : File) (h : f.Ok) : dirName f.path = (f.dir, f.name ++ if f.suffix = [] then [] else '.' :: f.suffix) := by
  have hns : '/' ∉ (f.name ++ if f.suffix = [] then [] else '.' :: f.suffix) := by
    rw [List.mem_append, not_or]
    refine ⟨h.name.2, ?_⟩
    split
    · simp
    · rename_i hs
      simp only [List.mem_cons, not_or]
      exact ⟨by decide, word_no '/' (by decide) _ (h.suffix hs)⟩
  unfold dirName File.path
  rcases h.dir with hd | ⟨d, hd⟩
  · rw [hd, List.nil_append, cutLast_none _ _ hns]
  · rw [hd, List.append_assoc, List.singleton_append, cutLast_append _ _ _ hns]

theorem stem_path (f : File) (h : f.Ok) : stem (f.name ++ if f.suffix = [] then [] else '.' :: f.suffix) = (f.name, f.suffix) := by
  unfold stem
  by_cases hs : f.suffix = []
  · rw [if_pos hs, List.append_nil, hs]
    cases hc : cutLast '.' f.name with
    | none => rfl
    | some x =>
      obtain ⟨a, s⟩ := x
      obtain ⟨h1, _⟩ := cutLast_some '.' _ _ _ hc
      simp only
      rw [if_neg]
      rintro ⟨ha, hw⟩
      rcases h.none hs a s h1 with h2 | h2
      · exact ha h2
      · rw [h2] at hw; cases hw
  · have hw := h.suffix hs
    rw [if_neg hs, cutLast_append _ _ _ (word_no '.' (by decide) _ hw)]
    simp only
    rw [if_pos ⟨h.name.1, hw⟩]

theorem nameOf_path (f : File) (h : f.Ok) : nameOf f.path = f.name := by
  unfold nameOf; rw [dirName_path f h, stem_path f h]

theorem isHeader_path (f : File) (h : f.Ok) : isHeader f.path = decide (f.suffix = ['h', 'p', 'p']) := by
  unfold isHeader; rw [dirName_path f h, stem_path f h]

theorem isCMake_path (f : File) (h : f.Ok) : isCMake f.path = true ↔ f.CMake := by
  unfold isCMake
  rw [nameOf_path f h, List.isPrefixOf_iff_prefix]
  exact ⟨fun ⟨t, e⟩ => ⟨t, e.symm⟩, fun ⟨t, e⟩ => ⟨t, e.symm⟩⟩

theorem hasTests_iff : ∀ d : Text, hasTests d = true ↔ ∃ a b, d = a ++ slashTests ++ b ∧ ∀ c, b.head? = some c → isWord c = false := by
  intro d
  induction d with
  | nil => simp [hasTests, slashTests]
  | cons x xs ih =>
    unfold hasTests
    rw [Bool.or_eq_true, Bool.and_eq_true, ih, List.isPrefixOf_iff_prefix]
    constructor
    · rintro (⟨⟨b, h1⟩, h2⟩ | ⟨a, b, h1, h2⟩)
      · refine ⟨[], b, by rw [← h1]; rfl, ?_⟩
        intro c hc
        have hd : (x :: xs).drop 6 = b := by rw [← h1]; rfl
        rw [hd, hc] at h2
        simpa using h2
      · exact ⟨x :: a, b, by rw [h1]; rfl, h2⟩
    · rintro ⟨a, b, h1, h2⟩
      cases a with
      | nil =>
        left
        have h1' : x :: xs = slashTests ++ b := h1
        refine ⟨⟨b, h1'.symm⟩, ?_⟩
        have hd : (x :: xs).drop 6 = b := by rw [h1']; rfl
        rw [hd]
        cases hb : b.head? with
        | none => rfl
        | some c => simp [h2 c hb]
      | cons y a =>
        right
        simp only [List.cons_append, List.cons.injEq] at h1
        exact ⟨a, b, h1.2, h2⟩

theorem isTest_path (f : File) (h : f.Ok) : isTest f.path = true ↔ f.Test := by
  unfold isTest
  rw [dirName_path f h, hasTests_iff]
  unfold File.Test
  constructor
  · rintro ⟨a, b, h1, h2⟩
    exact ⟨a, b, by simpa [slashTests] using h1, h2⟩
  · rintro ⟨a, b, h1, h2⟩
    exact ⟨a, b, by simpa [slashTests] using h1, h2⟩

/-! ## Comparing keys -/

theorem lt_cons (c : Char) (s t : Text) : lt (c :: s) (c :: t) = lt s t := by simp [lt]

theorem lt_bit (a b : Bool) (s t : Text) : lt (bit a :: s) (bit b :: t) = true ↔ (a = true ∧ b = false) ∨ (a = b ∧ lt s t = true) := by
  cases a <;> cases b <;> simp [lt, bit]

theorem lt_key (p q : Text) : lt (key p) (key q) = true ↔
    (isCMake p = true ∧ isCMake q = false) ∨ (isCMake p = isCMake q ∧ ((isTest p = true ∧ isTest q = false) ∨ (isTest p = isTest q ∧
      lt (nameOf p ++ ['-', bit (isHeader p)]) (nameOf q ++ ['-', bit (isHeader q)]) = true))) := by
  unfold key
  rw [lt_bit, lt_cons, lt_bit, lt_cons]

/-- With a sign below all others at their ends, texts compare as without. -/
theorem lt_names : ∀ (a b : Text) (x y : Char), (∀ c ∈ a, 45 < c.toNat) → (∀ c ∈ b, 45 < c.toNat) →
    lt (a ++ ['-', x]) (b ++ ['-', y]) = (lt a b || (decide (a = b) && decide (x.toNat < y.toNat))) := by
  intro a
  induction a with
  | nil =>
    intro b x y _ hb
    cases b with
    | nil => simp [lt]
    | cons d b =>
      have := hb d (List.mem_cons_self ..)
      have h45 : '-'.toNat = 45 := by decide
      simp [lt, h45, this]
  | cons c a ih =>
    intro b x y ha hb
    have hc := ha c (List.mem_cons_self ..)
    have h45 : '-'.toNat = 45 := by decide
    cases b with
    | nil =>
      have hne : c ≠ '-' := fun e => by rw [e, h45] at hc; omega
      have hnl : ¬ c.toNat < 45 := by omega
      simp [lt, h45, hne, hnl]
    | cons d b =>
      have h := ih b x y (fun z hz => ha z (List.mem_cons_of_mem _ hz)) (fun z hz => hb z (List.mem_cons_of_mem _ hz))
      simp only [List.cons_append, lt, h, List.cons.injEq, Bool.decide_and]
      by_cases h1 : c.toNat < d.toNat
      · simp [h1]
      · by_cases h2 : c = d
        · subst h2; simp [h1]
        · simp [h1, h2]

theorem precedes_of : ∀ (l : List Text), l.Pairwise (fun a b => lt (key b) (key a) = false) → ∀ p q, p ∈ l → q ∈ l → lt (key p) (key q) = true → Precedes l p q := by
  intro l
  induction l with
  | nil => intro _ p q h; cases h
  | cons x xs ih =>
    intro hs p q hp hq hl
    obtain ⟨h1, h2⟩ := List.pairwise_cons.mp hs
    rcases List.mem_cons.mp hp with rfl | hp1
    · rcases List.mem_cons.mp hq with rfl | hq1
      · rw [lt_self] at hl; cases hl
      · obtain ⟨b, c, e⟩ := List.append_of_mem hq1
        exact ⟨[], b, c, by rw [e]; rfl⟩
    · rcases List.mem_cons.mp hq with rfl | hq1
      · have := h1 p hp1
        rw [hl] at this; cases this
      · obtain ⟨a, b, c, e⟩ := ih h2 p q hp1 hq1 hl
        exact ⟨x :: a, b, c, by rw [e]; rfl⟩

theorem bit_lt (a b : Bool) : (bit a).toNat < (bit b).toNat ↔ a = true ∧ b = false := by
  cases a <;> cases b <;> decide

theorem bool_iff (a b : Bool) : a = b ↔ (a = true ↔ b = true) := by cases a <;> cases b <;> simp

theorem bool_false (a : Bool) : a = false ↔ ¬ a = true := by cases a <;> simp

/-- C200: CMake files come first, then tests in directories below others, then the rest; among them, if the names have no signs up to the hyphen, by name; and headers before sources. -/
theorem order_partial (changed : List Text) (f g : File) (hf : f.Ok) (hg : g.Ok) (mf : f.path ∈ changed) (mg : g.path ∈ changed)
    (nf : ∀ c ∈ f.name, 45 < c.toNat) (ng : ∀ c ∈ g.name, 45 < c.toNat) (h : Before f g) : Precedes (sortBy key changed) f.path g.path := by
  have hm : ∀ p, p ∈ changed → p ∈ sortBy key changed := fun p hp => (sortBy_perm key changed).mem_iff.mpr hp
  refine precedes_of _ (sortBy_sorted key changed) _ _ (hm _ mf) (hm _ mg) ?_
  rw [lt_key, bool_iff (isCMake f.path) (isCMake g.path), bool_iff (isTest f.path) (isTest g.path), bool_false (isCMake g.path), bool_false (isTest g.path), isCMake_path f hf, isCMake_path g hg, isTest_path f hf, isTest_path g hg,
    nameOf_path f hf, nameOf_path g hg, lt_names _ _ _ _ nf ng, Bool.or_eq_true, Bool.and_eq_true, decide_eq_true_eq, decide_eq_true_eq, bit_lt, isHeader_path f hf, isHeader_path g hg, decide_eq_true_eq, decide_eq_false_iff_not]
  exact h

/-- C200: whatever the names, CMake files come first, then such tests; and the header comes before a source of the same name. -/
theorem order_groups (changed : List Text) (f g : File) (hf : f.Ok) (hg : g.Ok) (mf : f.path ∈ changed) (mg : g.path ∈ changed)
    (h : (f.CMake ∧ ¬ g.CMake) ∨ ((f.CMake ↔ g.CMake) ∧ f.Test ∧ ¬ g.Test) ∨ (f.name = g.name ∧ (f.Test ↔ g.Test) ∧ f.suffix = ['h', 'p', 'p'] ∧ g.suffix ≠ ['h', 'p', 'p'])) :
    Precedes (sortBy key changed) f.path g.path := by
  have hm : ∀ p, p ∈ changed → p ∈ sortBy key changed := fun p hp => (sortBy_perm key changed).mem_iff.mpr hp
  refine precedes_of _ (sortBy_sorted key changed) _ _ (hm _ mf) (hm _ mg) ?_
  rw [lt_key, bool_iff (isCMake f.path) (isCMake g.path), bool_iff (isTest f.path) (isTest g.path), bool_false (isCMake g.path), bool_false (isTest g.path), isCMake_path f hf, isCMake_path g hg, isTest_path f hf, isTest_path g hg,
    nameOf_path f hf, nameOf_path g hg]
  rcases h with h | ⟨h1, h2⟩ | ⟨h1, h2, h3, h4⟩
  · exact Or.inl h
  · exact Or.inr ⟨h1, Or.inl h2⟩
  · refine Or.inr ⟨by unfold File.CMake; rw [h1], Or.inr ⟨h2, ?_⟩⟩
    rw [h1, lt_append _ _ _ _ rfl, lt_self, isHeader_path f hf, isHeader_path g hg, decide_eq_true h3, decide_eq_false h4]
    simp [lt, bit]

/-- The names come from files that are there, so nothing is lost or added. -/
theorem order_all (changed : List Text) : (sortBy key changed).Perm changed := sortBy_perm key changed

def fHeader : File := { dir := ['l', '/'], name := ['f'], suffix := ['h', 'p', 'p'] }
def fSource : File := { dir := ['l', '/'], name := ['f'], suffix := ['C'] }

/-- The hypotheses can be met. -/
theorem fHeader_ok : fHeader.Ok := ⟨Or.inr ⟨['l'], rfl⟩, by decide, by decide, fun h => absurd h (by decide)⟩
theorem fSource_ok : fSource.Ok := ⟨Or.inr ⟨['l'], rfl⟩, by decide, by decide, fun h => absurd h (by decide)⟩

example : Precedes (sortBy key [fSource.path, fHeader.path]) fHeader.path fSource.path :=
  order_partial _ _ _ fHeader_ok fSource_ok (by decide) (by decide) (by decide) (by decide)
    (Or.inr ⟨Iff.rfl, Or.inr ⟨Iff.rfl, Or.inr (by decide)⟩⟩)

/-- C200, false of the code: another file comes between the header and the source, because the key of the header is the beginning of its key. -/
theorem order_between_false : sortBy key ["lib/foo.cpp".toList, "lib/foo.hpp".toList, "lib/foo-0.cpp".toList] = ["lib/foo.hpp".toList, "lib/foo-0.cpp".toList, "lib/foo.cpp".toList] := by decide +kernel

/-- C200, false of the code: tests in the directory `tests` at the top come after other files, unlike those in `lib/tests`. -/
theorem order_tests_false : sortBy key ["tests/b.cpp".toList, "lib/a.cpp".toList] = ["lib/a.cpp".toList, "tests/b.cpp".toList] ∧
    sortBy key ["lib/tests/b.cpp".toList, "lib/a.cpp".toList] = ["lib/tests/b.cpp".toList, "lib/a.cpp".toList] := by decide +kernel

end Verif.DepVC.Sequence
