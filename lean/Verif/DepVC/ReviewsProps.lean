import Verif.DepVC.Reviews

/-! # deptool with monotone: the reviews of a revision (C256) -/

namespace Verif.DepVC.Reviews

open Verif.Deptool.Deps (Text)
open Verif.DepVC.Ctest (isSpace strip)

/-! ## Specification -/

/-- A certificate: who signed it, the state of the signature, its name, and the lines of its value. -/
structure Cert where
  key : Text
  sig : Text
  name : Text
  first : Text
  more : List Text

/-- How monotone prints it. -/
def Cert.lines (c : Cert) : List Text :=
  ["-----------------------------------------------------------------".toList, "Key   : ".toList ++ c.key, "Sig   : ".toList ++ c.sig,
   "Name  : ".toList ++ c.name, "Value : ".toList ++ c.first] ++ c.more.map ("      : ".toList ++ ·)

/-- It is a review. -/
def Cert.IsReview (c : Cert) : Prop := c.name = "review".toList

instance (c : Cert) : Decidable c.IsReview := inferInstanceAs (Decidable (_ = _))

/-! ## Lemmas -/

theorem skip_more (more : List Text) (p2 p1 : Option Text) (rest : List Text) (h : ∀ l ∈ more, isReview l = false) :
    ∃ q2 q1, go p2 p1 (more ++ rest) = go q2 q1 rest := by
  induction more generalizing p2 p1 with
  | nil => exact ⟨p2, p1, rfl⟩
  | cons l more ih =>
    obtain ⟨q2, q1, e⟩ := ih p1 (some l) fun x hx => h x (by simp [hx])
    refine ⟨q2, q1, ?_⟩
    rw [List.cons_append, go, if_neg (by simp [h l (by simp)])]
    exact e

theorem not_review (c : Char) (l : Text) (h : c ≠ 'N') : isReview (c :: l) = false := by
  have h' : ('N' == c) = false := by simpa using fun e : 'N' = c => h e.symm
  simp [isReview, behind, strip, List.isPrefixOf, h']

theorem name_review (n : Text) : isReview ("Name  : ".toList ++ n) = true ↔ n = "review".toList := by
  have : behind ['N', 'a', 'm', 'e'] ('N' :: 'a' :: 'm' :: 'e' :: ' ' :: ' ' :: ':' :: ' ' :: n) = some n := by
    simp [behind, strip, isSpace]
  show (behind ['N', 'a', 'm', 'e'] ('N' :: 'a' :: 'm' :: 'e' :: ' ' :: ' ' :: ':' :: ' ' :: n) == some ['r', 'e', 'v', 'i', 'e', 'w']) = true ↔ _
  rw [this, beq_iff_eq, Option.some.injEq]
  exact Iff.rfl

theorem key_line (k : Text) : keyOf ("Key   : ".toList ++ k) = some1 k := by
  show keyOf ('K' :: 'e' :: 'y' :: ' ' :: ' ' :: ' ' :: ':' :: ' ' :: k) = some1 k
  simp [keyOf, behind, strip, isSpace]

theorem value_line (v : Text) : valueOf ("Value : ".toList ++ v) = some1 v := by
  show valueOf ('V' :: 'a' :: 'l' :: 'u' :: 'e' :: ' ' :: ':' :: ' ' :: v) = some1 v
  simp [valueOf, strip]

theorem go_skip (p2 p1 : Option Text) (l : Text) (ls : List Text) (h : isReview l = false) : go p2 p1 (l :: ls) = go p1 (some l) ls := by
  rw [go, if_neg (by simp [h])]

/-- One certificate. -/
theorem go_cert (c : Cert) (p2 p1 : Option Text) (rest : List Text) : ∃ q2 q1, go p2 p1 (c.lines ++ rest) =
    if c.name = "review".toList then (match some1 c.key, some1 c.first with
      | some k, some v => (go q2 q1 rest).map ((k, v) :: ·)
      | _, _ => none)
    else go q2 q1 rest := by
  obtain ⟨q2, q1, hq⟩ := skip_more (c.more.map ("      : ".toList ++ ·)) (some ("Name  : ".toList ++ c.name)) (some ("Value : ".toList ++ c.first)) rest (by
    intro l hl
    obtain ⟨m, -, rfl⟩ := List.mem_map.mp hl
    exact not_review ' ' _ (by decide))
  refine ⟨q2, q1, ?_⟩
  unfold Cert.lines
  simp only [List.cons_append, List.nil_append]
  have h1 : isReview "-----------------------------------------------------------------".toList = false := not_review '-' _ (by decide)
  have h2 : isReview ("Key   : ".toList ++ c.key) = false := not_review 'K' _ (by decide)
  have h3 : isReview ("Sig   : ".toList ++ c.sig) = false := not_review 'S' _ (by decide)
  have h4 : isReview ("Value : ".toList ++ c.first) = false := not_review 'V' _ (by decide)
  rw [go_skip _ _ _ _ h1, go_skip _ _ _ _ h2, go_skip _ _ _ _ h3]
  by_cases hn : c.name = "review".toList
  · rw [go, if_pos ((name_review c.name).mpr hn), if_pos hn]
    simp only [Option.bind_some, List.head?_cons]
    rw [key_line, value_line, go_skip _ _ _ _ h4, hq]
    cases some1 c.key <;> cases some1 c.first <;> rfl
  · rw [go_skip _ _ _ _ (by
      cases h : isReview ("Name  : ".toList ++ c.name) with
      | false => rfl
      | true => exact absurd ((name_review c.name).mp h) hn), if_neg hn, go_skip _ _ _ _ h4, hq]

theorem go_certs (cs : List Cert) : ∀ (p2 p1 : Option Text) (rs : List (Text × Text)), go p2 p1 (cs.flatMap Cert.lines) = some rs ↔
    (∀ c ∈ cs, c.IsReview → c.key ≠ [] ∧ c.first ≠ []) ∧ rs = (cs.filter fun c => c.IsReview).map fun c => (c.key, c.first) := by
  induction cs with
  | nil => intro p2 p1 rs; simp [go, eq_comm]
  | cons c cs ih =>
    intro p2 p1 rs
    obtain ⟨q2, q1, e⟩ := go_cert c p2 p1 (cs.flatMap Cert.lines)
    rw [List.flatMap_cons, e]
    by_cases hn : c.IsReview
    · have hn' : c.name = "review".toList := hn
      rw [if_pos hn', List.filter_cons, if_pos (by simpa using hn), List.map_cons]
      constructor
      · intro h
        split at h
        · rename_i k v hk hv
          have hk' : c.key ≠ [] ∧ c.key = k := by
            unfold some1 at hk
            split at hk
            · cases hk
            · rename_i hx; cases hk; exact ⟨hx, rfl⟩
          have hv' : c.first ≠ [] ∧ c.first = v := by
            unfold some1 at hv
            split at hv
            · cases hv
            · rename_i hx; cases hv; exact ⟨hx, rfl⟩
          cases hg : go q2 q1 (cs.flatMap Cert.lines) with
          | none => rw [hg] at h; cases h
          | some ts =>
            rw [hg] at h
            cases h
            obtain ⟨h1, h2⟩ := (ih q2 q1 ts).mp hg
            refine ⟨?_, by rw [h2, hk'.2, hv'.2]⟩
            intro d hd hr
            rcases List.mem_cons.mp hd with rfl | hd
            · exact ⟨hk'.1, hv'.1⟩
            · exact h1 d hd hr
        · cases h
      · rintro ⟨h1, rfl⟩
        obtain ⟨hk, hv⟩ := h1 c (by simp) hn
        have e1 : some1 c.key = some c.key := if_neg hk
        have e2 : some1 c.first = some c.first := if_neg hv
        rw [e1, e2]
        simp only []
        rw [(ih q2 q1 _).mpr ⟨fun d hd => h1 d (by simp [hd]), rfl⟩]
        rfl
    · have hn' : ¬ c.name = "review".toList := hn
      rw [if_neg hn', List.filter_cons, if_neg (by simpa using hn), ih]
      constructor
      · rintro ⟨h1, h2⟩
        refine ⟨?_, h2⟩
        intro d hd hr
        rcases List.mem_cons.mp hd with rfl | hd
        · exact absurd hr hn
        · exact h1 d hd hr
      · rintro ⟨h1, h2⟩
        exact ⟨fun d hd => h1 d (by simp [hd]), h2⟩

/-! ## C256 -/

/-- The reviews are the certificates named review, in order, with who signed them and the first line of what they said; the program dies exactly if one of them
has nobody or an empty first line. -/
theorem reviews_read_partial (cs : List Cert) (rs : List (Text × Text)) : getReviews (cs.flatMap Cert.lines) = some rs ↔
    (∀ c ∈ cs, c.IsReview → c.key ≠ [] ∧ c.first ≠ []) ∧ rs = (cs.filter fun c => c.IsReview).map fun c => (c.key, c.first) :=
  go_certs cs _ _ rs

/-- False: that everything a reviewer said is there: the other lines are lost. -/
theorem lines_lost_false : ∃ c d : Cert, c.IsReview ∧ d.IsReview ∧ c.key = d.key ∧ c.more ≠ d.more ∧ getReviews c.lines = getReviews d.lines ∧ getReviews c.lines ≠ none := by
  let c : Cert := ⟨['a'], ['o', 'k'], ['r', 'e', 'v', 'i', 'e', 'w'], ['y', 'e', 's'], []⟩
  let d : Cert := ⟨['a'], ['o', 'k'], ['r', 'e', 'v', 'i', 'e', 'w'], ['y', 'e', 's'], [['b', 'u', 't']]⟩
  have hc := (reviews_read_partial [c] [(['a'], ['y', 'e', 's'])]).mpr ⟨by intro x hx _; simp only [List.mem_singleton] at hx; subst hx; exact ⟨by decide, by decide⟩, by decide⟩
  have hd := (reviews_read_partial [d] [(['a'], ['y', 'e', 's'])]).mpr ⟨by intro x hx _; simp only [List.mem_singleton] at hx; subst hx; exact ⟨by decide, by decide⟩, by decide⟩
  have ec : [c].flatMap Cert.lines = c.lines := by simp
  have ed : [d].flatMap Cert.lines = d.lines := by simp
  rw [ec] at hc
  rw [ed] at hd
  exact ⟨c, d, rfl, rfl, rfl, by decide, hc.trans hd.symm, by rw [hc]; simp⟩

/-- False: that a bad signature makes a difference: the line with its state is not looked at. -/
theorem signature_false (c : Cert) (hk : c.key ≠ []) (hf : c.first ≠ []) (hr : c.IsReview) (sig : Text) : getReviews (Cert.lines { c with sig := sig }) = some [(c.key, c.first)] := by
  have e : [({ c with sig := sig } : Cert)].flatMap Cert.lines = Cert.lines { c with sig := sig } := by simp
  rw [← e]
  refine (reviews_read_partial _ _).mpr ⟨?_, ?_⟩
  · intro x hx _
    simp only [List.mem_singleton] at hx
    subst hx
    exact ⟨hk, hf⟩
  · rw [List.filter_cons, if_pos (decide_eq_true (show Cert.IsReview { c with sig := sig } from hr))]
    rfl

/-! ### The hypotheses are met -/

example : ∃ c : Cert, c.key ≠ [] ∧ c.first ≠ [] ∧ c.IsReview := ⟨⟨['a'], ['b', 'a', 'd'], ['r', 'e', 'v', 'i', 'e', 'w'], ['o', 'k'], []⟩, by decide, by decide, rfl⟩

end Verif.DepVC.Reviews
