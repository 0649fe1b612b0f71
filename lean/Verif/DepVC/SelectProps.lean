import Verif.DepVC.Select

/-! # C197: review-status lists the revisions that were asked for -/

namespace Verif.DepVC.Select

open Verif.Deptool.Deps (Text cutLast)

/-- A day. -/
structure Day where
  year : Nat
  month : Nat
  day : Nat
deriving DecidableEq

def Day.Ok (d : Day) : Prop := d.year < 10000 ∧ d.month < 100 ∧ d.day < 100

/-- The calendar order. -/
def Day.Before (a b : Day) : Prop := a.year < b.year ∨ (a.year = b.year ∧ (a.month < b.month ∨ (a.month = b.month ∧ a.day < b.day)))

instance (a b : Day) : Decidable (a.Before b) := by unfold Day.Before; infer_instance

/-- `%0kd`, for numbers of up to `k` digits. -/
def dig : Nat → Nat → Text
  | 0, _ => []
  | k + 1, n => Char.ofNat (48 + n / 10 ^ k) :: dig k (n % 10 ^ k)

/-- YYYY-MM-DD -/
def Day.text (d : Day) : Text := dig 4 d.year ++ '-' :: (dig 2 d.month ++ '-' :: dig 2 d.day)

/-- The date of a revision made on a day at some time. -/
def stamp (d : Day) (time : Text) : Text := d.text ++ ' ' :: time

theorem lt_append : ∀ (x y s t : Text), x.length = y.length → lt (x ++ s) (y ++ t) = (lt x y || (decide (x = y) && lt s t)) := by
  intro x
  induction x with
  | nil => intro y s t h; cases y with | nil => simp [lt] | cons _ _ => simp at h
  | cons a x ih =>
    intro y s t h
    cases y with
    | nil => simp at h
    | cons b y =>
      simp only [List.length_cons, Nat.add_right_cancel_iff] at h
      simp only [List.cons_append, lt, ih y s t h]
      by_cases hab : a = b
      · subst hab
        simp
      · simp [hab]

theorem lt_self (x : Text) : lt x x = false := by
  induction x with
  | nil => rfl
  | cons a x ih => simp [lt, ih]

theorem dig_length : ∀ k n, (dig k n).length = k := by
  intro k
  induction k with
  | zero => intro n; rfl
  | succ k ih => intro n; simp [dig, ih]

theorem div_mod_lt (P n m : Nat) (hP : 0 < P) : n < m ↔ n / P < m / P ∨ (n / P = m / P ∧ n % P < m % P) := by
  have hn := Nat.div_add_mod n P
  have hm := Nat.div_add_mod m P
  have h1 := Nat.mod_lt n hP
  have h2 := Nat.mod_lt m hP
  rcases Nat.lt_trichotomy (n / P) (m / P) with h | h | h
  · have : P * (n / P + 1) ≤ P * (m / P) := Nat.mul_le_mul_left P h
    rw [Nat.mul_add] at this
    constructor
    · intro _; exact Or.inl h
    · intro _; omega
  · rw [h] at hn ⊢
    constructor
    · intro _; exact Or.inr ⟨rfl, by omega⟩
    · rintro (h3 | ⟨_, h3⟩) <;> omega
  · have : P * (m / P + 1) ≤ P * (n / P) := Nat.mul_le_mul_left P h
    rw [Nat.mul_add] at this
    constructor
    · intro _; omega
    · rintro (h3 | ⟨h3, _⟩) <;> omega

theorem digit_nat (x : Nat) (h : x < 10) : (Char.ofNat (48 + x)).toNat = 48 + x := by
  have : x = 0 ∨ x = 1 ∨ x = 2 ∨ x = 3 ∨ x = 4 ∨ x = 5 ∨ x = 6 ∨ x = 7 ∨ x = 8 ∨ x = 9 := by omega
  rcases this with rfl | rfl | rfl | rfl | rfl | rfl | rfl | rfl | rfl | rfl <;> rfl

theorem digit_eq (x y : Nat) (hx : x < 10) (hy : y < 10) : Char.ofNat (48 + x) = Char.ofNat (48 + y) ↔ x = y := by
  constructor
  · intro h
    have := congrArg Char.toNat h
    rw [digit_nat x hx, digit_nat y hy] at this
    omega
  · rintro rfl; rfl

theorem pow_pos10 (k : Nat) : 0 < 10 ^ k := Nat.pow_pos (by decide)

theorem div_lt10 (k n : Nat) (h : n < 10 ^ (k + 1)) : n / 10 ^ k < 10 := by
  rw [Nat.div_lt_iff_lt_mul (pow_pos10 k)]
  rw [Nat.pow_succ] at h; omega

theorem dig_lt : ∀ k n m, n < 10 ^ k → m < 10 ^ k → lt (dig k n) (dig k m) = decide (n < m) := by
  intro k
  induction k with
  | zero => intro n m hn hm; simp at hn hm; subst hn hm; rfl
  | succ k ih =>
    intro n m hn hm
    have a := div_lt10 k n hn
    have b := div_lt10 k m hm
    simp only [dig, lt]
    rw [ih _ _ (Nat.mod_lt _ (pow_pos10 k)) (Nat.mod_lt _ (pow_pos10 k)), digit_nat _ a, digit_nat _ b]
    have e := div_mod_lt (10 ^ k) n m (pow_pos10 k)
    have d := digit_eq _ _ a b
    rw [Bool.eq_iff_iff]
    simp only [Bool.or_eq_true, Bool.and_eq_true, decide_eq_true_eq, d]
    rw [e]
    constructor
    · rintro (h | h)
      · exact Or.inl (by omega)
      · exact Or.inr h
    · rintro (h | h)
      · exact Or.inl (by omega)
      · exact Or.inr h

theorem dig_inj : ∀ k n m, n < 10 ^ k → m < 10 ^ k → (dig k n = dig k m ↔ n = m) := by
  intro k n m hn hm
  constructor
  · intro h
    have h1 := dig_lt k n m hn hm
    have h2 := dig_lt k m n hm hn
    rw [h, lt_self] at h1
    rw [h, lt_self] at h2
    have := of_decide_eq_false h1.symm
    have := of_decide_eq_false h2.symm
    omega
  · rintro rfl; rfl

theorem day_length (d : Day) : d.text.length = 10 := by
  unfold Day.text; simp [dig_length]

theorem lt_dash (a b : Text) : lt ('-' :: a) ('-' :: b) = lt a b := by simp [lt]

theorem day_lt (a b : Day) (ha : a.Ok) (hb : b.Ok) : lt a.text b.text = decide (a.Before b) := by
  unfold Day.text
  rw [lt_append _ _ _ _ (by rw [dig_length, dig_length]), lt_dash, lt_append _ _ _ _ (by rw [dig_length, dig_length]), lt_dash,
    dig_lt 4 _ _ ha.1 hb.1, dig_lt 2 _ _ ha.2.1 hb.2.1, dig_lt 2 _ _ ha.2.2 hb.2.2]
  simp only [dig_inj 4 _ _ ha.1 hb.1, dig_inj 2 _ _ ha.2.1 hb.2.1]
  rw [Bool.eq_iff_iff]
  simp only [Bool.or_eq_true, Bool.and_eq_true, decide_eq_true_eq]
  rfl

theorem day_inj (a b : Day) (ha : a.Ok) (hb : b.Ok) : a.text = b.text ↔ a = b := by
  constructor
  · intro h
    unfold Day.text at h
    obtain ⟨h1, h2⟩ := List.append_inj h (by rw [dig_length, dig_length])
    obtain ⟨h3, h4⟩ := List.append_inj (List.cons.inj h2).2 (by rw [dig_length, dig_length])
    have h5 := (List.cons.inj h4).2
    obtain ⟨y, m, d⟩ := a
    obtain ⟨y', m', d'⟩ := b
    simp only at h1 h3 h5
    have e1 : y = y' := (dig_inj 4 _ _ ha.1 hb.1).mp h1
    have e2 : m = m' := (dig_inj 2 _ _ ha.2.1 hb.2.1).mp h3
    have e3 : d = d' := (dig_inj 2 _ _ ha.2.2 hb.2.2).mp h5
    rw [e1, e2, e3]
  · rintro rfl; rfl

theorem stamp_lt (d m : Day) (time : Text) (hd : d.Ok) (hm : m.Ok) : lt (stamp d time) m.text = decide (d.Before m) ∧ lt m.text (stamp d time) = decide (m.Before d ∨ m = d) := by
  unfold stamp
  constructor
  · have := lt_append d.text m.text (' ' :: time) [] (by rw [day_length, day_length])
    rw [List.append_nil] at this
    rw [this, day_lt d m hd hm]
    simp [lt]
  · have := lt_append m.text d.text [] (' ' :: time) (by rw [day_length, day_length])
    rw [List.append_nil] at this
    rw [this, day_lt m d hm hd]
    rw [Bool.eq_iff_iff]
    simp [lt, day_inj m d hm hd]

/-- A selector, as the documentation has them. -/
inductive Sel where
  | who (t : Text)
  | minDate (d : Day)
  | maxDate (d : Day)

/-- What the documentation says a revision must be like; with `strict`, the last day is not included. -/
def Meets (hit : Text → Text → Bool) (strict : Bool) (author : Text) (day : Day) : Sel → Prop
  | .who t => hit t author = true
  | .minDate d => ¬ day.Before d
  | .maxDate d => if strict then day.Before d else ¬ d.Before day

/-- The selectors of a call. -/
def toSelectors (who : Option Text) (minD maxD : Option Day) (branch : Option Text) : Selectors :=
  { who := who, minDate := minD.map Day.text, maxDate := maxD.map Day.text, branch := branch, repo := none }

/-- C197: of the log of the current branch, all revisions and only those are listed that are not merges, are by somebody who is asked for, not before the first day and before the last day; in the order of the log. -/
theorem select_partial (hit : Text → Text → Bool) (head : List Rev) (who : Option Text) (minD maxD : Option Day) (branch : Option Text) (day : Rev → Day) (time : Rev → Text)
    (hday : ∀ r ∈ head, r.date = stamp (day r) (time r) ∧ (day r).Ok) (hmin : ∀ d, minD = some d → d.Ok) (hmax : ∀ d, maxD = some d → d.Ok) :
    (select hit head (toSelectors who minD maxD branch)).Sublist head ∧
    ∀ r ∈ head, r ∈ select hit head (toSelectors who minD maxD branch) ↔
      r.merge = false ∧ (∀ t, who = some t → Meets hit true r.author (day r) (.who t)) ∧ (∀ d, minD = some d → Meets hit true r.author (day r) (.minDate d)) ∧
        (∀ d, maxD = some d → Meets hit true r.author (day r) (.maxDate d)) := by
  refine ⟨?_, ?_⟩
  · unfold select nonMerges
    exact (List.filter_sublist).trans (List.filter_sublist)
  · intro r hr
    obtain ⟨h1, h2⟩ := hday r hr
    unfold select nonMerges toSelectors
    simp only [List.mem_filter, hr, true_and, Bool.not_eq_true']
    refine and_congr Iff.rfl ?_
    unfold wanted
    simp only [Bool.and_eq_true, and_assoc]
    refine and_congr ?_ (and_congr ?_ ?_)
    · cases who <;> simp [Meets]
    · cases hd : minD with
      | none => simp
      | some d =>
        have := (stamp_lt (day r) d (time r) h2 (hmin d hd)).1
        simp only [Option.map_some, Option.some.injEq, forall_eq', Meets, h1, this]
        simp
    · cases hd : maxD with
      | none => simp
      | some d =>
        have := (stamp_lt (day r) d (time r) h2 (hmax d hd)).2
        simp only [Option.map_some, Option.some.injEq, forall_eq', Meets, h1, this, if_true]
        simp only [Bool.not_eq_true', decide_eq_false_iff_not, not_or]
        unfold Day.Before
        obtain ⟨y, m, dd⟩ := d
        rcases hx : day r with ⟨y', m', d'⟩
        simp only [Day.mk.injEq]
        omega

/-- C197: with `unreviewed`, those without a review are printed. -/
theorem printed_unreviewed (rs : List Rev) : printed true rs = rs.filter (fun r => r.reviews.isEmpty) ∧ printed false rs = rs := by
  unfold printed
  simp

def rev1 : Rev := { id := ['a'], author := ['x'], date := stamp ⟨2011, 3, 4⟩ "05:06:07".toList, merge := false, reviews := [] }

example : ((∀ r ∈ [rev1], r.date = stamp ⟨2011, 3, 4⟩ "05:06:07".toList ∧ (Day.mk 2011 3 4).Ok) ∧
    (select (fun _ _ => true) [rev1] (toSelectors none (some ⟨2011, 3, 4⟩) (some ⟨2011, 3, 5⟩) none)).length = 1) := by
  refine ⟨?_, by decide +kernel⟩
  intro r hr
  rw [List.mem_singleton.mp hr]
  exact ⟨rfl, by unfold Day.Ok; decide⟩

/-- C197, false of the code: revisions made on the day given as `max-date` are left out. -/
theorem select_max_false : ∃ (r : Rev) (d : Day), r.date = stamp d "05:06:07".toList ∧ Meets (fun _ _ => true) false r.author d (.maxDate d) ∧
    select (fun _ _ => true) [r] (toSelectors none none (some d) none) = [] :=
  ⟨rev1, ⟨2011, 3, 4⟩, rfl, by simp [Meets, Day.Before], by
    have : (select (fun _ _ => true) [rev1] (toSelectors none none (some ⟨2011, 3, 4⟩) none)).length = 0 := by decide +kernel
    exact List.length_eq_zero_iff.mp this⟩

/-- C197, false of the code: with git, `branch=` changes nothing. -/
theorem select_branch_false (hit : Text → Text → Bool) (head : List Rev) (s : Selectors) (b : Option Text) : select hit head { s with branch := b } = select hit head s := rfl

/-- C197: an argument `name=value` without blanks is taken, if the value has no `=`. -/
theorem parseSel_ok (k v : Text) (hk : k ≠ []) (hv : v ≠ []) (he : '=' ∉ v) (hs : (k ++ '=' :: v).any isSpace = false) : parseSel (k ++ '=' :: v) = some (k, v) := by
  unfold parseSel
  have : ∀ k : Text, cutLast '=' (k ++ '=' :: v) = some (k, v) := by
    have hn : ∀ v : Text, '=' ∉ v → cutLast '=' v = none := by
      intro v
      induction v with
      | nil => intro _; rfl
      | cons c v ih =>
        intro h
        simp only [List.mem_cons, not_or] at h
        rw [cutLast, ih h.2]
        simp only
        rw [if_neg (fun e => h.1 e.symm)]
    intro k
    induction k with
    | nil => rw [List.nil_append, cutLast, hn v he]; simp
    | cons c k ih => rw [List.cons_append, cutLast, ih]
  rw [this k]
  simp only
  rw [if_pos ⟨hk, hv, hs⟩]

def kWho : Text := ['w', 'h', 'o']
def kMin : Text := ['m', 'i', 'n', '-', 'd', 'a', 't', 'e']
def kMax : Text := ['m', 'a', 'x', '-', 'd', 'a', 't', 'e']
def kBranch : Text := ['b', 'r', 'a', 'n', 'c', 'h']
def kRepo : Text := ['r', 'e', 'p', 'o']

/-- The value a selector has. -/
def get (s : Selectors) (k : Text) : Option Text :=
  if k = kWho then s.who else if k = kMin then s.minDate else if k = kMax then s.maxDate else if k = kBranch then s.branch else if k = kRepo then s.repo else none

def Known (k : Text) : Prop := k = kWho ∨ k = kMin ∨ k = kMax ∨ k = kBranch ∨ k = kRepo

theorem setSel_ok (s s' : Selectors) (k v : Text) (h : setSel s k v = some s') : Known k ∧ get s k = none ∧ get s' k = some v ∧ ∀ j, j ≠ k → get s' j = get s j := by
  unfold setSel at h
  have e1 : "who".toList = kWho := by decide
  have e2 : "min-date".toList = kMin := by decide
  have e3 : "max-date".toList = kMax := by decide
  have e4 : "branch".toList = kBranch := by decide
  have e5 : "repo".toList = kRepo := by decide
  rw [e1, e2, e3, e4, e5] at h
  by_cases h1 : k = kWho
  · rw [if_pos h1] at h
    subst h1
    split at h
    · cases h
      refine ⟨Or.inl rfl, ?_, ?_, ?_⟩
      · simpa [get]
      · simp [get]
      · intro j hj; simp [get, hj]
    · cases h
  · rw [if_neg h1] at h
    by_cases h2 : k = kMin
    · rw [if_pos h2] at h
      subst h2
      split at h
      · cases h
        refine ⟨Or.inr (Or.inl rfl), ?_, ?_, ?_⟩
        · simpa [get, h1]
        · simp [get, h1]
        · intro j hj; simp [get, hj]
      · cases h
    · rw [if_neg h2] at h
      by_cases h3 : k = kMax
      · rw [if_pos h3] at h
        subst h3
        split at h
        · cases h
          refine ⟨Or.inr (Or.inr (Or.inl rfl)), ?_, ?_, ?_⟩
          · simpa [get, h1, h2]
          · simp [get, h1, h2]
          · intro j hj; simp [get, hj]
        · cases h
      · rw [if_neg h3] at h
        by_cases h4 : k = kBranch
        · rw [if_pos h4] at h
          subst h4
          split at h
          · cases h
            refine ⟨Or.inr (Or.inr (Or.inr (Or.inl rfl))), ?_, ?_, ?_⟩
            · simpa [get, h1, h2, h3]
            · simp [get, h1, h2, h3]
            · intro j hj; simp [get, hj]
          · cases h
        · rw [if_neg h4] at h
          by_cases h5 : k = kRepo
          · rw [if_pos h5] at h
            subst h5
            split at h
            · cases h
              refine ⟨Or.inr (Or.inr (Or.inr (Or.inr rfl))), ?_, ?_, ?_⟩
              · simpa [get, h1, h2, h3, h4]
              · simp [get, h1, h2, h3, h4]
              · intro j hj; simp [get, hj]
            · cases h
          · rw [if_neg h5] at h; cases h

/-- C197: if the arguments are taken, each is `name=value` with a name of the list, no name comes twice, and each selector has the value it was given and no other. -/
theorem parseSels_strict (ts : List Text) : ∀ (s0 s : Selectors), parseSels ts s0 = some s →
    ∃ kvs : List (Text × Text), ts.map parseSel = kvs.map some ∧ (kvs.map (·.1)).Nodup ∧ (∀ x ∈ kvs, Known x.1 ∧ get s0 x.1 = none ∧ get s x.1 = some x.2) ∧
      ∀ k, (∀ x ∈ kvs, x.1 ≠ k) → get s k = get s0 k := by
  induction ts with
  | nil =>
    intro s0 s h
    cases h
    exact ⟨[], rfl, List.nodup_nil, fun _ h => (by cases h), fun _ _ => rfl⟩
  | cons t ts ih =>
    intro s0 s h
    unfold parseSels at h
    cases e : parseSel t with
    | none => rw [e] at h; cases h
    | some kv =>
      obtain ⟨k, v⟩ := kv
      rw [e] at h
      simp only at h
      cases e2 : setSel s0 k v with
      | none => rw [e2] at h; cases h
      | some s1 =>
        rw [e2] at h
        simp only at h
        obtain ⟨a1, a2, a3, a4⟩ := setSel_ok s0 s1 k v e2
        obtain ⟨kvs, i1, i2, i3, i4⟩ := ih s1 s h
        have hne : ∀ x ∈ kvs, x.1 ≠ k := by
          intro x hx hk
          have := (i3 x hx).2.1
          rw [hk, a3] at this; cases this
        refine ⟨(k, v) :: kvs, by rw [List.map_cons, List.map_cons, e, i1], ?_, ?_, ?_⟩
        · rw [List.map_cons, List.nodup_cons]
          refine ⟨?_, i2⟩
          intro hm
          obtain ⟨x, hx, hk⟩ := List.mem_map.mp hm
          exact hne x hx hk
        · intro x hx
          rcases List.mem_cons.mp hx with rfl | hx
          · exact ⟨a1, a2, (i4 k hne).trans a3⟩
          · obtain ⟨b1, b2, b3⟩ := i3 x hx
            exact ⟨b1, (a4 _ (hne x hx)) ▸ b2, b3⟩
        · intro j hj
          have hjk : j ≠ k := fun e => hj (k, v) (List.mem_cons_self ..) e.symm
          rw [i4 j fun x hx => hj x (List.mem_cons_of_mem _ hx)]
          exact a4 j hjk

example : parseSels ["max-date=2011-01-01".toList, "who=a".toList] noSelectors = some { noSelectors with who := some ['a'], maxDate := some "2011-01-01".toList } := by rfl
example : parseSels ["who=a".toList, "who=b".toList] noSelectors = none := by decide +kernel

end Verif.DepVC.Select
