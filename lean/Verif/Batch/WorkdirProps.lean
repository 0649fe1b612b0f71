import Verif.Batch.Workdir

/-! # batch-parallel: old working directories (C258) -/

namespace Verif.Batch.Workdir

open Verif.Deptool.Deps (Text)

/-! ## Specification -/

def Digits (k : Nat) (t : Text) : Prop := t.length = k ∧ ∀ c ∈ t, c.isDigit = true

/-- The name of a working directory: something, then the time it was made. -/
def Named (n : Text) : Prop := ∃ p y mo d h mi s : Text, p ≠ [] ∧ Digits 4 y ∧ Digits 2 mo ∧ Digits 2 d ∧ Digits 2 h ∧ Digits 2 mi ∧ Digits 2 s ∧
  n = p ++ (y ++ '-' :: (mo ++ '-' :: (d ++ 'T' :: (h ++ ':' :: (mi ++ ':' :: s)))))

/-- The files whose times count: names that begin with joblist or end in log and a number. -/
def Counts (n : Text) : Prop := "joblist".toList <+: n ∨ ∃ a d : Text, n = a ++ ("log.".toList ++ d) ∧ d ≠ [] ∧ ∀ c ∈ d, c.isDigit = true

/-- A working directory whose list of jobs and logs have not changed for more than seven days. -/
def Old (now : Nat) (d : Text × List Entry) : Prop := Named d.1 ∧ ∀ e ∈ d.2, Counts e.name → e.mtime + 604800 < now

/-! ## Lemmas -/

theorem fits_none (k : Nat) (p : List (Option Char)) (t : Text) : fits (List.replicate k none ++ p) t = true ↔ ∃ a b : Text, t = a ++ b ∧ Digits k a ∧ fits p b = true := by
  induction k generalizing t with
  | zero =>
    constructor
    · intro h; exact ⟨[], t, rfl, ⟨rfl, by simp⟩, h⟩
    · rintro ⟨a, b, rfl, ⟨h1, -⟩, h2⟩
      rw [List.length_eq_zero_iff.mp h1]
      exact h2
  | succ k ih =>
    rw [List.replicate_succ, List.cons_append]
    cases t with
    | nil =>
      simp only [fits]
      constructor
      · intro h; cases h
      · rintro ⟨a, b, h, ⟨h1, -⟩, -⟩
        have := congrArg List.length h
        rw [List.length_append, h1, List.length_nil] at this
        omega
    | cons c t =>
      simp only [fits, Bool.and_eq_true, ih]
      constructor
      · rintro ⟨hc, a, b, rfl, ⟨h1, h2⟩, h3⟩
        refine ⟨c :: a, b, rfl, ⟨by simp [h1], ?_⟩, h3⟩
        intro x hx
        rcases List.mem_cons.mp hx with rfl | hx
        · exact hc
        · exact h2 x hx
      · rintro ⟨a, b, h, ⟨h1, h2⟩, h3⟩
        cases a with
        | nil => simp at h1
        | cons x a =>
          cases h
          exact ⟨h2 _ (by simp), a, b, rfl, ⟨by simpa using h1, fun y hy => h2 y (by simp [hy])⟩, h3⟩

theorem fits_some (d : Char) (p : List (Option Char)) (t : Text) : fits (some d :: p) t = true ↔ ∃ b : Text, t = d :: b ∧ fits p b = true := by
  cases t with
  | nil => simp [fits]
  | cons c t =>
    simp only [fits, Bool.and_eq_true, beq_iff_eq, List.cons.injEq]
    constructor
    · rintro ⟨rfl, h⟩; exact ⟨t, ⟨rfl, rfl⟩, h⟩
    · rintro ⟨b, ⟨rfl, rfl⟩, h⟩; exact ⟨rfl, h⟩

theorem fits_nil (t : Text) : fits [] t = true ↔ t = [] := by
  cases t <;> simp [fits]

theorem fits_stamp (t : Text) : fits stampPat t = true ↔ ∃ y mo d h mi s : Text, Digits 4 y ∧ Digits 2 mo ∧ Digits 2 d ∧ Digits 2 h ∧ Digits 2 mi ∧ Digits 2 s ∧
    t = y ++ '-' :: (mo ++ '-' :: (d ++ 'T' :: (h ++ ':' :: (mi ++ ':' :: s)))) := by
  have e : stampPat = List.replicate 4 none ++ some '-' :: (List.replicate 2 none ++ some '-' :: (List.replicate 2 none ++ some 'T' ::
      (List.replicate 2 none ++ some ':' :: (List.replicate 2 none ++ some ':' :: (List.replicate 2 none ++ []))))) := rfl
  rw [e]
  simp only [fits_none, fits_some, fits_nil]
  constructor
  · rintro ⟨y, _, rfl, hy, _, rfl, mo, _, rfl, hmo, _, rfl, d, _, rfl, hd, _, rfl, h, _, rfl, hh, _, rfl, mi, _, rfl, hmi, _, rfl, s, _, rfl, hs, rfl⟩
    exact ⟨y, mo, d, h, mi, s, hy, hmo, hd, hh, hmi, hs, by simp⟩
  · rintro ⟨y, mo, d, h, mi, s, hy, hmo, hd, hh, hmi, hs, rfl⟩
    exact ⟨y, _, rfl, hy, _, rfl, mo, _, rfl, hmo, _, rfl, d, _, rfl, hd, _, rfl, h, _, rfl, hh, _, rfl, mi, _, rfl, hmi, _, rfl, s, [], by simp, hs, rfl⟩

theorem stamped_iff (n : Text) : stamped n = true ↔ Named n := by
  unfold stamped Named
  rw [Bool.and_eq_true, decide_eq_true_eq, fits_stamp]
  constructor
  · rintro ⟨hl, y, mo, d, h, mi, s, h1, h2, h3, h4, h5, h6, e⟩
    refine ⟨n.take (n.length - 19), y, mo, d, h, mi, s, ?_, h1, h2, h3, h4, h5, h6, ?_⟩
    · intro e0
      have := congrArg List.length e0
      rw [List.length_take, List.length_nil] at this
      omega
    · rw [← e, List.take_append_drop]
  · rintro ⟨p, y, mo, d, h, mi, s, hp, h1, h2, h3, h4, h5, h6, rfl⟩
    have hlen : (y ++ '-' :: (mo ++ '-' :: (d ++ 'T' :: (h ++ ':' :: (mi ++ ':' :: s))))).length = 19 := by
      simp only [List.length_append, List.length_cons, h1.1, h2.1, h3.1, h4.1, h5.1, h6.1]
    have hpl : 0 < p.length := List.length_pos_iff.mpr hp
    refine ⟨by rw [List.length_append, hlen]; omega, y, mo, d, h, mi, s, h1, h2, h3, h4, h5, h6, ?_⟩
    rw [List.length_append, hlen, Nat.add_sub_cancel, List.drop_left]

theorem take_digits (t : Text) : ∀ c ∈ t.takeWhile Char.isDigit, c.isDigit = true := by
  have := List.all_takeWhile (p := Char.isDigit) (l := t)
  rw [List.all_eq_true] at this
  exact this

theorem span_digits (a b : Text) (ha : ∀ c ∈ a, c.isDigit = true) (x : Char) (hx : x.isDigit = false) :
    (a ++ x :: b).takeWhile Char.isDigit = a ∧ (a ++ x :: b).dropWhile Char.isDigit = x :: b := by
  induction a with
  | nil => simp [hx]
  | cons c a ih =>
    obtain ⟨h1, h2⟩ := ih fun y hy => ha y (by simp [hy])
    have hc := ha c (by simp)
    rw [List.cons_append, List.takeWhile_cons, List.dropWhile_cons, if_pos hc, if_pos hc]
    exact ⟨congrArg (c :: ·) h1, h2⟩

theorem isLog_iff (n : Text) : isLog n = true ↔ Counts n := by
  unfold isLog Counts endsLog
  rw [Bool.or_eq_true, List.isPrefixOf_iff_prefix]
  refine or_congr Iff.rfl ?_
  rw [Bool.and_eq_true, List.isPrefixOf_iff_prefix]
  constructor
  · rintro ⟨h1, r, hr⟩
    refine ⟨r.reverse, (n.reverse.takeWhile Char.isDigit).reverse, ?_, by simpa using h1, fun c hc => take_digits n.reverse c (by simpa using hc)⟩
    have hs := List.takeWhile_append_dropWhile (p := Char.isDigit) (l := n.reverse)
    rw [← hr] at hs
    have := congrArg List.reverse hs
    rw [List.reverse_reverse, List.reverse_append, List.reverse_append, List.append_assoc] at this
    exact this.symm
  · rintro ⟨a, d, rfl, hd, hdd⟩
    have hr : (a ++ ("log.".toList ++ d)).reverse = d.reverse ++ '.' :: ('g' :: 'o' :: 'l' :: a.reverse) := by
      rw [List.reverse_append, List.reverse_append, List.append_assoc]
      rfl
    obtain ⟨h1, h2⟩ := span_digits d.reverse ('g' :: 'o' :: 'l' :: a.reverse) (fun c hc => hdd c (by simpa using hc)) '.' (by decide)
    rw [hr, h1, h2]
    exact ⟨by simpa using hd, a.reverse, rfl⟩

theorem recent_iff (now : Nat) (es : List Entry) : recent now es = true ↔ ∃ e ∈ es, Counts e.name ∧ now ≤ e.mtime + 604800 := by
  unfold recent
  simp only [List.any_eq_true, Bool.and_eq_true, isLog_iff, decide_eq_true_eq]
  exact Iff.rfl

theorem old_iff (now : Nat) (n : Text) (es : List Entry) : (stamped n && !recent now es) = true ↔ Old now (n, es) := by
  unfold Old
  rw [Bool.and_eq_true, stamped_iff]
  refine and_congr Iff.rfl ?_
  rw [Bool.not_eq_true', ← Bool.not_eq_true, recent_iff]
  constructor
  · intro h e he hc
    exact Nat.lt_of_not_le fun hle => h ⟨e, he, hc, hle⟩
  · rintro h ⟨e, he, hc, hle⟩
    exact Nat.not_lt.mpr hle (h e he hc)

instance (now : Nat) (d : Text × List Entry) : Decidable (Old now d) := decidable_of_iff _ (old_iff now d.1 d.2)

theorem removeAll_none (es : List Entry) : removeAll es = none ↔ ∀ e ∈ es, e.isDir = false := by
  induction es with
  | nil => simp [removeAll]
  | cons e es ih =>
    rw [removeAll]
    split
    · rename_i h
      simp [h]
    · rename_i h
      rw [ih]
      simp [h]

/-! ## C258 -/

/-- Exactly the old working directories are removed, and everything else stays as it is, if they have no directories in them. -/
theorem cleanup_exact_partial (now : Nat) (fs : List (Text × List Entry)) (h : ∀ d ∈ fs, ∀ e ∈ d.2, e.isDir = false) :
    cleanup false now fs = (fs.filter fun d => ¬ Old now d, false) := by
  induction fs with
  | nil => rfl
  | cons d fs ih =>
    obtain ⟨n, es⟩ := d
    have ih := ih fun d hd => h d (by simp [hd])
    rw [cleanup]
    by_cases ho : Old now (n, es)
    · rw [if_pos (by simp [(old_iff now n es).mpr ho]), (removeAll_none es).mpr (h (n, es) (by simp)), List.filter_cons, if_neg (by simpa using ho)]
      exact ih
    · have hb : (stamped n && !recent now es) = false := by
        cases hx : stamped n && !recent now es with
        | false => rfl
        | true => exact absurd ((old_iff now n es).mp hx) ho
      rw [if_neg (by simp [hb]), List.filter_cons, if_pos (by simpa using ho), ih]

/-- Whatever is in them: what is not an old working directory stays as it is. -/
theorem others_kept (noExec : Bool) (now : Nat) (fs : List (Text × List Entry)) (d : Text × List Entry) (hd : d ∈ fs) (ho : ¬ Old now d) : d ∈ (cleanup noExec now fs).1 := by
  induction fs with
  | nil => cases hd
  | cons x fs ih =>
    obtain ⟨n, es⟩ := x
    rw [cleanup]
    split
    · rename_i hc
      have hold : Old now (n, es) := (old_iff now n es).mp (by
        rw [Bool.and_eq_true] at hc
        exact hc.1)
      have hd' : d ∈ fs := by
        rcases List.mem_cons.mp hd with rfl | h
        · exact absurd hold ho
        · exact h
      split
      · exact ih hd'
      · exact List.mem_cons_of_mem _ hd'
    · rcases List.mem_cons.mp hd with rfl | h
      · exact List.mem_cons_self
      · exact List.mem_cons_of_mem _ (ih h)

/-- With --noexec nothing is removed. -/
theorem noexec_keeps (now : Nat) (fs : List (Text × List Entry)) : cleanup true now fs = (fs, false) := by
  induction fs with
  | nil => rfl
  | cons d fs ih =>
    obtain ⟨n, es⟩ := d
    rw [cleanup, if_neg (by simp), ih]

def wd : Text := ['m', '.', '2', '0', '0', '9', '-', '0', '1', '-', '0', '2', 'T', '0', '3', ':', '0', '4', ':', '0', '5']

/-- False: that a directory made a moment ago stays: as long as there is no list of jobs and no log in it, it is removed at once, with what is in it, however new that is. -/
theorem new_removed_false (now : Nat) (es : List Entry) (h : ∀ e ∈ es, ¬ Counts e.name ∧ e.isDir = false) : cleanup false now [(wd, es)] = ([], false) := by
  have ho : Old now (wd, es) := ⟨(stamped_iff wd).mp (by decide), fun e he hc => absurd hc (h e he).1⟩
  rw [cleanup_exact_partial now [(wd, es)] (fun d hd e he => by
    rw [List.mem_singleton] at hd
    subst hd
    exact (h e he).2), List.filter_cons, if_neg (by simpa using ho)]
  rfl

/-- False: that an old directory is removed as a whole or not at all, and that one failure does not stop the others. -/
theorem half_removed_false : ∃ (now : Nat) (a b : Entry), a.isDir = false ∧ cleanup false now [(wd, [a, b]), (wd, [])] = ([(wd, [b]), (wd, [])], true) :=
  ⟨1000000, ⟨['j', 'o', 'b', 'l', 'i', 's', 't'], 5, false⟩, ⟨['o', 'u', 't'], 5, true⟩, rfl, by decide⟩

theorem digitChar_digit (n : Nat) : (Nat.digitChar (n % 10)).isDigit = true := by
  have h : ∀ k : Fin 10, (Nat.digitChar k.val).isDigit = true := by decide
  exact h ⟨n % 10, Nat.mod_lt _ (by decide)⟩

theorem named_colon (n : Text) (h : Named n) : n.reverse[2]? = some ':' := by
  obtain ⟨p, y, mo, d, hh, mi, s, -, -, -, -, -, -, hs, rfl⟩ := h
  obtain ⟨hl, -⟩ := hs
  match s, hl with
  | [a, b], _ => simp

theorem dirName_digit (host : Text) (y mo d h mi s us : Nat) : ∃ c : Char, (dirName host y mo d h mi s us).reverse[2]? = some c ∧ c.isDigit = true := by
  refine ⟨Nat.digitChar (us / 10 / 10 % 10), ?_, digitChar_digit _⟩
  simp [dirName, digs]

/-- False: that the working directories of the program are removed after a week. No name that it makes has the form that the cleaning looks for, because of the rest of the second at its end: they stay for ever. -/
theorem own_never_removed_false (host : Text) (y mo d h mi s us : Nat) (noExec : Bool) (now : Nat) (fs : List (Text × List Entry)) (es : List Entry)
    (hm : (dirName host y mo d h mi s us, es) ∈ fs) : (dirName host y mo d h mi s us, es) ∈ (cleanup noExec now fs).1 := by
  refine others_kept noExec now fs _ hm ?_
  rintro ⟨hn, -⟩
  obtain ⟨c, h1, h2⟩ := dirName_digit host y mo d h mi s us
  rw [named_colon _ hn] at h1
  cases h1
  revert h2
  decide

/-! ### The hypotheses are met -/

example : String.ofList (dirName ['h'] 2009 1 2 3 4 5 678) = "h--2009-01-02T03:04:05.000678" := by decide


example : Old 1000000 (wd, [⟨['l', 'o', 'g', '.', '1'], 7, false⟩]) := by decide

example : ¬ Old 1000000 (wd, [⟨['l', 'o', 'g', '.', '1'], 395200, false⟩]) ∧ ¬ Old 1000000 (['w'], []) := by decide

example : ¬ Counts ['o', 'u', 't'] := fun h => absurd ((isLog_iff _).mpr h) (by decide)

end Verif.Batch.Workdir
