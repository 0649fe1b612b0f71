import Verif.Clock.Scaling

/-!
# C216: what the check for frequency scaling promises
-/

namespace Verif.Clock.Scaling

open Verif

/-! ## What is expected -/

/-- The file holds the line, and nothing keeps it from being read. -/
def Holds (file : Option (List Char)) (line : List Char) : Prop := ∃ rest, file = some (line ++ '\n' :: rest) ∧ '\n' ∉ line ∧ line.length ≤ 78

/-- The frequency of this processor does not change: the governor is `performance`, or both limits are the same and not empty. -/
def Fixed (e : Entry) : Prop :=
  Holds e.governor "performance".toList ∨ ∃ f, f ≠ [] ∧ Holds e.minFreq f ∧ Holds e.maxFreq f

/-- The entry is a processor: `cpu` and a digit. -/
def Cpu (e : Entry) : Prop := ∃ d rest, e.name = 'c' :: 'p' :: 'u' :: d :: rest ∧ '0' ≤ d ∧ d ≤ '9'

/-- Every file is missing or has a first line of at most 78 characters. -/
def Readable (file : Option (List Char)) : Prop := file = none ∨ ∃ line, Holds file line

def ReadableEntry (e : Entry) : Prop := Readable e.minFreq ∧ Readable e.maxFreq ∧ Readable e.governor

/-! ## Lemmas -/

theorem isCpu_iff (e : Entry) : isCpu e.name = true ↔ Cpu e := by
  unfold isCpu Cpu
  constructor
  · intro h
    split at h
    · next d rest hn => exact ⟨d, rest, hn, by simpa using h⟩
    · simp at h
  · rintro ⟨d, rest, hn, h⟩
    rw [hn]
    simpa using h

theorem findIdx_line (line rest : List Char) (h : '\n' ∉ line) : (line ++ '\n' :: rest).findIdx? (· = '\n') = some line.length := by
  induction line with
  | nil => simp [List.findIdx?_cons]
  | cons c line ih =>
    simp only [List.mem_cons, not_or] at h
    rw [List.cons_append, List.findIdx?_cons]
    rw [ih h.2]
    simp [Ne.symm h.1]

theorem read_holds {file : Option (List Char)} {line : List Char} (h : Holds file line) : readFileLine file = .ok line := by
  obtain ⟨rest, rfl, hn, hl⟩ := h
  unfold readFileLine
  have e : (line ++ '\n' :: rest).take 79 = line ++ '\n' :: rest.take (78 - line.length) := by
    rw [List.take_append, List.take_of_length_le (by omega)]
    congr 1
    have : 79 - line.length = (78 - line.length) + 1 := by omega
    rw [this, List.take_succ_cons]
  simp only [e, findIdx_line _ _ hn]
  simp

theorem read_ok {file : Option (List Char)} {line : List Char} (h : readFileLine file = .ok line) : (file = none ∧ line = []) ∨ Holds file line := by
  unfold readFileLine at h
  split at h
  · left; simp at h; exact ⟨rfl, h⟩
  · next text =>
    right
    simp only at h
    split at h
    · next i hi =>
      simp only [Res.ok.injEq] at h
      rw [List.findIdx?_eq_some_iff_getElem] at hi
      obtain ⟨hlt, hat, hbef⟩ := hi
      simp only [List.length_take] at hlt
      have htake : (text.take 79).take i = text.take i := by rw [List.take_take]; congr 1; omega
      rw [htake] at h
      refine ⟨text.drop (i + 1), ?_, ?_, ?_⟩
      · rw [← h]
        simp only [List.getElem_take, decide_eq_true_eq] at hat
        have hd : text.drop i = '\n' :: text.drop (i + 1) := by
          rw [List.drop_eq_getElem_cons (by omega), hat]
        rw [← hd, List.take_append_drop]
      · rw [← h]
        intro hm
        obtain ⟨j, hj, e⟩ := List.mem_iff_getElem.mp hm
        simp only [List.length_take] at hj
        simp only [List.getElem_take] at e
        have := hbef j (by omega)
        simp [e] at this
      · rw [← h]; simp; omega
    · simp at h

theorem read_not_ub (file : Option (List Char)) : readFileLine file ≠ .ub := by
  unfold readFileLine
  split
  · simp
  · simp only; split <;> simp

theorem read_abort {file : Option (List Char)} : readFileLine file = .abort ↔ ¬ Readable file := by
  constructor
  · rintro h (rfl | ⟨line, hl⟩)
    · simp [readFileLine] at h
    · rw [read_holds hl] at h; simp at h
  · intro h
    match hr : readFileLine file with
    | .abort => rfl
    | .ub => exact absurd hr (read_not_ub file)
    | .ok line =>
      rcases read_ok hr with ⟨h1, _⟩ | h1
      · exact absurd (.inl h1) h
      · exact absurd (.inr ⟨line, h1⟩) h

theorem fixed_iff {e : Entry} {lo hi gov : List Char} (h1 : readFileLine e.minFreq = .ok lo) (h2 : readFileLine e.maxFreq = .ok hi) (h3 : readFileLine e.governor = .ok gov) :
    (gov = "performance".toList ∨ (lo ≠ [] ∧ lo = hi)) ↔ Fixed e := by
  constructor
  · rintro (h | ⟨hne, heq⟩)
    · subst h
      rcases read_ok h3 with ⟨_, h⟩ | h
      · exact absurd h (by decide)
      · exact .inl h
    · subst heq
      rcases read_ok h1 with ⟨_, h⟩ | h
      · exact absurd h hne
      rcases read_ok h2 with ⟨_, h'⟩ | h'
      · exact absurd h' hne
      exact .inr ⟨lo, hne, h, h'⟩
  · rintro (h | ⟨f, hne, ha, hb⟩)
    · rw [read_holds h] at h3
      left; simpa using h3.symm
    · rw [read_holds ha] at h1
      rw [read_holds hb] at h2
      simp only [Res.ok.injEq] at h1 h2
      right; subst h1; exact ⟨hne, h2⟩

theorem loop_false : ∀ (l : List Entry) (n : Nat), loop n l = .ok false ↔ (n ≠ 0 ∨ ∃ e ∈ l, Cpu e) ∧ ∀ e ∈ l, Cpu e → ReadableEntry e ∧ Fixed e := by
  intro l
  induction l with
  | nil => intro n; simp [loop]
  | cons e l ih =>
    intro n
    rw [loop]
    by_cases hc : isCpu e.name = true
    · have hC := (isCpu_iff e).mp hc
      rw [if_pos hc]
      have key : (∃ lo hi gov, readFileLine e.minFreq = .ok lo ∧ readFileLine e.maxFreq = .ok hi ∧ readFileLine e.governor = .ok gov) ∨ ¬ ReadableEntry e := by
        by_cases hr : ReadableEntry e
        · left
          have f : ∀ file, Readable file → ∃ x, readFileLine file = .ok x := by
            rintro file (rfl | ⟨line, hl⟩)
            · exact ⟨[], rfl⟩
            · exact ⟨line, read_holds hl⟩
          obtain ⟨lo, h1⟩ := f _ hr.1
          obtain ⟨hi, h2⟩ := f _ hr.2.1
          obtain ⟨gov, h3⟩ := f _ hr.2.2
          exact ⟨lo, hi, gov, h1, h2, h3⟩
        · exact .inr hr
      rcases key with ⟨lo, hi, gov, h1, h2, h3⟩ | hr
      · have hR : ReadableEntry e := by
          refine ⟨?_, ?_, ?_⟩
          · apply Classical.byContradiction; intro h; rw [read_abort.mpr h] at h1; simp at h1
          · apply Classical.byContradiction; intro h; rw [read_abort.mpr h] at h2; simp at h2
          · apply Classical.byContradiction; intro h; rw [read_abort.mpr h] at h3; simp at h3
        simp only [h1, h2, h3]
        by_cases hf : gov = "performance".toList ∨ (lo ≠ [] ∧ lo = hi)
        · have hF := (fixed_iff h1 h2 h3).mp hf
          rw [if_pos hf, ih]
          constructor
          · rintro ⟨_, h⟩
            refine ⟨.inr ⟨e, by simp, hC⟩, ?_⟩
            intro x hx hxc
            rcases List.mem_cons.mp hx with rfl | hx
            · exact ⟨hR, hF⟩
            · exact h x hx hxc
          · rintro ⟨_, h⟩
            exact ⟨.inl (by omega), fun x hx => h x (by simp [hx])⟩
        · rw [if_neg hf]
          constructor
          · intro h; simp at h
          · rintro ⟨_, h⟩
            exact absurd ((fixed_iff h1 h2 h3).mpr (h e (by simp) hC).2) hf
      · constructor
        · intro h
          exfalso
          apply hr
          split at h
          · split at h
            · split at h
              · next a _ b _ c => 
                refine ⟨?_, ?_, ?_⟩ <;> (apply Classical.byContradiction; intro h'; rw [read_abort.mpr h'] at *; simp_all)
              · simp at h
              · simp at h
            · simp at h
            · simp at h
          · simp at h
          · simp at h
        · rintro ⟨_, h⟩
          exact absurd (h e (by simp) hC).1 hr
    · have hC : ¬ Cpu e := fun h => hc ((isCpu_iff e).mpr h)
      rw [if_neg hc, ih]
      constructor
      · rintro ⟨h1, h2⟩
        refine ⟨?_, ?_⟩
        · rcases h1 with h1 | ⟨x, hx, hxc⟩
          · exact .inl h1
          · exact .inr ⟨x, by simp [hx], hxc⟩
        · intro x hx hxc
          rcases List.mem_cons.mp hx with rfl | hx
          · exact absurd hxc hC
          · exact h2 x hx hxc
      · rintro ⟨h1, h2⟩
        refine ⟨?_, fun x hx => h2 x (by simp [hx])⟩
        rcases h1 with h1 | ⟨x, hx, hxc⟩
        · exact .inl h1
        · rcases List.mem_cons.mp hx with rfl | hx
          · exact absurd hxc hC
          · exact .inr ⟨x, hx, hxc⟩

theorem loop_true_of_unfixed : ∀ (l : List Entry) (n : Nat), (∀ e ∈ l, Cpu e → ReadableEntry e) → (n ≠ 0 ∨ ∃ e ∈ l, Cpu e) → ∃ b, loop n l = .ok b := by
  intro l
  induction l with
  | nil => intro n _ h; rcases h with h | ⟨x, hx, _⟩
           · exact ⟨false, by simp [loop, h]⟩
           · simp at hx
  | cons e l ih =>
    intro n hr h
    rw [loop]
    by_cases hc : isCpu e.name = true
    · have hC := (isCpu_iff e).mp hc
      have hR := hr e (by simp) hC
      rw [if_pos hc]
      have f : ∀ file, Readable file → ∃ x, readFileLine file = .ok x := by
        rintro file (rfl | ⟨line, hl⟩)
        · exact ⟨[], rfl⟩
        · exact ⟨line, read_holds hl⟩
      obtain ⟨lo, h1⟩ := f _ hR.1
      obtain ⟨hi, h2⟩ := f _ hR.2.1
      obtain ⟨gov, h3⟩ := f _ hR.2.2
      simp only [h1, h2, h3]
      split
      · exact ih _ (fun x hx => hr x (by simp [hx])) (.inl (by omega))
      · exact ⟨true, rfl⟩
    · rw [if_neg hc]
      refine ih _ (fun x hx => hr x (by simp [hx])) ?_
      rcases h with h | ⟨x, hx, hxc⟩
      · exact .inl h
      · rcases List.mem_cons.mp hx with rfl | hx
        · exact absurd ((isCpu_iff _).mpr hxc) hc
        · exact .inr ⟨x, hx, hxc⟩

/-! ## The properties -/

/-- The check says that frequencies are fixed exactly when it found a processor and the files of every one of them say so. -/
theorem scaling_excluded_iff (dir : Option (List Entry)) :
    doCFPFS dir = .ok false ↔ ∃ l, dir = some l ∧ (∃ e ∈ l, Cpu e) ∧ ∀ e ∈ l, Cpu e → ReadableEntry e ∧ Fixed e := by
  cases dir with
  | none => simp [doCFPFS]
  | some l =>
    rw [doCFPFS, loop_false]
    simp

/-- With readable files and a processor the check does not stop the program, and a directory that cannot be read counts as possible scaling. -/
theorem scaling_answers (l : List Entry) (hc : ∃ e ∈ l, Cpu e) (hr : ∀ e ∈ l, Cpu e → ReadableEntry e) :
    (doCFPFS (some l) = .ok false ∨ doCFPFS (some l) = .ok true) ∧ doCFPFS none = .ok true := by
  obtain ⟨b, h⟩ := loop_true_of_unfixed l 0 hr (.inr hc)
  refine ⟨?_, rfl⟩
  rw [doCFPFS, h]
  cases b <;> simp

/-- Calibration that is only allowed without scaling goes on exactly when the check has excluded it. -/
theorem no_scaling_allowed (dir : Option (List Entry)) (r : Bool × Bool) : check .no dir = .ok r ↔ doCFPFS dir = .ok false ∧ r = (false, false) := by
  unfold check
  match h : doCFPFS dir with
  | .ok false => simp [eq_comm]
  | .ok true => simp
  | .abort => simp
  | .ub => simp

/-- The flag is what the check said, and a warning is logged for possible scaling exactly in the two modes that ask for one. -/
theorem scaling_warned (allow : Allow) (dir : Option (List Entry)) (may warned : Bool) (h : check allow dir = .ok (may, warned)) :
    doCFPFS dir = .ok may ∧ (warned = true ↔ may = true ∧ (allow = .warnFast ∨ allow = .warnSlow)) := by
  unfold check at h
  match hd : doCFPFS dir with
  | .ok false =>
    simp only [hd, Res.ok.injEq, Prod.mk.injEq] at h
    obtain ⟨rfl, rfl⟩ := h
    simp
  | .ok true =>
    simp only [hd] at h
    cases allow <;> simp at h <;> obtain ⟨rfl, rfl⟩ := h <;> simp
  | .abort => simp [hd] at h
  | .ub => simp [hd] at h

/-- The hypotheses can be met: a processor with equal limits, one with the governor `performance`, and an entry that is no processor. -/
example :
    let l : List Entry := [⟨"cpu0".toList, some "800\n".toList, some "800\n".toList, some "powersave\n".toList⟩, ⟨"cpufreq".toList, none, none, none⟩, ⟨"cpu12".toList, none, some "9\n".toList, some "performance\n".toList⟩]
    doCFPFS (some l) = .ok false ∧ check .no (some l) = .ok (false, false) ∧ (∃ e ∈ l, Cpu e) ∧
      doCFPFS (some (⟨"cpu1".toList, some "800\n".toList, some "900\n".toList, some "powersave\n".toList⟩ :: l)) = .ok true ∧
      check .warnSlow (some (⟨"cpu1".toList, none, none, none⟩ :: l)) = .ok (true, true) := by
  refine ⟨by decide, by decide, ⟨_, List.mem_cons_self, '0', [], rfl, by decide, by decide⟩, by decide, by decide⟩

/-- A directory without processors, or a file without a line end, stops the program, although "possible scaling" would have been an answer. -/
theorem scaling_stops_false : check .warnFast (some [⟨"cpufreq".toList, none, none, none⟩]) = .abort ∧
    check .warnFast (some [⟨"cpu0".toList, some "800".toList, none, some "performance\n".toList⟩]) = .abort := by decide

end Verif.Clock.Scaling
