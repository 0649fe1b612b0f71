import Verif.Batch.Files

/-! # C127: built files are whole -/

namespace Verif.Batch.Files
variable {C : Type}

def Ok (orig : Nat → Option C) (d : Nat → Nat) (s : State C) (k : Nat) : Prop :=
  match s.phase k with
  | .idle | .running => s.dest (d k) = orig (d k) ∧ ∀ x ∈ s.log, x.thing ≠ k
  | .failed => s.dest (d k) = orig (d k) ∧ ∀ x ∈ s.log, x.thing = k → x.ok = false
  | .succeeded => s.dest (d k) = orig (d k) ∧ (⟨k, true, s.new (d k)⟩ : Finished C) ∈ s.log ∧ ∀ x ∈ s.log, x.thing = k → x.ok = true
  | .unlinked => s.dest (d k) = none ∧ (∃ c, s.new (d k) = some c ∧ (⟨k, true, some c⟩ : Finished C) ∈ s.log) ∧ ∀ x ∈ s.log, x.thing = k → x.ok = true
  | .moved => (∃ c, s.dest (d k) = some c ∧ (⟨k, true, some c⟩ : Finished C) ∈ s.log) ∧ ∀ x ∈ s.log, x.thing = k → x.ok = true

theorem ok_step {orig : Nat → Option C} {d : Nat → Nat} (hd : ∀ i j, d i = d j → i = j) {s : State C} (h : ∀ k, Ok orig d s k) (m : Move C) (k : Nat) : Ok orig d (step d s m) k := by
  have hk := h k
  have hdk : ∀ j, d k = d j → k = j := hd k
  cases m with
  | start j =>
    simp only [step]
    split
    · exact hk
    · rename_i hc
      have hj : s.phase j = .idle := by simp at hc; exact hc.2
      unfold Ok at hk ⊢
      by_cases hkj : k = j
      · subst hkj
        simp only [upd, if_true]
        rw [hj] at hk
        exact hk
      · simp only [upd, if_neg hkj]
        exact hk
  | write j c =>
    simp only [step]
    split
    · exact hk
    · rename_i hc
      have hj : s.phase j = .running := by simpa using hc
      unfold Ok at hk ⊢
      by_cases hkj : k = j
      · subst hkj
        simp only [hj] at hk ⊢
        exact hk
      · have hne : d k ≠ d j := fun e => hkj (hdk j e)
        simp only [upd, if_neg hne]
        exact hk
  | exit j ok =>
    simp only [step]
    split
    · exact hk
    · rename_i hc
      have hj : s.phase j = .running := by simpa using hc
      unfold Ok at hk ⊢
      by_cases hkj : k = j
      · subst hkj
        simp only [upd, if_true]
        rw [hj] at hk
        obtain ⟨h1, h2⟩ := hk
        cases ok with
        | true =>
          refine ⟨h1, by simp, ?_⟩
          intro x hx hxk
          rcases List.mem_cons.1 hx with rfl | hx
          · rfl
          · exact absurd hxk (h2 x hx)
        | false =>
          refine ⟨h1, ?_⟩
          intro x hx hxk
          rcases List.mem_cons.1 hx with rfl | hx
          · rfl
          · exact absurd hxk (h2 x hx)
      · simp only [upd, if_neg hkj]
        have hne : j ≠ k := fun e => hkj e.symm
        generalize hp : s.phase k = p at hk ⊢
        cases p <;> simp only [List.mem_cons, forall_eq_or_imp] at hk ⊢ <;> grind
  | unlink j =>
    simp only [step]
    split
    · exact hk
    · rename_i hc
      have hj : s.phase j = .succeeded := by simp at hc; exact hc.2
      split
      · exact hk
      · rename_i hn
        unfold Ok at hk ⊢
        by_cases hkj : k = j
        · subst hkj
          simp only [upd, if_true]
          rw [hj] at hk
          obtain ⟨h1, h2, h3⟩ := hk
          refine ⟨trivial, ?_, h3⟩
          cases hq : s.new (d k) with
          | none => simp [hq] at hn
          | some c => rw [hq] at h2; exact ⟨c, rfl, h2⟩
        · have hne : d k ≠ d j := fun e => hkj (hdk j e)
          simp only [upd, if_neg hne, if_neg hkj]
          exact hk
  | rename j =>
    simp only [step]
    split
    · exact hk
    · rename_i hc
      have hj : s.phase j = .unlinked := by simp at hc; exact hc.2
      split
      · exact hk
      · unfold Ok at hk ⊢
        by_cases hkj : k = j
        · subst hkj
          simp only [upd, if_true]
          rw [hj] at hk
          obtain ⟨h1, ⟨c, h2, h3⟩, h4⟩ := hk
          exact ⟨⟨c, h2, h3⟩, h4⟩
        · have hne : d k ≠ d j := fun e => hkj (hdk j e)
          simp only [upd, if_neg hne, if_neg hkj]
          exact hk
  | stop => exact hk

theorem ok_run {orig : Nat → Option C} {d : Nat → Nat} (hd : ∀ i j, d i = d j → i = j) (ms : List (Move C)) {s : State C} (h : ∀ k, Ok orig d s k) (k : Nat) : Ok orig d (run d s ms) k := by
  induction ms generalizing s with
  | nil => exact h k
  | cons m ms ih => exact ih (fun k => ok_step hd h m k)

/-- **C127.** If no two things have the same destination: at every moment, also after the program was stopped, a destination is as it was, or it is what its child had left when that ended with success, complete, or it is missing for the moment and its complete new contents are in
`<dest>-new`. A child that failed changes nothing. -/
theorem files_whole_partial {d : Nat → Nat} (hd : ∀ i j, d i = d j → i = j) (orig : Nat → Option C) (ms : List (Move C)) (k : Nat) :
    let s := run d { dest := orig } ms
    (s.dest (d k) = orig (d k) ∨ ∃ c, (⟨k, true, some c⟩ : Finished C) ∈ s.log ∧ (s.dest (d k) = some c ∨ s.dest (d k) = none ∧ s.new (d k) = some c)) ∧
    ((∃ left, (⟨k, false, left⟩ : Finished C) ∈ s.log) → s.dest (d k) = orig (d k)) := by
  intro s
  have h : Ok orig d s k := ok_run hd ms (s := { dest := orig }) (fun k => by show orig (d k) = orig (d k) ∧ _; exact ⟨rfl, by simp⟩) k
  unfold Ok at h
  generalize hp : s.phase k = p at h
  cases p with
  | idle => exact ⟨.inl h.1, fun _ => h.1⟩
  | running => exact ⟨.inl h.1, fun _ => h.1⟩
  | failed => exact ⟨.inl h.1, fun _ => h.1⟩
  | succeeded => exact ⟨.inl h.1, fun _ => h.1⟩
  | unlinked =>
    obtain ⟨h1, ⟨c, h2, h3⟩, h4⟩ := h
    refine ⟨.inr ⟨c, h3, .inr ⟨h1, h2⟩⟩, ?_⟩
    rintro ⟨left, hl⟩
    exact absurd (h4 _ hl rfl) (by simp)
  | moved =>
    obtain ⟨⟨c, h2, h3⟩, h4⟩ := h
    refine ⟨.inr ⟨c, h3, .inl h2⟩, ?_⟩
    rintro ⟨left, hl⟩
    exact absurd (h4 _ hl rfl) (by simp)

/-- One thing is built in two writes and one fails. -/
example : let s := run (fun k => k) { dest := fun _ => some "old" } [.start 0, .start 1, .write 0 (some "ha"), .write 1 (some "x"), .write 0 (some "half"), .exit 1 false, .exit 0 true, .unlink 0, .rename 0]
    s.dest 0 = some "half" ∧ s.dest 1 = some "old" := by decide

/-- **C127.** False: a destination that was there is missing, when the program is stopped between removing and renaming (renaming alone would have replaced it). -/
theorem missing_false (old new : C) : let s := run (fun k => k) { dest := fun _ => some old } [.start 0, .write 0 (some new), .exit 0 true, .unlink 0, .stop, .rename 0]
    s.dest 0 = none := rfl

/-- **C127.** False if two things have the same destination: a destination is half of something, although no child ended having left that. -/
theorem shared_dest_false (old a half : C) (h : half ≠ a) : let s := run (fun _ => 0) { dest := fun _ => some old } [.start 0, .start 1, .write 0 (some a), .exit 0 true, .write 1 (some half), .unlink 0, .rename 0]
    s.dest 0 = some half ∧ ∀ x ∈ s.log, x.left ≠ some half := by
  refine ⟨rfl, ?_⟩
  intro x hx
  have : x = ⟨0, true, some a⟩ := by simpa [run, step, upd] using hx
  subst this
  simpa using fun e => h e.symm

/-- **C127.** A thing is built exactly when its destination is missing or older than its source, in whole seconds. So after a source was changed later than its destination was written, it is built again. -/
theorem needs_build (dest : Option Int) (src : Int) : needsBuild dest src = true ↔ dest = none ∨ ∃ t, dest = some t ∧ t < src := by
  cases dest with
  | none => simp [needsBuild]
  | some t => simp [needsBuild, fileOlder]

example : needsBuild (some 5) 6 = true ∧ needsBuild (some 6) 6 = false := by decide

/-- **C127.** False: a source changed while it was being read (at `change`, after `read` and before `written`), or within the same second, is not built again. -/
theorem changed_while_building_false : ∃ read change written : Int, read < change ∧ change < written ∧ needsBuild (some written) change = false ∧ needsBuild (some change) change = false :=
  ⟨0, 1, 2, by decide, by decide, by decide, by decide⟩

end Verif.Batch.Files
