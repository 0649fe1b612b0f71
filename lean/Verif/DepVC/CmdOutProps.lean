import Verif.DepVC.CmdOut

/-! # C240: the output of a command -/

namespace Verif.DepVC.CmdOut

open Verif.Deptool.Deps (Text)

/-! ## Specification -/

/-- What a command writes to its standard output. -/
def outOf (w : List Wr) : Text := w.filterMap fun | .out c => some c | .err _ => none

/-- What a command writes to its error output. -/
def errOf (w : List Wr) : Text := w.filterMap fun | .err c => some c | .out _ => none

/-- A line: characters that do not end a line, and maybe the end of line. -/
def IsPerlLine (l : Text) : Prop := ∃ a, '\n' ∉ a ∧ (l = a ++ ['\n'] ∨ l = a ∧ a ≠ [])

/-! ## Lemmas -/

theorem outOf_out (c : Char) (r : List Wr) : outOf (.out c :: r) = c :: outOf r := rfl
theorem outOf_err (c : Char) (r : List Wr) : outOf (.err c :: r) = outOf r := rfl
theorem errOf_out (c : Char) (r : List Wr) : errOf (.out c :: r) = errOf r := rfl
theorem errOf_err (c : Char) (r : List Wr) : errOf (.err c :: r) = c :: errOf r := rfl

/-- What holds throughout. -/
structure CmdInv (cap : Nat) (w : List Wr) (s : CmdSt) : Prop where
  out : s.gotOut ++ s.pipeOut ++ outOf s.todo = outOf w
  err : s.gotErr ++ s.pipeErr ++ errOf s.todo = errOf w
  room : s.pipeErr.length ≤ cap
  first : s.pos = .readOut → s.gotErr = []
  past : s.pos ≠ .readOut → s.todo = [] ∧ s.pipeOut = []
  past2 : s.pos ≠ .readOut → s.pos ≠ .readErr → s.pipeErr = []

theorem inv_start (cap : Nat) (w : List Wr) : CmdInv cap w (cmdStart w) where
  out := rfl
  err := rfl
  room := Nat.zero_le _
  first _ := rfl
  past h := absurd rfl h
  past2 h := absurd rfl h

theorem inv_step (cap : Nat) (w : List Wr) (s s' : CmdSt) (who : Who) (h : CmdInv cap w s) (e : cmdStep cap s who = some s') : CmdInv cap w s' := by
  obtain ⟨todo, po, pe, pos, go, ge⟩ := s
  obtain ⟨h1, h2, h3, h4, h5, h6⟩ := h
  dsimp only at h1 h2 h3 h4 h5 h6
  cases who with
  | command =>
    simp only [cmdStep] at e
    split at e
    · cases e
    · split at e
      · cases e
        refine ⟨?_, h2, h3, h4, fun hp => absurd (h5 hp).1 (by simp), h6⟩
        rw [outOf_out] at h1
        simpa using h1
      · cases e
    · split at e
      · cases e
        refine ⟨h1, ?_, ?_, h4, fun hp => absurd (h5 hp).1 (by simp), fun hp => absurd (h5 hp).1 (by simp)⟩
        · rw [errOf_err] at h2
          simpa using h2
        · simp only [List.length_append, List.length_cons, List.length_nil]
          omega
      · cases e
  | caller =>
    simp only [cmdStep] at e
    split at e
    · split at e
      · cases e
        refine ⟨?_, h2, h3, h4, fun hp => absurd rfl hp, fun hp => absurd rfl hp⟩
        simpa using h1
      · split at e
        · rename_i ht
          subst ht
          cases e
          exact ⟨h1, h2, h3, fun hp => by simp at hp, fun _ => ⟨rfl, rfl⟩, fun _ hp => absurd rfl hp⟩
        · cases e
    · split at e
      · cases e
        refine ⟨h1, ?_, ?_, fun hp => by simp at hp, h5, fun _ hp => absurd rfl hp⟩
        · simpa using h2
        · simp only [List.length_cons] at h3
          dsimp only
          omega
      · split at e
        · rename_i ht
          subst ht
          cases e
          exact ⟨h1, h2, h3, fun hp => by simp at hp, fun _ => h5 (by simp), fun _ _ => rfl⟩
        · cases e
    · split at e
      · cases e
        exact ⟨h1, h2, h3, fun hp => by simp at hp, fun _ => h5 (by simp), fun _ _ => h6 (by simp) (by simp)⟩
      · cases e
    · cases e

theorem inv_turn (cap : Nat) (w : List Wr) (s : CmdSt) (who : Who) (h : CmdInv cap w s) : CmdInv cap w ((cmdStep cap s who).getD s) := by
  cases e : cmdStep cap s who with
  | none => exact h
  | some s' => exact inv_step cap w s s' who h e

theorem inv_run (cap : Nat) (w : List Wr) : ∀ (ws : List Who) (s : CmdSt), CmdInv cap w s → CmdInv cap w (cmdRun cap s ws) := by
  intro ws
  induction ws with
  | nil => intro s h; exact h
  | cons a ws ih => intro s h; exact ih _ (inv_turn cap w s a h)

def posRank : CmdAt → Nat
  | .readOut => 3
  | .readErr => 2
  | .waiting => 1
  | .ended => 0

/-- What is left to do. -/
def cmdLeft (s : CmdSt) : Nat := 2 * s.todo.length + s.pipeOut.length + s.pipeErr.length + posRank s.pos

theorem left_step (cap : Nat) (s s' : CmdSt) (who : Who) (e : cmdStep cap s who = some s') : cmdLeft s' < cmdLeft s := by
  obtain ⟨todo, po, pe, pos, go, ge⟩ := s
  cases who with
  | command =>
    simp only [cmdStep] at e
    split at e
    · cases e
    · split at e
      · cases e
        simp only [cmdLeft, List.length_append, List.length_cons, List.length_nil]
        omega
      · cases e
    · split at e
      · cases e
        simp only [cmdLeft, List.length_append, List.length_cons, List.length_nil]
        omega
      · cases e
  | caller =>
    simp only [cmdStep] at e
    split at e
    · split at e
      · cases e
        simp only [cmdLeft, List.length_cons]
        omega
      · split at e
        · cases e
          simp only [cmdLeft, posRank]
          omega
        · cases e
    · split at e
      · cases e
        simp only [cmdLeft, List.length_cons]
        omega
      · split at e
        · cases e
          simp only [cmdLeft, posRank]
          omega
        · cases e
    · split at e
      · cases e
        simp only [cmdLeft, posRank]
        omega
      · cases e
    · cases e

theorem left_run (cap : Nat) : ∀ (ws : List Who) (s : CmdSt), cmdLeft (cmdRun cap s ws) ≤ cmdLeft s := by
  intro ws
  induction ws with
  | nil => intro s; exact Nat.le_refl _
  | cons a ws ih =>
    intro s
    refine Nat.le_trans (ih _) ?_
    cases e : cmdStep cap s a with
    | none => exact Nat.le_refl _
    | some s' => exact Nat.le_of_lt (left_step cap s s' a e)

/-- Nobody is blocked for good if the error output fits into the pipe. -/
theorem no_block (cap : Nat) (hc : 0 < cap) (w : List Wr) (hw : (errOf w).length ≤ cap) (s : CmdSt) (h : CmdInv cap w s) (hp : s.pos ≠ .ended) : ∃ who s', cmdStep cap s who = some s' := by
  obtain ⟨todo, po, pe, pos, go, ge⟩ := s
  obtain ⟨h1, h2, h3, h4, h5, h6⟩ := h
  dsimp only at h1 h2 h3 h4 h5 h6 hp
  cases pos with
  | readOut =>
    cases po with
    | cons c r => exact ⟨.caller, _, rfl⟩
    | nil =>
      cases todo with
      | nil => exact ⟨.caller, _, rfl⟩
      | cons a r =>
        cases a with
        | out c => exact ⟨.command, _, if_pos hc⟩
        | err c =>
          refine ⟨.command, _, by
            simp only [cmdStep]
            rw [if_pos]
            rw [errOf_err] at h2
            have := congrArg List.length h2
            simp only [List.length_append, List.length_cons] at this
            omega⟩
  | readErr =>
    cases pe with
    | cons c r => exact ⟨.caller, _, rfl⟩
    | nil =>
      obtain ⟨rfl, _⟩ := h5 (by simp)
      exact ⟨.caller, _, rfl⟩
  | waiting =>
    obtain ⟨rfl, _⟩ := h5 (by simp)
    exact ⟨.caller, _, rfl⟩
  | ended => exact absurd rfl hp

/-- A stretch of a schedule in which both have a turn gets something done. -/
theorem block_less (cap : Nat) (s : CmdSt) (who : Who) (s' : CmdSt) (e : cmdStep cap s who = some s') : ∀ (ws : List Who), who ∈ ws → cmdLeft (cmdRun cap s ws) < cmdLeft s := by
  intro ws
  induction ws with
  | nil => intro h; cases h
  | cons a ws ih =>
    intro h
    cases ea : cmdStep cap s a with
    | some t =>
      show cmdLeft (cmdRun cap ((cmdStep cap s a).getD s) ws) < _
      rw [ea]
      exact Nat.lt_of_le_of_lt (left_run cap ws t) (left_step cap s t a ea)
    | none =>
      show cmdLeft (cmdRun cap ((cmdStep cap s a).getD s) ws) < _
      rw [ea]
      refine ih ?_
      cases h with
      | head => rw [ea] at e; cases e
      | tail _ h => exact h

theorem run_append (cap : Nat) : ∀ (a b : List Who) (s : CmdSt), cmdRun cap s (a ++ b) = cmdRun cap (cmdRun cap s a) b := by
  intro a
  induction a with
  | nil => intro b s; rfl
  | cons x a ih => intro b s; exact ih b _

theorem run_ended (cap : Nat) (s : CmdSt) (w : List Wr) (h : CmdInv cap w s) (hp : s.pos = .ended) : ∀ ws, (cmdRun cap s ws) = s := by
  intro ws
  induction ws with
  | nil => rfl
  | cons a ws ih =>
    have : cmdStep cap s a = none := by
      obtain ⟨ht, _⟩ := h.past (by rw [hp]; simp)
      cases a with
      | command => simp only [cmdStep, ht]
      | caller => simp only [cmdStep, hp]
    show cmdRun cap ((cmdStep cap s a).getD s) ws = s
    rw [this]
    exact ih

theorem left_zero (s : CmdSt) (h : cmdLeft s = 0) : s.pos = .ended := by
  obtain ⟨todo, po, pe, pos, go, ge⟩ := s
  simp only [cmdLeft] at h
  cases pos <;> simp only [posRank] at h <;> first | rfl | omega

theorem blocks_end (cap : Nat) (hc : 0 < cap) (w : List Wr) (hw : (errOf w).length ≤ cap) : ∀ (bs : List (List Who)) (s : CmdSt), CmdInv cap w s → (∀ b ∈ bs, .command ∈ b ∧ .caller ∈ b) → cmdLeft s ≤ bs.length →
    (cmdRun cap s bs.flatten).pos = .ended := by
  intro bs
  induction bs with
  | nil => intro s _ _ hl; exact left_zero s (Nat.le_zero.1 hl)
  | cons b bs ih =>
    intro s hi hb hl
    rw [List.flatten_cons, run_append]
    by_cases hp : s.pos = .ended
    · rw [run_ended cap s w hi hp, run_ended cap s w hi hp]
      exact hp
    · obtain ⟨who, s', e⟩ := no_block cap hc w hw s hi hp
      have hm : who ∈ b := by
        cases who
        · exact (hb b List.mem_cons_self).1
        · exact (hb b List.mem_cons_self).2
      have hlt := block_less cap s who s' e b hm
      simp only [List.length_cons] at hl
      exact ih _ (inv_run cap w b s hi) (fun b' h => hb b' (List.mem_cons_of_mem _ h)) (by omega)

theorem perlLines_flatten : ∀ t : Text, (perlLines t).flatten = t := by
  intro t
  induction t with
  | nil => rfl
  | cons c r ih =>
    simp only [perlLines]
    split
    · rename_i h
      rw [h, List.flatten_cons, ih]
      rfl
    · split
      · rename_i h
        rw [h] at ih
        rw [← ih]
        rfl
      · rename_i l ls h
        rw [h] at ih
        rw [← ih]
        rfl

theorem perlLines_lines : ∀ (t : Text), (∀ l ∈ perlLines t, IsPerlLine l) ∧ ∀ l ∈ (perlLines t).dropLast, '\n' ∈ l := by
  intro t
  induction t with
  | nil => exact ⟨fun l h => (List.not_mem_nil h).elim, fun l h => (List.not_mem_nil h).elim⟩
  | cons c r ih =>
    simp only [perlLines]
    split
    · rename_i h
      refine ⟨?_, ?_⟩
      · intro l hl
        cases hl with
        | head => exact ⟨[], by simp, Or.inl rfl⟩
        | tail _ hl => exact ih.1 l hl
      · intro l hl
        cases hr : perlLines r with
        | nil => rw [hr] at hl; cases hl
        | cons x xs =>
          rw [hr, List.dropLast_cons_cons] at hl
          cases hl with
          | head => exact List.mem_cons_self
          | tail _ hl => exact ih.2 l (by rw [hr]; exact hl)
    · rename_i hc
      split
      · refine ⟨?_, fun l hl => (List.not_mem_nil hl).elim⟩
        intro l hl
        rw [List.mem_singleton] at hl
        subst hl
        exact ⟨[c], by simp [Ne.symm hc], Or.inr ⟨rfl, by simp⟩⟩
      · rename_i l0 ls hr
        rw [hr] at ih
        refine ⟨?_, ?_⟩
        · intro l hl
          cases hl with
          | head =>
            obtain ⟨a, ha, h | ⟨h, _⟩⟩ := ih.1 l0 List.mem_cons_self
            · exact ⟨c :: a, by simp [Ne.symm hc, ha], Or.inl (by rw [h]; rfl)⟩
            · exact ⟨c :: a, by simp [Ne.symm hc, ha], Or.inr ⟨by rw [h], by simp⟩⟩
          | tail _ hl => exact ih.1 l (List.mem_cons_of_mem _ hl)
        · intro l hl
          cases ls with
          | nil => cases hl
          | cons x xs =>
            rw [List.dropLast_cons_cons] at hl
            cases hl with
            | head => exact List.mem_cons_of_mem _ (ih.2 l0 (by rw [List.dropLast_cons_cons]; exact List.mem_cons_self))
            | tail _ hl => exact ih.2 l (by rw [List.dropLast_cons_cons]; exact List.mem_cons_of_mem _ hl)

/-! ## The claims -/

/-- C240: whatever the order of the steps, when the end is reached all that the command wrote has been read, each output for itself and in order. -/
theorem output_whole (cap : Nat) (w : List Wr) (ws : List Who) (h : (cmdRun cap (cmdStart w) ws).pos = .ended) :
    (cmdRun cap (cmdStart w) ws).gotOut = outOf w ∧ (cmdRun cap (cmdStart w) ws).gotErr = errOf w ∧ (cmdRun cap (cmdStart w) ws).todo = [] := by
  have hi := inv_run cap w ws _ (inv_start cap w)
  obtain ⟨h1, h2⟩ := hi.past (by rw [h]; simp)
  have h3 := hi.past2 (by rw [h]; simp) (by rw [h]; simp)
  have ho := hi.out
  have he := hi.err
  rw [h1, h2] at ho
  rw [h1, h3] at he
  refine ⟨?_, ?_, h1⟩
  · rw [← ho]; simp [outOf]
  · rw [← he]; simp [errOf]

/-- C240: the end is reached under every fair schedule if the error output fits into the pipe: as soon as both have had their turns a number of times that depends on the amount of output. -/
theorem output_ends_partial (cap : Nat) (hc : 0 < cap) (w : List Wr) (hw : (errOf w).length ≤ cap) (bs : List (List Who)) (hb : ∀ b ∈ bs, .command ∈ b ∧ .caller ∈ b) (hl : 2 * w.length + 3 ≤ bs.length) :
    (cmdRun cap (cmdStart w) bs.flatten).pos = .ended :=
  blocks_end cap hc w hw bs _ (inv_start cap w) hb hl

/-- C240: not so if it does not fit: the command waits for the caller and the caller for the command, under every schedule. -/
theorem output_ends_false (cap : Nat) (w : List Wr) (hw : cap < (errOf w).length) (ws : List Who) : (cmdRun cap (cmdStart w) ws).pos = .readOut ∧ (cmdRun cap (cmdStart w) ws).todo ≠ [] := by
  have hi := inv_run cap w ws _ (inv_start cap w)
  have key : ∀ s, CmdInv cap w s → s.pos = .readOut → s.todo ≠ [] := by
    intro s hs hp ht
    have h2 := hs.err
    rw [ht, hs.first hp] at h2
    have h3 := congrArg List.length h2
    have h4 := hs.room
    simp only [errOf, List.filterMap_nil, List.nil_append, List.append_nil] at h3
    simp only [errOf] at hw
    omega
  have main : ∀ (ws : List Who) (s : CmdSt), CmdInv cap w s → s.pos = .readOut → (cmdRun cap s ws).pos = .readOut := by
    intro ws
    induction ws with
    | nil => intro s _ hp; exact hp
    | cons a ws ih =>
      intro s hs hp
      refine ih _ (inv_turn cap w s a hs) ?_
      have ht := key s hs hp
      cases a with
      | command =>
        simp only [cmdStep]
        split
        · exact hp
        · split
          · exact hp
          · exact hp
        · split
          · exact hp
          · exact hp
      | caller =>
        simp only [cmdStep, hp]
        split
        · rfl
        · rw [if_neg ht]
          exact hp
  have := main ws _ (inv_start cap w) rfl
  exact ⟨this, key _ hi this⟩

/-- C240: so the end can be reached exactly if the error output fits into the pipe. -/
theorem output_ends_iff (cap : Nat) (hc : 0 < cap) (w : List Wr) : (∃ ws, (cmdRun cap (cmdStart w) ws).pos = .ended) ↔ (errOf w).length ≤ cap := by
  constructor
  · intro ⟨ws, h⟩
    apply Nat.le_of_not_lt
    intro hlt
    rw [(output_ends_false cap w hlt ws).1] at h
    cases h
  · intro h
    refine ⟨_, output_ends_partial cap hc w h (List.replicate (2 * w.length + 3) [.command, .caller]) ?_ (by rw [List.length_replicate]; exact Nat.le_refl _)⟩
    intro b hb
    rw [List.eq_of_mem_replicate hb]
    decide

/-- C240: the result: the lines of the standard output if the check has no objection and the command ended well, and nothing else. -/
theorem output_result (cap : Nat) (w : List Wr) (ws : List Who) (status : Nat) (check : List Text → List Text → Bool) (h : (cmdRun cap (cmdStart w) ws).pos = .ended) :
    ∃ lo le, lo.flatten = outOf w ∧ le.flatten = errOf w ∧ (∀ l, l ∈ lo ∨ l ∈ le → IsPerlLine l) ∧ (∀ l, l ∈ lo.dropLast ∨ l ∈ le.dropLast → '\n' ∈ l) ∧
      (∀ ls, cmdResult status check (cmdRun cap (cmdStart w) ws) = .lines ls ↔ check lo le = true ∧ status = 0 ∧ ls = lo) ∧
      (cmdResult status check (cmdRun cap (cmdStart w) ws) = .checkDied ↔ check lo le = false) := by
  obtain ⟨h1, h2, _⟩ := output_whole cap w ws h
  refine ⟨perlLines (outOf w), perlLines (errOf w), perlLines_flatten _, perlLines_flatten _, ?_, ?_, ?_, ?_⟩
  · rintro l (hl | hl)
    · exact (perlLines_lines _).1 l hl
    · exact (perlLines_lines _).1 l hl
  · rintro l (hl | hl)
    · exact (perlLines_lines _).2 l hl
    · exact (perlLines_lines _).2 l hl
  · intro ls
    rw [cmdResult, h1, h2]
    cases check (perlLines (outOf w)) (perlLines (errOf w)) with
    | false => simp
    | true =>
      by_cases hs : status = 0
      · simp only [hs, if_true, true_and]
        constructor
        · intro h; cases h; rfl
        · intro h; rw [h]
      · simp [hs]
  · rw [cmdResult, h1, h2]
    cases check (perlLines (outOf w)) (perlLines (errOf w)) with
    | false => simp
    | true => by_cases hs : status = 0 <;> simp [hs]

/-- A command that writes to both outputs, with pipes of two characters. -/
example : (errOf [.out 'a', .err 'x', .out '\n', .out 'b', .err 'y', .out 'c']).length ≤ 2 ∧
    cmdResult 0 (fun _ _ => true) (cmdRun 2 (cmdStart [.out 'a', .err 'x', .out '\n', .out 'b', .err 'y', .out 'c']) (List.replicate 15 [Who.caller, Who.command]).flatten) = .lines [['a', '\n'], ['b', 'c']] := by decide

example : (2 : Nat) < (errOf [.err 'x', .err 'y', .err 'z']).length := by decide

end Verif.DepVC.CmdOut
