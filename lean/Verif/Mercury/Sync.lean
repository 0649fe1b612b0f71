/-!
# Model and properties of waiting for gnuplot (C186; src/mercury-plot.in, lines 1127-1194)
-/

namespace Verif.Mercury.Sync

/-! ## Model -/

/-- What is in the pipe to gnuplot: a command, or `system "echo n >file"`. Used in the model of `mercury-plot.in:1143-1187` (`State`). -/
inductive Item where
  | cmd (n : Nat)
  | echo (k : Nat)
deriving DecidableEq, Repr

/-- The file: empty after the shell has opened it, or with a number. Used in the model of `mercury-plot.in:1143-1187` (`State`). -/
inductive File where
  | empty | num (k : Nat)
deriving DecidableEq, Repr

/-- Not a function of the code; stands for the uses of `mercury-plot.in:1143-1187`. -/
structure State where
  /-- sent to gnuplot and not begun -/
  pipe : List Item
  /-- the shell of gnuplot has opened the file and has not written; whether it is still the file of that name -/
  half : Option (Nat × Bool)
  /-- the commands gnuplot has executed -/
  done : List Nat
  file : Option File
  /-- `$Global::sync_gnuplot_count` -/
  count : Nat
  /-- in the loop of lines 1161-1183 -/
  waiting : Bool
deriving DecidableEq, Repr

/-- Not a function of the code; stands for the uses of `mercury-plot.in:1143-1187`. -/
def init : State := ⟨[], none, [], none, 0, false⟩

/-- What may happen; `other` is another process of the user. Not a function of the code; stands for the uses of `mercury-plot.in:1143-1187`. -/
inductive Move where
  | send (n : Nat)
  | start
  | poll
  | timeout
  | gnuplot
  | other (k : Nat)
deriving DecidableEq, Repr

/-- An event: a command was sent, or `syncToGnuplot` has returned. Not a function of the code; stands for the uses of `mercury-plot.in:1143-1187`. -/
inductive Event where
  | sent (n : Nat)
  | synced
deriving DecidableEq, Repr

/-- One move: the program (lines 1143-1187), gnuplot with its shell, or another program. A move that is not possible does nothing. -/
def step (s : State) : Move → State × List Event
  | .send n => if s.waiting then (s, []) else ({ s with pipe := s.pipe ++ [.cmd n] }, [.sent n])
  | .start =>
    if s.waiting then (s, [])
    else ({ s with file := none, half := s.half.map fun h => (h.1, false), count := s.count + 1, pipe := s.pipe ++ [.echo (s.count + 1)], waiting := true }, [])
  | .poll =>
    if s.waiting && s.file == some (.num s.count) then ({ s with file := none, waiting := false }, [.synced]) else (s, [])
  | .timeout => ({ s with waiting := false }, [])
  | .gnuplot =>
    match s.half with
    | some (k, true) => ({ s with half := none, file := some (.num k) }, [])
    | some (_, false) => ({ s with half := none }, [])
    | none =>
      match s.pipe with
      | [] => (s, [])
      | .cmd n :: r => ({ s with pipe := r, done := s.done ++ [n] }, [])
      | .echo k :: r => ({ s with pipe := r, half := some (k, true), file := some .empty }, [])
  | .other k => ({ s with file := some (.num k) }, [])

/-- The moves in turn: the state and the log of events, each with the commands that gnuplot had executed at that time. Not a function of the code; stands for the uses of `mercury-plot.in:1143-1187`. -/
def run (s : State) : List Move → State × List (Event × List Nat)
  | [] => (s, [])
  | m :: ms =>
    let r := step s m
    let t := run r.1 ms
    (t.1, r.2.map (fun e => (e, r.1.done)) ++ t.2)

/-! ## Specification -/

/-- Whenever the wait has ended, the commands that were executed are all those sent before. -/
def Synced : List Nat → List (Event × List Nat) → Prop
  | _, [] => True
  | sent, (.sent n, _) :: r => Synced (sent ++ [n]) r
  | sent, (.synced, d) :: r => d = sent ∧ Synced sent r

/-! ## Proofs -/

/-- Made of the parts of `mercury-plot.in:1143-1187`. -/
def cmds : List Item → List Nat
  | [] => []
  | .cmd n :: r => n :: cmds r
  | .echo _ :: r => cmds r

theorem cmds_append (a b : List Item) : cmds (a ++ b) = cmds a ++ cmds b := by
  induction a with
  | nil => rfl
  | cons i a ih => cases i <;> simp [cmds, ih]

/-- The echo commands in the pipe are of earlier waits, or the last of this wait at the end. -/
def Below (c : Nat) (l : List Item) : Prop := ∀ k, Item.echo k ∈ l → k < c

structure Inv (s : State) (sent : List Nat) : Prop where
  all : s.done ++ cmds s.pipe = sent
  pipe : (s.waiting = true → (∃ p, s.pipe = p ++ [.echo s.count] ∧ Below s.count p) ∨ s.pipe = []) ∧ (∀ k, Item.echo k ∈ s.pipe → k ≤ s.count)
  half : ∀ k b, s.half = some (k, b) → k ≤ s.count ∧ (s.waiting = true → k = s.count → s.pipe = [])
  file : ∀ k, s.file = some (.num k) → k ≤ s.count ∧ (s.waiting = true → k = s.count → s.pipe = [])

def Own : Move → Prop
  | .other _ => False
  | _ => True

theorem step_inv {s : State} {sent : List Nat} (h : Inv s sent) {m : Move} (hm : Own m) :
    ∃ sent', Inv (step s m).1 sent' ∧
      ((step s m).2 = [] ∧ sent' = sent ∨ (∃ n, (step s m).2 = [.sent n] ∧ sent' = sent ++ [n]) ∨ (step s m).2 = [.synced] ∧ sent' = sent ∧ (step s m).1.done = sent) := by
  obtain ⟨h1, ⟨h2, h2'⟩, h3, h4⟩ := h
  cases m with
  | send n =>
    unfold step
    simp only []
    split
    · exact ⟨sent, ⟨h1, ⟨h2, h2'⟩, h3, h4⟩, .inl ⟨rfl, rfl⟩⟩
    · rename_i hw
      refine ⟨sent ++ [n], ⟨?_, ⟨fun h => absurd h hw, ?_⟩, ?_, ?_⟩, .inr (.inl ⟨n, rfl, rfl⟩)⟩
      · simp only [cmds_append, ← List.append_assoc, h1]; rfl
      · intro k hk
        rcases List.mem_append.mp hk with hk | hk
        · exact h2' k hk
        · simp at hk
      · exact fun k b hb => ⟨(h3 k b hb).1, fun h => absurd h hw⟩
      · exact fun k hb => ⟨(h4 k hb).1, fun h => absurd h hw⟩
  | start =>
    unfold step
    simp only []
    split
    · exact ⟨sent, ⟨h1, ⟨h2, h2'⟩, h3, h4⟩, .inl ⟨rfl, rfl⟩⟩
    · refine ⟨sent, ⟨?_, ⟨fun _ => .inl ⟨s.pipe, rfl, ?_⟩, ?_⟩, ?_, ?_⟩, .inl ⟨rfl, rfl⟩⟩
      · simp only [cmds_append, cmds, List.append_nil, h1]
      · intro k hk; have := h2' k hk; show k < s.count + 1; omega
      · intro k hk
        rcases List.mem_append.mp hk with hk | hk
        · have := h2' k hk; show k ≤ s.count + 1; omega
        · simp only [List.mem_singleton, Item.echo.injEq] at hk
          subst hk; exact Nat.le_refl _
      · intro k b hb
        cases hh : s.half with
        | none => simp [hh] at hb
        | some x =>
          obtain ⟨k', b'⟩ := x
          simp only [hh, Option.map_some, Option.some.injEq, Prod.mk.injEq] at hb
          have := (h3 k' b' hh).1
          refine ⟨by show k ≤ s.count + 1; omega, fun _ hk => ?_⟩
          have hk : k = s.count + 1 := hk
          omega
      · intro k hb; cases hb
  | poll =>
    unfold step
    simp only []
    split
    · rename_i hc
      simp only [Bool.and_eq_true, beq_iff_eq] at hc
      have hp := (h4 _ hc.2).2 hc.1 rfl
      have hd : s.done = sent := by rw [← h1, hp]; simp [cmds]
      refine ⟨sent, ⟨h1, ⟨fun h => (by cases h), h2'⟩, ?_, ?_⟩, .inr (.inr ⟨rfl, rfl, hd⟩)⟩
      · exact fun k b hb => ⟨(h3 k b hb).1, fun h => by cases h⟩
      · intro k hb; cases hb
    · exact ⟨sent, ⟨h1, ⟨h2, h2'⟩, h3, h4⟩, .inl ⟨rfl, rfl⟩⟩
  | timeout =>
    exact ⟨sent, ⟨h1, ⟨fun h => (by cases h), h2'⟩, fun k b hb => ⟨(h3 k b hb).1, fun h => by cases h⟩, fun k hb => ⟨(h4 k hb).1, fun h => by cases h⟩⟩, .inl ⟨rfl, rfl⟩⟩
  | gnuplot =>
    unfold step
    simp only []
    split
    · rename_i k hh
      refine ⟨sent, ⟨h1, ⟨h2, h2'⟩, fun k b hb => (by cases hb), ?_⟩, .inl ⟨rfl, rfl⟩⟩
      intro k' hk'
      simp only [Option.some.injEq, File.num.injEq] at hk'
      subst hk'
      exact h3 k true hh
    · exact ⟨sent, ⟨h1, ⟨h2, h2'⟩, fun k b hb => (by cases hb), h4⟩, .inl ⟨rfl, rfl⟩⟩
    · rename_i hh
      split
      · exact ⟨sent, ⟨h1, ⟨h2, h2'⟩, h3, h4⟩, .inl ⟨rfl, rfl⟩⟩
      · rename_i n r hp
        rw [hp] at h1 h2 h2'
        refine ⟨sent, ⟨?_, ⟨fun hw => ?_, fun k hk => h2' k (List.mem_cons_of_mem _ hk)⟩, ?_, ?_⟩, .inl ⟨rfl, rfl⟩⟩
        · show (s.done ++ [n]) ++ cmds r = sent
          rw [← h1]; simp [cmds]
        · rcases h2 hw with ⟨p, hp', hb⟩ | hp'
          · cases p with
            | nil => simp at hp'
            | cons x p =>
              simp only [List.cons_append, List.cons.injEq] at hp'
              exact .inl ⟨p, hp'.2, fun k hk => hb k (List.mem_cons_of_mem _ hk)⟩
          · cases hp'
        · exact fun k b hb => ⟨(h3 k b hb).1, fun hw hk => by have := (h3 k b hb).2 hw hk; rw [hp] at this; cases this⟩
        · exact fun k hb => ⟨(h4 k hb).1, fun hw hk => by have := (h4 k hb).2 hw hk; rw [hp] at this; cases this⟩
      · rename_i k r hp
        rw [hp] at h1 h2 h2'
        refine ⟨sent, ⟨?_, ⟨fun hw => ?_, fun k hk => h2' k (List.mem_cons_of_mem _ hk)⟩, ?_, fun k hb => by cases hb⟩, .inl ⟨rfl, rfl⟩⟩
        · show s.done ++ cmds r = sent
          rw [← h1]; rfl
        · rcases h2 hw with ⟨p, hp', hb⟩ | hp'
          · cases p with
            | nil =>
              simp only [List.nil_append, List.cons.injEq] at hp'
              exact .inr hp'.2
            | cons x p =>
              simp only [List.cons_append, List.cons.injEq] at hp'
              exact .inl ⟨p, hp'.2, fun k hk => hb k (List.mem_cons_of_mem _ hk)⟩
          · cases hp'
        · intro k' b hb
          simp only [Option.some.injEq, Prod.mk.injEq] at hb
          obtain ⟨rfl, rfl⟩ := hb
          refine ⟨h2' k (List.mem_cons_self ..), fun hw hk => ?_⟩
          rcases h2 hw with ⟨p, hp', hb⟩ | hp'
          · cases p with
            | nil =>
              simp only [List.nil_append, List.cons.injEq] at hp'
              exact hp'.2
            | cons x p =>
              simp only [List.cons_append, List.cons.injEq] at hp'
              have := hb k (by rw [← hp'.1]; exact List.mem_cons_self ..)
              have hk : k = s.count := hk
              omega
          · cases hp'
  | other k => exact hm.elim

theorem run_synced (ms : List Move) (hm : ∀ m ∈ ms, Own m) : ∀ (s : State) (sent : List Nat), Inv s sent → Synced sent (run s ms).2 := by
  induction ms with
  | nil => intro s sent _; exact trivial
  | cons m ms ih =>
    intro s sent h
    obtain ⟨sent', h', hcase⟩ := step_inv h (hm m (List.mem_cons_self ..))
    have := ih (fun x hx => hm x (List.mem_cons_of_mem _ hx)) _ _ h'
    show Synced sent ((step s m).2.map (fun e => (e, (step s m).1.done)) ++ (run (step s m).1 ms).2)
    rcases hcase with ⟨e, rfl⟩ | ⟨n, e, rfl⟩ | ⟨e, rfl, hd⟩
    · rw [e]; exact this
    · rw [e]; exact this
    · rw [e]; exact ⟨hd, this⟩

/-- C186: with one program, whatever the speed of gnuplot and of its shell, also after waits that were given up: when `syncToGnuplot` returns, gnuplot has executed exactly the commands that were sent. -/
theorem sync_partial (ms : List Move) (hm : ∀ m ∈ ms, Own m) : Synced [] (run init ms).2 :=
  run_synced ms hm init [] ⟨rfl, ⟨fun h => (by cases h), fun _ h => by cases h⟩, fun _ _ h => (by cases h), fun _ h => by cases h⟩

/-- C186: gnuplot has only to go on: three of its steps for every item in the pipe are enough, then the wait ends at the next look. -/
theorem sync_ends (s : State) (sent : List Nat) (h : Inv s sent) (hw : s.waiting = true) (hf : s.half = none) (p : List Item) (hp : s.pipe = p ++ [.echo s.count]) :
    ∃ n, (run s (List.replicate n .gnuplot ++ [.poll])).2 = [(.synced, sent)] := by
  have key : ∀ (p : List Item) (s : State), s.waiting = true → s.half = none → s.pipe = p ++ [.echo s.count] →
      ∃ n, (run s (List.replicate n .gnuplot ++ [.poll])).2 = [(.synced, s.done ++ cmds p)] := by
    intro p
    induction p with
    | nil =>
      intro s hw hf hp
      refine ⟨2, ?_⟩
      have e1 : step s .gnuplot = ({ s with pipe := [], half := some (s.count, true), file := some .empty }, []) := by
        unfold step; simp only [hf, hp, List.nil_append]
      show ((step s .gnuplot).2.map _ ++ ((step (step s .gnuplot).1 .gnuplot).2.map _ ++ ((step (step (step s .gnuplot).1 .gnuplot).1 .poll).2.map _ ++ []))) = _
      rw [e1]
      simp [step, hw, cmds]
    | cons i p ih =>
      intro s hw hf hp
      cases i with
      | cmd n =>
        have e1 : step s .gnuplot = ({ s with pipe := p ++ [.echo s.count], done := s.done ++ [n] }, []) := by
          unfold step; simp only [hf, hp, List.cons_append]
        obtain ⟨k, hk⟩ := ih { s with pipe := p ++ [.echo s.count], done := s.done ++ [n] } hw hf rfl
        refine ⟨k + 1, ?_⟩
        show ((step s .gnuplot).2.map _ ++ (run (step s .gnuplot).1 (List.replicate k .gnuplot ++ [.poll])).2) = _
        rw [e1, hk]
        simp [cmds]
      | echo j =>
        have e1 : step s .gnuplot = ({ s with pipe := p ++ [.echo s.count], half := some (j, true), file := some .empty }, []) := by
          unfold step; simp only [hf, hp, List.cons_append]
        have e2 : step (step s .gnuplot).1 .gnuplot = ({ s with pipe := p ++ [.echo s.count], half := none, file := some (.num j) }, []) := by
          rw [e1]; rfl
        obtain ⟨k, hk⟩ := ih { s with pipe := p ++ [.echo s.count], half := none, file := some (.num j) } hw rfl rfl
        refine ⟨k + 2, ?_⟩
        show ((step s .gnuplot).2.map _ ++ ((step (step s .gnuplot).1 .gnuplot).2.map _ ++ (run (step (step s .gnuplot).1 .gnuplot).1 (List.replicate k .gnuplot ++ [.poll])).2)) = _
        rw [e2, hk, e1]
        simp [cmds]
  obtain ⟨n, hn⟩ := key p s hw hf hp
  refine ⟨n, ?_⟩
  rw [hn, ← h.all, hp, cmds_append]
  simp [cmds]

/-- C186 is false in general: the name of the file depends on the user only, and the counters of all programs begin with zero, so the file of another program ends the wait. -/
theorem sync_other_false : ¬ Synced [] (run init [.send 7, .start, .other 1, .poll]).2 := by
  intro h
  have e : (run init [.send 7, .start, .other 1, .poll]).2 = [(.sent 7, []), (.synced, [])] := by decide
  rw [e] at h
  exact absurd h.1 (by decide)

example : (run init [.send 7, .start, .gnuplot, .timeout, .send 8, .start, .gnuplot, .poll, .gnuplot, .poll, .gnuplot, .gnuplot, .gnuplot, .poll]).2 = [(.sent 7, []), (.sent 8, [7]), (.synced, [7, 8])] := by decide

example : ∃ s sent, Inv s sent ∧ s.waiting = true ∧ s.half = none ∧ s.pipe = [.cmd 7] ++ [.echo s.count] :=
  ⟨(run init [.send 7, .start]).1, [7], ⟨by decide, ⟨fun _ => .inl ⟨[.cmd 7], by decide, fun k hk => by simp at hk⟩, fun k hk => by
    simp [run, step, init] at hk; subst hk; decide⟩, fun _ _ h => (by cases h), fun _ h => by cases h⟩, by decide, by decide, by decide⟩

end Verif.Mercury.Sync
