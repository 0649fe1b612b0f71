import Verif.DepVC.Pin

/-! # C206: pull and sync leave the checkout at the head, or pinned -/

namespace Verif.DepVC.Pin

/-! ## The specification, over what happened -/

/-- Every successful update follows, without anything between, a look that showed a revision other than the only head, and a question to the user. -/
def UpdatesAsked (log : List Ev) : Prop :=
  ∀ a b, log = a ++ .update :: b → ∃ p r h, a = p ++ [.revision r, .heads [h], .prompt] ∧ r ≠ h

/-- Every merge follows a look that showed several heads, and a question to the user. -/
def MergesAsked (log : List Ev) : Prop :=
  ∀ a b, log = a ++ .merge :: b → ∃ p hs, a = p ++ [.heads hs, .prompt] ∧ 2 ≤ hs.length

/-- The last look showed that the checkout is the only head. -/
def AtHead (log : List Ev) : Prop := ∃ p r, log = p ++ [.revision r, .heads [r]]

/-- The line for this head and revision is in the file. -/
def Pinned (f : PinFile) (rev head : Text) : Prop := ∃ ls, f = .lines ls ∧ head ++ ' ' :: rev ∈ ls

/-- How a run may have ended that returned. -/
def Ends (f : PinFile) (r : Run) : Prop :=
  AtHead r.log ∨ (.update ∉ r.log ∧ ∃ p rev h, r.log = p ++ [.revision rev, .heads [h], .pinned] ∧ Pinned f rev h)

/-! ## Proofs -/

theorem updates_append {a b : List Ev} (ha : UpdatesAsked a) (hb : UpdatesAsked b) : UpdatesAsked (a ++ b) := by
  intro x y h
  rcases List.append_eq_append_iff.mp h with ⟨c, hx, hb'⟩ | ⟨c, ha', hy⟩
  · obtain ⟨p, r, h', hp, hne⟩ := hb c y hb'
    exact ⟨a ++ p, r, h', by rw [hx, hp]; simp, hne⟩
  · cases c with
    | nil =>
      obtain ⟨p, r, h', hp, hne⟩ := hb [] y (by simpa using hy.symm)
      exact absurd hp (by simp)
    | cons e c =>
      simp only [List.cons_append, List.cons.injEq] at hy
      exact ha x c (by rw [ha', ← hy.1])

theorem merges_append {a b : List Ev} (ha : MergesAsked a) (hb : MergesAsked b) : MergesAsked (a ++ b) := by
  intro x y h
  rcases List.append_eq_append_iff.mp h with ⟨c, hx, hb'⟩ | ⟨c, ha', hy⟩
  · obtain ⟨p, hs, hp, hne⟩ := hb c y hb'
    exact ⟨a ++ p, hs, by rw [hx, hp]; simp, hne⟩
  · cases c with
    | nil =>
      obtain ⟨p, hs, hp, hne⟩ := hb [] y (by simpa using hy.symm)
      exact absurd hp (by simp)
    | cons e c =>
      simp only [List.cons_append, List.cons.injEq] at hy
      exact ha x c (by rw [ha', ← hy.1])

theorem updates_none {a : List Ev} (h : .update ∉ a) : UpdatesAsked a := by
  intro x y e
  exact absurd (by rw [e]; simp) h

theorem merges_none {a : List Ev} (h : .merge ∉ a) : MergesAsked a := by
  intro x y e
  exact absurd (by rw [e]; simp) h

theorem updates_turn (r h : Text) (hne : r ≠ h) : UpdatesAsked [.revision r, .heads [h], .prompt, .update] := by
  intro a b e
  refine ⟨[], r, h, ?_, hne⟩
  match a, e with
  | [], e => simp at e
  | [_], e => simp at e
  | [_, _], e => simp at e
  | [_, _, _], e => simp at e; simp [e]
  | _ :: _ :: _ :: _ :: t, e => simp at e

theorem merges_turn (hs : List Text) (hl : 2 ≤ hs.length) : MergesAsked [.heads hs, .prompt, .merge] := by
  intro a b e
  refine ⟨[], hs, ?_, hl⟩
  match a, e with
  | [], e => simp at e
  | [_], e => simp at e
  | [_, _], e => simp at e; simp [e]
  | _ :: _ :: _ :: t, e => simp at e

/-- The loop of the updates. -/
structure LoopOk (made : Bool) (r : Run) : Prop where
  updates : UpdatesAsked r.log
  merges : .merge ∉ r.log
  pinned : .pinned ∉ r.log
  made : r.made = true ↔ made = true ∨ .update ∈ r.log
  ends : r.out = .returned → AtHead r.log

theorem loopOk (ts : List Turn) : ∀ made, LoopOk made (updateLoop ts made) := by
  induction ts with
  | nil => intro made; exact ⟨updates_none (by simp [updateLoop]), by simp [updateLoop], by simp [updateLoop], by simp [updateLoop], by simp [updateLoop]⟩
  | cons t ts ih =>
    intro made
    rw [updateLoop]
    split
    · split
      · rename_i h hh
        split
        · rename_i e
          exact ⟨updates_none (by simp), by simp, by simp, by simp, fun _ => ⟨[], h, by simp [e]⟩⟩
        · rename_i e
          split
          · split
            · have k := ih true
              refine ⟨updates_append (updates_turn _ _ e) k.updates, ?_, ?_, ?_, ?_⟩
              · simp [Run.after, k.merges]
              · simp [Run.after, k.pinned]
              · have := k.made; simp [Run.after] at this ⊢; exact this
              · intro ho
                obtain ⟨p, r, hp⟩ := k.ends ho
                exact ⟨[.revision t.rev, .heads [h], .prompt, .update] ++ p, r, by simp [Run.after, hp]⟩
            · exact ⟨updates_none (by simp), by simp, by simp, by simp, by simp⟩
          · exact ⟨updates_none (by simp), by simp, by simp, by simp, by simp⟩
      · exact ⟨updates_none (by simp), by simp, by simp, by simp, by simp⟩
    · exact ⟨updates_none (by simp), by simp, by simp, by simp, by simp⟩

theorem foundPin_iff (f : PinFile) (rev head : Text) : foundPin f rev head = true ↔ Pinned f rev head := by
  cases f <;> simp [foundPin, Pinned]

/-- What `pullDoUpdate` does. -/
structure DoOk (f : PinFile) (rev : Text) (hs : List Text) (made : Bool) (r : Run) : Prop where
  updates : UpdatesAsked r.log
  merges : .merge ∉ r.log
  made : r.made = true ↔ made = true ∨ .update ∈ r.log
  ends : r.out = .returned → Ends f r
  pinned : .pinned ∈ r.log ↔ isRevision rev = true ∧ ∃ h, hs = [h] ∧ Pinned f rev h

theorem after_ok (f : PinFile) {made : Bool} {r : Run} (k : LoopOk made r) (es : List Ev) (h1 : .update ∉ es) (h2 : .merge ∉ es) (h3 : .pinned ∉ es) (rev : Text) (hs : List Text)
    (hn : ¬ ∃ h, hs = [h] ∧ Pinned f rev h) : DoOk f rev hs made (r.after es) := by
  refine ⟨updates_append (updates_none h1) k.updates, ?_, ?_, ?_, ?_⟩
  · simp [Run.after, h2, k.merges]
  · have := k.made; simp [Run.after, h1]; simpa using this
  · intro ho
    obtain ⟨p, r', hp⟩ := k.ends ho
    exact .inl ⟨es ++ p, r', by simp [Run.after, hp]⟩
  · constructor
    · intro h; simp [Run.after, h3, k.pinned] at h
    · intro h; exact absurd h.2 hn

theorem doOk (f : PinFile) (rev : Text) (hs : List Text) (ts : List Turn) (made : Bool) : DoOk f rev hs made (doUpdate f rev hs ts made) := by
  unfold doUpdate
  by_cases hr : isRevision rev = true
  · rw [if_pos hr]
    by_cases hf : f = .absent
    · rw [if_pos hf]
      exact after_ok f (loopOk ts made) _ (by simp) (by simp) (by simp) _ _ (by rintro ⟨h, _, ls, hl, _⟩; rw [hf] at hl; cases hl)
    · rw [if_neg hf]
      split
      · rename_i h
        by_cases hp : foundPin f rev h = true
        · rw [if_pos hp]
          have hp' := (foundPin_iff f rev h).mp hp
          exact ⟨updates_none (by simp), by simp, by simp, fun _ => .inr ⟨by simp, [], rev, h, rfl, hp'⟩, by simp [hr]; exact hp'⟩
        · rw [if_neg hp]
          have hn : ¬ ∃ h', [h] = [h'] ∧ Pinned f rev h' := by
            rintro ⟨h', e, q⟩
            simp only [List.cons.injEq, and_true] at e
            exact hp ((foundPin_iff f rev h).mpr (e ▸ q))
          split
          · exact after_ok f (loopOk ts made) _ (by simp) (by simp) (by simp) _ _ hn
          · exact after_ok f (loopOk ts made) _ (by simp) (by simp) (by simp) _ _ hn
      · rename_i hne
        exact ⟨updates_none (by simp), by simp, by simp, by simp, by simp; intro _ h e; exact absurd e (hne h)⟩
  · rw [if_neg hr]
    exact ⟨updates_none (by simp), by simp, by simp, by simp, by simp [hr]⟩

/-- The loop of the merges. -/
structure MergeOk (r : List Ev × Out) : Prop where
  merges : MergesAsked r.1
  updates : .update ∉ r.1
  pinned : .pinned ∉ r.1
  ends : r.2 = .returned → ∃ p h, r.1 = p ++ [.heads [h]]

theorem mergeOk (ms : List MergeTurn) : MergeOk (mergeLoop ms) := by
  induction ms with
  | nil => exact ⟨merges_none (by simp [mergeLoop]), by simp [mergeLoop], by simp [mergeLoop], by simp [mergeLoop]⟩
  | cons t ts ih =>
    rw [mergeLoop]
    split
    · exact ⟨merges_none (by simp), by simp, by simp, by simp⟩
    · rename_i h0
      split
      · rename_i h1
        obtain ⟨h, hh⟩ := List.length_eq_one_iff.mp h1
        exact ⟨merges_none (by simp), by simp, by simp, fun _ => ⟨[], h, by simp [hh]⟩⟩
      · rename_i h1
        split
        · have hl : 2 ≤ t.heads.length := by
            have := List.length_pos_iff.mpr h0
            omega
          refine ⟨merges_append (merges_turn _ hl) ih.merges, by simp [ih.updates], by simp [ih.pinned], ?_⟩
          intro ho
          obtain ⟨p, h, hp⟩ := ih.ends ho
          exact ⟨[.heads t.heads, .prompt, .merge] ++ p, h, by simp [hp]⟩
        · exact ⟨merges_none (by simp), by simp, by simp, by simp⟩

theorem Ends.after {f : PinFile} {r : Run} (h : Ends f r) (es : List Ev) (hu : .update ∉ es) : Ends f (r.after es) := by
  rcases h with ⟨p, r', hp⟩ | ⟨h1, p, rev, h, hp, hq⟩
  · exact .inl ⟨es ++ p, r', by simp [Run.after, hp]⟩
  · exact .inr ⟨by simp [Run.after, h1, hu], es ++ p, rev, h, by simp [Run.after, hp], hq⟩

/-! ## The property -/

/-- The digits of a revision. -/
def hexDigits : List Char := ['0', '1', '2', '3', '4', '5', '6', '7', '8', '9', 'a', 'b', 'c', 'd', 'e', 'f', 'A', 'B', 'C', 'D', 'E', 'F']

/-- A revision as monotone prints it. -/
def IsRevision (t : Text) : Prop := t.length = 40 ∧ ∀ c ∈ t, c ∈ hexDigits

/-- What is asked of a pull or sync. -/
structure Good (f : PinFile) (rev : Text) (hs : List Text) (made : Bool) (r : Run) : Prop where
  /-- updates are done only when needed, after asking -/
  updates : UpdatesAsked r.log
  /-- so are merges -/
  merges : MergesAsked r.log
  /-- `made_changes` tells -/
  made : r.made = true ↔ made = true ∨ .update ∈ r.log
  /-- a run that returns leaves the checkout at the head or pinned -/
  ends : r.out = .returned → Ends f r
  /-- a pin for the head holds -/
  holds : ∀ h, hs = [h] → Pinned f rev h → .update ∉ r.log
  /-- nothing else is taken for a pin -/
  only : .pinned ∈ r.log → ∃ h, hs = [h] ∧ Pinned f rev h

theorem doUpdate_holds (f : PinFile) (rev h : Text) (ts : List Turn) (made : Bool) (hp : Pinned f rev h) : .update ∉ (doUpdate f rev [h] ts made).log := by
  unfold doUpdate
  split
  · rw [if_neg (by rintro rfl; obtain ⟨_, h, _⟩ := hp; cases h)]
    simp [(foundPin_iff f rev h).mpr hp]
  · simp

theorem isRevision_of {t : Text} (h : IsRevision t) : isRevision t = true := by
  have hd : ∀ c ∈ hexDigits, isHex c = true := by decide
  simp only [isRevision, Bool.and_eq_true, decide_eq_true_eq, List.all_eq_true]
  exact ⟨h.1, fun c hc => hd c (h.2 c hc)⟩

theorem good_after {f : PinFile} {rev : Text} {hs : List Text} {ts : List Turn} {made : Bool} {es : List Ev} (hm : MergesAsked es) (hu : .update ∉ es) (hp : .pinned ∉ es) :
    Good f rev hs made ((doUpdate f rev hs ts made).after es) := by
  have k := doOk f rev hs ts made
  refine ⟨updates_append (updates_none hu) k.updates, merges_append hm (merges_none k.merges), ?_, fun ho => (k.ends ho).after es hu, ?_, ?_⟩
  · simpa [Run.after, hu] using k.made
  · rintro h rfl hq
    simp [Run.after, hu, doUpdate_holds f rev h ts made hq]
  · intro h
    simp only [Run.after, List.mem_append, hp, false_or] at h
    exact (k.pinned.mp h).2

/-- A pull or a sync that returns leaves the checkout at the only head, as far as the last look could tell, or pinned, with the line for the head and the revision in the file and without any update; `made_changes` is set if and only if there was an update; the user is asked before every merge and every update, and these are only done when there are several heads, or another head; a pinned checkout stays as it is while the head stays, and a sync of it returns. Not covered: that a run ends. -/
theorem pull_partial (ok : Bool) (ms : List MergeTurn) (f : PinFile) (rev : Text) (hs : List Text) (ts : List Turn) (made : Bool) :
    Good f rev hs made (pull ok ms f rev hs ts made) ∧ Good f rev hs made (sync ok f rev hs ts made) ∧
    (∀ h, IsRevision rev → Pinned f rev h → sync true f rev [h] ts made = ⟨[.transfer, .revision rev, .heads [h], .pinned], made, .returned⟩) := by
  have dead : Good f rev hs made ⟨[], made, .died⟩ := ⟨updates_none (by simp), merges_none (by simp), by simp, by simp, by simp, by simp⟩
  refine ⟨?_, ?_, ?_⟩
  · unfold pull
    cases ok with
    | false => exact dead
    | true =>
      have k := mergeOk ms
      rw [if_pos rfl]
      split
      · exact good_after (merges_append (a := [.transfer]) (merges_none (by simp)) k.merges) (by simp [k.updates]) (by simp [k.pinned])
      · rename_i hne
        have hu : .update ∉ Ev.transfer :: (mergeLoop ms).1 := by simp [k.updates]
        exact ⟨updates_none hu, merges_append (a := [.transfer]) (merges_none (by simp)) k.merges, by simp [k.updates], fun h => absurd h hne, fun _ _ _ => hu, by simp [k.pinned]⟩
  · unfold sync
    cases ok with
    | false => exact dead
    | true => exact good_after (merges_none (by simp)) (by simp) (by simp)
  · intro h hr hp
    simp only [sync, doUpdate, isRevision_of hr, if_true, (foundPin_iff f rev h).mpr hp]
    rw [if_neg (by rintro rfl; obtain ⟨_, h, _⟩ := hp; cases h)]
    rfl

/-- Other people's changes come in: two heads are merged, the checkout is updated, and then found to be at the head. -/
example : let a : Text := List.replicate 40 'a'; let b : Text := List.replicate 40 'b'; let c : Text := List.replicate 40 'c'
    pull true [⟨[a, b], true, true⟩, ⟨[c], true, true⟩] .absent a [] [⟨a, [c], true, true⟩, ⟨c, [c], true, true⟩] false =
      ⟨[.transfer, .heads [a, b], .prompt, .merge, .heads [c], .revision a, .revision a, .heads [c], .prompt, .update, .revision c, .heads [c]], true, .returned⟩ := by
  decide +kernel

/-- A pin that holds, and one that does not because the head is another. -/
example : let a : Text := List.replicate 40 'a'; let b : Text := List.replicate 40 'b'; let c : Text := List.replicate 40 'c'
    let f := PinFile.lines [b ++ ' ' :: a]
    (sync true f a [b] [] false).log = [.transfer, .revision a, .heads [b], .pinned] ∧
    (sync true f a [c] [⟨a, [c], true, true⟩, ⟨c, [c], true, true⟩] false).log = [.transfer, .revision a, .heads [c], .wouldPin, .revision a, .heads [c], .prompt, .update, .revision c, .heads [c]] := by
  decide +kernel

/-- "pin <revision>" never pins: without the interface, the question about unknown files at line 1805 dies, whatever the state of the checkout. -/
theorem setPin_false (i : PinIn) : setPin i = none := rfl

/-- A checkout for which pinning would make sense. -/
example : ∃ i : PinIn, i.unknown = false ∧ i.changes = false ∧ i.heads.length = 1 ∧ i.updates = true ∧ setPin i = none :=
  ⟨⟨false, false, [['b']], some ['a'], true, ['a']⟩, rfl, rfl, rfl, rfl, rfl⟩

/-- A pin whose revision is shortened, as monotone accepts them, does not hold: only the text of the whole revision is found. -/
theorem short_pin_false : ∃ (rev h short : Text) (ts : List Turn), IsRevision rev ∧ short <+: rev ∧ short ≠ [] ∧
    .update ∈ (sync true (.lines [h ++ ' ' :: short]) rev [h] ts false).log := by
  refine ⟨List.replicate 40 'a', List.replicate 40 'b', ['a', 'a'], [⟨List.replicate 40 'a', [List.replicate 40 'b'], true, true⟩], ?_, ⟨List.replicate 38 'a', rfl⟩, by simp, by decide +kernel⟩
  unfold IsRevision hexDigits
  decide

end Verif.DepVC.Pin
