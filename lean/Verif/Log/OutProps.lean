import Verif.Log.OutSpec

/-! # Output of `LintelLog` -/

namespace Verif.Log.Out

/-- What is left to give. -/
def left : PC → List (Msg × App)
  | .logging m rest | .nested m rest => rest.map fun a => (m, a)
  | _ => []

/-- The appender that will be added. -/
def soon : PC → List App
  | .adding a => [a]
  | _ => []

/-- In possession of the mutex. -/
def inside : PC → Bool
  | .logging _ _ | .adding _ | .added _ | .nested _ _ => true
  | _ => false

def actOf (t : Nat) : PC → List Act
  | .wantLog m | .logging m _ | .nested m _ => [.log t m]
  | .wantAdd a | .adding a | .added a => [.add t a]
  | .idle => []

/-- The appenders after some calls. -/
def appsAfter : List Act → List App
  | [] => []
  | .log _ _ :: l => appsAfter l
  | .add _ a :: l => a :: appsAfter l

theorem appsAfter_append : ∀ l l', appsAfter (l ++ l') = appsAfter l ++ appsAfter l'
  | [], _ => rfl
  | .log _ _ :: l, l' => appsAfter_append l l'
  | .add _ a :: l, l' => by simp [appsAfter, appsAfter_append l l']

theorem toCall_eq (apps : List App) (m : Msg) (t : Nat) : oneByOne apps [.log t m] = (toCall apps).map (fun a => (m, a)) := by
  cases apps <;> simp [toCall, oneByOne]

theorem oneByOne_append : ∀ (l l' : List Act) (as : List App), oneByOne as (l ++ l') = oneByOne as l ++ oneByOne (as ++ appsAfter l) l'
  | [], l', as => by simp [oneByOne, appsAfter]
  | .log t m :: l, l', as => by cases as <;> simp [oneByOne, appsAfter, oneByOne_append l l']
  | .add t a :: l, l', as => by simp [oneByOne, appsAfter, oneByOne_append l l', List.append_assoc]

theorem screen_append : ∀ l l' : List Event, screen (l ++ l') = screen l ++ screen l'
  | [], _ => rfl
  | e :: l, l' => by
    cases e with
    | give t m a sec usec => cases a <;> simp [screen, screen_append l l']
    | _ => simp [screen, screen_append l l']

/-- Of the thread that is inside, if any. -/
def ofHolder {α : Type} (f : PC → List α) (s : State) : List α :=
  match s.holder with
  | none => []
  | some t => f (s.pc t)

structure Inv (s : State) : Prop where
  excl : ∀ t, inside (s.pc t) = true ↔ s.holder = some t
  apps : appsAfter s.lin = s.apps ++ ofHolder soon s
  gave : given s.events ++ ofHolder left s = oneByOne [] s.lin
  called : ∀ t, called t s.events = returned t s.events ++ actOf t (s.pc t)
  lin : ∀ t, ofThread t s.lin = returned t s.events ++ if inside (s.pc t) then actOf t (s.pc t) else []
  shown : s.term ++ s.buf = screen s.events
  urgent : ∀ es x rest, s.events = es ++ x :: rest → Urgent x → screen (es ++ [x]) <+: s.term

theorem inv_init : Inv init where
  excl := fun t => by simp [init, inside]
  apps := rfl
  gave := rfl
  called := fun t => rfl
  lin := fun t => rfl
  shown := rfl
  urgent := fun es x rest h => by simp [init] at h

theorem called_note (t : Nat) (es : List Event) (e : Event) : called t (es ++ [e]) = called t es ++ called t [e] := by simp [called]
theorem returned_note (t : Nat) (es : List Event) (e : Event) : returned t (es ++ [e]) = returned t es ++ returned t [e] := by simp [returned]
theorem given_note (es : List Event) (e : Event) : given (es ++ [e]) = given es ++ given [e] := by simp [given]
theorem ofThread_snoc (t : Nat) (l : List Act) (x : Act) : ofThread t (l ++ [x]) = ofThread t l ++ ofThread t [x] := by simp [ofThread]

@[simp] theorem called_call (t : Nat) (x : Act) : called t [.call x] = if x.thread = t then [x] else [] := by unfold called; split <;> simp [*]
@[simp] theorem called_give (t u : Nat) (m : Msg) (a : App) (sec usec : Nat) : called t [.give u m a sec usec] = [] := rfl
@[simp] theorem called_ret (t : Nat) (x : Act) : called t [.ret x] = [] := rfl
@[simp] theorem returned_call (t : Nat) (x : Act) : returned t [.call x] = [] := rfl
@[simp] theorem returned_give (t u : Nat) (m : Msg) (a : App) (sec usec : Nat) : returned t [.give u m a sec usec] = [] := rfl
@[simp] theorem returned_ret (t : Nat) (x : Act) : returned t [.ret x] = if x.thread = t then [x] else [] := by unfold returned; split <;> simp [*]
@[simp] theorem actOf_idle (t : Nat) : actOf t .idle = [] := rfl
@[simp] theorem actOf_logging (t : Nat) (m : Msg) (l : List App) : actOf t (.logging m l) = [.log t m] := rfl
@[simp] theorem inside_idle : inside .idle = false := rfl
@[simp] theorem inside_logging (m : Msg) (l : List App) : inside (.logging m l) = true := rfl

/-- A later event keeps what was on the terminal. -/
theorem urgent_snoc {es0 : List Event} {term term' : Txt} {e : Event} (h : ∀ es x rest, es0 = es ++ x :: rest → Urgent x → screen (es ++ [x]) <+: term)
    (hp : term <+: term') (he : Urgent e → screen (es0 ++ [e]) <+: term') : ∀ es x rest, es0 ++ [e] = es ++ x :: rest → Urgent x → screen (es ++ [x]) <+: term' := by
  intro es x rest heq hx
  rcases List.eq_nil_or_concat rest with rfl | ⟨r, y, rfl⟩
  · obtain ⟨rfl, h2⟩ := List.append_inj' heq rfl
    obtain rfl := (List.cons.inj h2).1
    exact he hx
  · have : es0 ++ [e] = (es ++ x :: r) ++ [y] := by simpa using heq
    obtain ⟨h1, -⟩ := List.append_inj' this rfl
    exact (h es x r h1 hx).trans hp

theorem give_same (s : State) (t : Nat) (m : Msg) (sec usec : Nat) (a : App) : (s.give t m sec usec a).holder = s.holder ∧ (s.give t m sec usec a).apps = s.apps ∧
    (s.give t m sec usec a).pc = s.pc ∧ (s.give t m sec usec a).lin = s.lin ∧ (s.give t m sec usec a).events = s.events ++ [.give t m a sec usec] := by
  obtain ⟨x, ty⟩ := m
  cases a <;> cases ty <;> exact ⟨rfl, rfl, rfl, rfl, rfl⟩

theorem give_text (s : State) (t : Nat) (m : Msg) (sec usec : Nat) (a : App) :
    (s.give t m sec usec a).term ++ (s.give t m sec usec a).buf = s.term ++ s.buf ++ screen [.give t m a sec usec] ∧ s.term <+: (s.give t m sec usec a).term ∧
    (Urgent (.give t m a sec usec) → (s.give t m sec usec a).buf = []) := by
  obtain ⟨x, ty⟩ := m
  cases a <;> cases ty <;>
    simp [State.give, State.note, State.write, consoleWrite, timedWrite, screen, line, timedLine, Urgent, Ty.name, typeName, timeText, List.append_assoc]

theorem excl_unique {s : State} (h : Inv s) {t u : Nat} (ht : inside (s.pc t) = true) (hu : inside (s.pc u) = true) : t = u := by
  have h1 := (h.excl t).1 ht
  have h2 := (h.excl u).1 hu
  rw [h1] at h2
  exact Option.some.inj h2

/-- A thread outside comes to call something. -/
theorem inv_call {s : State} (h : Inv s) (t : Nat) (p : PC) (x : Act) (hp : s.pc t = .idle) (hi : inside p = false) (ha : actOf t p = [x]) (hx : x.thread = t) :
    Inv ((s.goto t p).note (.call x)) := by
  have hh : s.holder ≠ some t := fun hc => by
    have := (h.excl t).2 hc
    rw [hp] at this
    exact absurd this (by decide)
  have hof : ∀ {α : Type} (f : PC → List α), ofHolder f ((s.goto t p).note (.call x)) = ofHolder f s := by
    intro α f
    simp only [ofHolder, State.note, State.goto]
    cases hs : s.holder with
    | none => rfl
    | some u =>
      have : u ≠ t := fun hc => hh (by rw [hs, hc])
      simp only [if_neg this]
  refine ⟨?_, ?_, ?_, ?_, ?_, ?_, ?_⟩
  · intro u
    simp only [State.note, State.goto]
    by_cases hu : u = t
    · subst hu; rw [if_pos rfl, hi]; simp [hh]
    · rw [if_neg hu]; exact h.excl u
  · rw [hof]; exact h.apps
  · rw [hof]
    simp only [State.note, State.goto, given_note]
    simpa [given] using h.gave
  · intro u
    simp only [State.note, State.goto, called_note, returned_note]
    by_cases hu : u = t
    · subst hu
      have := h.called u
      rw [hp] at this
      simp [hx, ha] at this ⊢
      exact this
    · have hx' : x.thread ≠ u := by omega
      have := h.called u
      simp [hx', hu] at this ⊢
      exact this
  · intro u
    simp only [State.note, State.goto, returned_note]
    by_cases hu : u = t
    · subst hu
      have := h.lin u
      rw [hp] at this
      simp [hi] at this ⊢
      exact this
    · have := h.lin u
      simp [hu] at this ⊢
      exact this
  · simp only [State.note, State.goto, screen_append]
    rw [h.shown]
    simp [screen]
  · exact urgent_snoc h.urgent (List.prefix_refl _) (fun hc => hc.elim)

/-- A waiting thread gets the mutex. -/
theorem inv_enter {s : State} (h : Inv s) (t : Nat) (p : PC) (x : Act) (hw : inside (s.pc t) = false) (ho : s.holder = none) (hi : inside p = true) (ha : actOf t (s.pc t) = [x])
    (ha' : actOf t p = [x]) (hx : x.thread = t) (happs : appsAfter [x] = soon p) (hg : oneByOne s.apps [x] = left p) :
    Inv { s.goto t p with holder := some t, lin := s.lin ++ [x] } := by
  have hs0 : appsAfter s.lin = s.apps := by have := h.apps; simpa [ofHolder, ho] using this
  have hg0 : given s.events = oneByOne [] s.lin := by have := h.gave; simpa [ofHolder, ho] using this
  have hout : ∀ u, inside (s.pc u) = false := fun u => by
    cases hc : inside (s.pc u) with
    | false => rfl
    | true => have := (h.excl u).1 hc; rw [ho] at this; cases this
  refine ⟨?_, ?_, ?_, ?_, ?_, h.shown, h.urgent⟩
  · intro u
    simp only [State.goto]
    by_cases hu : u = t
    · subst hu; simp [hi]
    · rw [if_neg hu, hout u]
      simp only [Option.some.injEq]
      constructor
      · intro hc; cases hc
      · intro hc; exact absurd hc.symm hu
  · simp only [ofHolder, State.goto, if_true, appsAfter_append, hs0, happs]
  · simp only [ofHolder, State.goto, if_true, oneByOne_append, List.nil_append, hs0, hg, hg0]
  · intro u
    simp only [State.goto]
    by_cases hu : u = t
    · subst hu
      rw [if_pos rfl, ha', ← ha]; exact h.called u
    · rw [if_neg hu]; exact h.called u
  · intro u
    simp only [State.goto, ofThread_snoc]
    have := h.lin u
    rw [hout u] at this
    rw [this]
    by_cases hu : u = t
    · subst hu
      simp [hi, ha', ofThread, hx]
    · have hx' : x.thread ≠ u := by omega
      simp [hu, hout u, ofThread, hx']

/-- The thread inside gives the message to the next appender. -/
theorem inv_give {s : State} (h : Inv s) (t : Nat) (m : Msg) (a : App) (rest : List App) (sec usec : Nat) (p : PC) (hp : s.pc t = .logging m (a :: rest)) (hi : inside p = true)
    (ha : actOf t p = [.log t m]) (hs : soon p = []) (hl : left p = rest.map fun a => (m, a)) : Inv ((s.give t m sec usec a).goto t p) := by
  obtain ⟨g1, g2, g3, g4, g5⟩ := give_same s t m sec usec a
  obtain ⟨w1, w2, w3⟩ := give_text s t m sec usec a
  have hh : s.holder = some t := (h.excl t).1 (by rw [hp]; rfl)
  refine ⟨?_, ?_, ?_, ?_, ?_, ?_, ?_⟩
  · intro u
    simp only [State.goto, g1, g3]
    by_cases hu : u = t
    · subst hu; simp [hi, hh]
    · rw [if_neg hu]; exact h.excl u
  · have := h.apps
    simp only [ofHolder, hh, hp, soon] at this
    simp only [ofHolder, State.goto, g1, g2, g4, hh, if_true, hs]
    exact this
  · have := h.gave
    simp only [ofHolder, hh, hp, left, List.map_cons] at this
    simp only [ofHolder, State.goto, g1, g4, g5, hh, if_true, hl, given_note]
    rw [← this]
    simp [given]
  · intro u
    simp only [State.goto, g3, g5, called_note, returned_note]
    have := h.called u
    by_cases hu : u = t
    · subst hu
      rw [hp] at this
      simp [ha] at this ⊢
      exact this
    · simp [hu] at this ⊢
      exact this
  · intro u
    simp only [State.goto, g3, g4, g5, returned_note]
    have := h.lin u
    by_cases hu : u = t
    · subst hu
      rw [hp] at this
      simp [ha, hi] at this ⊢
      exact this
    · simp [hu] at this ⊢
      exact this
  · simp only [State.goto, g5, screen_append]
    rw [w1, h.shown]
  · simp only [State.goto, g5]
    refine urgent_snoc h.urgent w2 fun hu => ?_
    rw [screen_append, ← h.shown, ← w1, w3 hu, List.append_nil]
    exact List.prefix_refl _

/-- The thread inside leaves. -/
theorem inv_leave {s : State} (h : Inv s) (t : Nat) (x : Act) (hi : inside (s.pc t) = true) (ha : actOf t (s.pc t) = [x]) (hx : x.thread = t) (hs : soon (s.pc t) = [])
    (hl : left (s.pc t) = []) : Inv (({ s with holder := none }.goto t .idle).note (.ret x)) := by
  have hh : s.holder = some t := (h.excl t).1 hi
  refine ⟨?_, ?_, ?_, ?_, ?_, ?_, ?_⟩
  · intro u
    simp only [State.goto, State.note]
    by_cases hu : u = t
    · subst hu; simp [inside]
    · rw [if_neg hu, h.excl u, hh]
      simp [Ne.symm hu]
  · have := h.apps
    simp only [ofHolder, hh, hs] at this
    simp only [ofHolder, State.goto, State.note]
    exact this
  · have := h.gave
    simp only [ofHolder, hh, hl] at this
    simp only [ofHolder, State.goto, State.note, given_note]
    rw [← this]
    simp [given]
  · intro u
    simp only [State.goto, State.note, called_note, returned_note]
    have := h.called u
    by_cases hu : u = t
    · subst hu
      simp [ha, hx] at this ⊢
      exact this
    · have hx' : x.thread ≠ u := by omega
      simp [hu, hx'] at this ⊢
      exact this
  · intro u
    simp only [State.goto, State.note, returned_note]
    have := h.lin u
    by_cases hu : u = t
    · subst hu
      simp [ha, hi, hx] at this ⊢
      exact this
    · have hx' : x.thread ≠ u := by omega
      simp [hu, hx'] at this ⊢
      exact this
  · simp only [State.goto, State.note, screen_append]
    rw [h.shown]
    simp [screen]
  · exact urgent_snoc h.urgent (List.prefix_refl _) (fun hc => hc.elim)

/-- `push_back`. -/
theorem inv_push {s : State} (h : Inv s) (t : Nat) (a : App) (hp : s.pc t = .adding a) : Inv ({ s with apps := s.apps ++ [a] }.goto t (.added a)) := by
  have hh : s.holder = some t := (h.excl t).1 (by rw [hp]; rfl)
  refine ⟨?_, ?_, ?_, ?_, ?_, h.shown, h.urgent⟩
  · intro u
    simp only [State.goto]
    by_cases hu : u = t
    · subst hu; simp [inside, hh]
    · rw [if_neg hu]; exact h.excl u
  · have := h.apps
    simp only [ofHolder, hh, hp, soon] at this
    simp only [ofHolder, State.goto, hh, if_true, soon, List.append_nil]
    exact this
  · have := h.gave
    simp only [ofHolder, hh, hp, left] at this
    simp only [ofHolder, State.goto, hh, if_true, left]
    exact this
  · intro u
    simp only [State.goto]
    have := h.called u
    by_cases hu : u = t
    · subst hu
      rw [hp] at this
      rw [if_pos rfl]; exact this
    · rw [if_neg hu]; exact this
  · intro u
    simp only [State.goto]
    have := h.lin u
    by_cases hu : u = t
    · subst hu
      rw [hp] at this
      rw [if_pos rfl]; exact this
    · rw [if_neg hu]; exact this

theorem inv_step {s : State} (h : Inv s) (mv : Move) : Inv (step s mv) := by
  cases mv with
  | log t m =>
    simp only [step]
    split
    · rename_i hp; exact inv_call h t _ _ hp rfl rfl rfl
    · exact h
  | add t a =>
    simp only [step]
    split
    · rename_i hp; exact inv_call h t _ _ hp rfl rfl rfl
    · exact h
  | step t sec usec =>
    simp only [step]
    split
    · exact h
    · exact h
    · rename_i m hp
      split
      · rename_i ho
        exact inv_enter h t _ _ (by rw [hp]; rfl) ho rfl (by rw [hp]; rfl) rfl rfl rfl (toCall_eq _ _ _)
      · exact h
    · rename_i m a rest hp
      exact inv_give h t m a rest sec usec _ hp rfl rfl rfl rfl
    · rename_i m hp
      exact inv_leave h t _ (by rw [hp]; rfl) (by rw [hp]; rfl) rfl (by rw [hp]; rfl) (by rw [hp]; rfl)
    · rename_i a hp
      split
      · rename_i ho
        exact inv_enter h t _ _ (by rw [hp]; rfl) ho rfl (by rw [hp]; rfl) rfl rfl rfl (by cases s.apps <;> rfl)
      · exact h
    · rename_i a hp
      exact inv_push h t a hp
    · rename_i a hp
      exact inv_leave h t _ (by rw [hp]; rfl) (by rw [hp]; rfl) rfl (by rw [hp]; rfl) (by rw [hp]; rfl)
  | nested t sec usec =>
    simp only [step]
    split
    · rename_i m i rest hp
      exact inv_give h t m _ rest sec usec _ hp rfl rfl rfl rfl
    · exact h
  | spill n =>
    refine ⟨h.excl, h.apps, h.gave, h.called, h.lin, ?_, ?_⟩
    · show s.term ++ s.buf.take n ++ s.buf.drop n = _
      rw [List.append_assoc, List.take_append_drop]; exact h.shown
    · exact fun es x rest he hx => (h.urgent es x rest he hx).trans ⟨_, rfl⟩

theorem inv_run (ms : List Move) : Inv (run ms) := by
  have : ∀ (ms : List Move) (s : State), Inv s → Inv (ms.foldl step s) := by
    intro ms
    induction ms with
    | nil => exact fun s h => h
    | cons mv ms ih => exact fun s h => ih _ (inv_step h mv)
  exact this ms init inv_init

theorem lin_grows (s : State) (mv : Move) : s.lin <+: (step s mv).lin := by
  cases mv with
  | step t sec usec =>
    simp only [step]
    split <;> first | exact List.prefix_refl _ | (split <;> first | exact ⟨_, rfl⟩ | exact List.prefix_refl _) | (simp only [State.goto, (give_same _ _ _ _ _ _).2.2.2.1]; exact List.prefix_refl _)
  | nested t sec usec =>
    simp only [step]
    split
    · simp only [State.goto, (give_same _ _ _ _ _ _).2.2.2.1]; exact List.prefix_refl _
    · exact List.prefix_refl _
  | log t m => simp only [step]; split <;> exact List.prefix_refl _
  | add t a => simp only [step]; split <;> exact List.prefix_refl _
  | spill n => exact List.prefix_refl _

/-- C214. Whatever the threads do, logging is as if the calls were made one after the other, in an order that is settled when each gets the mutex, between its call and its return:
every message goes to all appenders there are, in the order they were added (or to the console if there is none), and nothing comes between. -/
theorem log_one_by_one : ∃ order : List Move → List Act, ∀ ms,
    (∀ mv, order ms <+: order (ms ++ [mv])) ∧
    (∀ t, returned t (run ms).events <+: ofThread t (order ms) ∧ ofThread t (order ms) <+: called t (run ms).events) ∧
    given (run ms).events <+: oneByOne [] (order ms) ∧
    (Quiet (run ms) → given (run ms).events = oneByOne [] (order ms) ∧ ∀ t, ofThread t (order ms) = called t (run ms).events) := by
  refine ⟨fun ms => (run ms).lin, fun ms => ?_⟩
  have h := inv_run ms
  refine ⟨fun mv => ?_, fun t => ⟨?_, ?_⟩, ?_, fun hq => ⟨?_, fun t => ?_⟩⟩
  · show (run ms).lin <+: (run (ms ++ [mv])).lin
    rw [show run (ms ++ [mv]) = step (run ms) mv by simp [run]]
    exact lin_grows _ _
  · rw [h.lin]; exact ⟨_, rfl⟩
  · rw [h.lin, h.called]
    split
    · exact List.prefix_refl _
    · rw [List.append_nil]; exact ⟨_, rfl⟩
  · rw [← h.gave]; exact ⟨_, rfl⟩
  · rw [← h.gave]
    have : ofHolder left (run ms) = [] := by
      unfold ofHolder
      split
      · rfl
      · rw [hq]; rfl
    rw [this, List.append_nil]
  · rw [h.lin, h.called, hq t]; rfl

/-- Two threads, two appenders. -/
example : given (run [.add 0 (.user 7), .step 0 0 0, .step 0 0 0, .step 0 0 0, .log 0 ⟨['a'], .info⟩, .log 1 ⟨['b'], .warn⟩, .step 1 0 0, .step 0 0 0, .step 1 0 0, .add 2 .console,
    .step 2 0 0, .step 1 0 0, .step 2 0 0, .step 2 0 0, .step 2 0 0, .step 0 0 0, .step 0 0 0, .step 0 0 0, .step 0 0 0]).events =
      [(⟨['b'], .warn⟩, .user 7), (⟨['a'], .info⟩, .user 7), (⟨['a'], .info⟩, .console)] := by decide +kernel

/-- C214. The console: at all times the terminal and the buffer together hold exactly the lines of the messages, in order; and once a warning or an error was written, it and all that was
logged before it is on the terminal, whatever happens to the process. -/
theorem console_in_order (ms : List Move) :
    (run ms).term ++ (run ms).buf = screen (run ms).events ∧
      ∀ es x rest, (run ms).events = es ++ x :: rest → Urgent x → screen (es ++ [x]) <+: (run ms).term :=
  ⟨(inv_run ms).shown, (inv_run ms).urgent⟩

example : (run [.log 0 ⟨"x".toList, .info⟩, .step 0 0 0, .step 0 0 0, .step 0 0 0, .spill 3, .log 0 ⟨"bad".toList, .error⟩, .step 0 0 0, .step 0 0 0]).term = "INFO: x\nERROR: bad\n".toList ∧
    (run [.log 0 ⟨"x".toList, .info⟩, .step 0 0 0, .step 0 0 0, .step 0 0 0, .spill 3]).term = "INF".toList := by decide +kernel

/-! ## Calls return -/

def steps (t k : Nat) : List Move := List.replicate k (.step t 0 0)

theorem goto_other (s : State) (t u : Nat) (p : PC) (h : u ≠ t) : (s.goto t p).pc u = s.pc u := by simp [State.goto, h]
theorem goto_self (s : State) (t : Nat) (p : PC) : (s.goto t p).pc t = p := by simp [State.goto]

/-- The thread inside gets out. -/
theorem drive (t : Nat) : ∀ (n : Nat) (s : State) (m : Msg) (rest : List App), rest.length = n → s.pc t = .logging m rest →
    ∃ k, let s' := (steps t k).foldl step s; s'.pc t = .idle ∧ s'.holder = none ∧ ∀ u, u ≠ t → s'.pc u = s.pc u := by
  intro n
  induction n with
  | zero =>
    intro s m rest hl hp
    obtain rfl := List.length_eq_zero_iff.1 hl
    refine ⟨1, ?_⟩
    simp only [steps, List.replicate, List.foldl, step, hp]
    exact ⟨by simp [State.note, State.goto], rfl, fun u hu => by simp [State.note, State.goto, hu]⟩
  | succ n ih =>
    intro s m rest hl hp
    obtain ⟨a, rest, rfl⟩ : ∃ a r, rest = a :: r := by cases rest with
      | nil => cases hl
      | cons a r => exact ⟨a, r, rfl⟩
    obtain ⟨k, h1, h2, h3⟩ := ih ((s.give t m 0 0 a).goto t (.logging m rest)) m rest (by simpa using hl) (goto_self _ _ _)
    refine ⟨k + 1, ?_⟩
    have e : (steps t (k + 1)).foldl step s = (steps t k).foldl step ((s.give t m 0 0 a).goto t (.logging m rest)) := by
      simp only [steps, List.replicate_succ, List.foldl_cons, step, hp]
    rw [e]
    refine ⟨h1, h2, fun u hu => ?_⟩
    rw [h3 u hu, goto_other _ _ _ _ hu, (give_same _ _ _ _ _ _).2.2.1]

theorem drive_in {s : State} (h : Inv s) {t : Nat} (hi : inside (s.pc t) = true) (hn : ∀ m r, s.pc t ≠ .nested m r) :
    ∃ k, let s' := (steps t k).foldl step s; s'.pc t = .idle ∧ s'.holder = none ∧ ∀ u, u ≠ t → s'.pc u = s.pc u := by
  cases hp : s.pc t with
  | idle => rw [hp] at hi; cases hi
  | wantLog m => rw [hp] at hi; cases hi
  | wantAdd a => rw [hp] at hi; cases hi
  | nested m r => exact absurd hp (hn m r)
  | logging m rest => exact drive t _ s m rest rfl hp
  | adding a =>
    refine ⟨2, ?_⟩
    simp only [steps, List.replicate, List.foldl, step, hp]
    simp only [goto_self]
    exact ⟨by simp [State.note, State.goto], rfl, fun u hu => by simp [State.note, State.goto, hu]⟩
  | added a =>
    refine ⟨1, ?_⟩
    simp only [steps, List.replicate, List.foldl, step, hp]
    exact ⟨by simp [State.note, State.goto], rfl, fun u hu => by simp [State.note, State.goto, hu]⟩

/-- With the mutex free, any thread can finish its call. -/
theorem finish {s : State} (h : Inv s) (ho : s.holder = none) (t : Nat) :
    ∃ k, let s' := (steps t k).foldl step s; s'.pc t = .idle ∧ s'.holder = none ∧ ∀ u, u ≠ t → s'.pc u = s.pc u := by
  have hout : inside (s.pc t) = false := by
    cases hc : inside (s.pc t) with
    | false => rfl
    | true => have := (h.excl t).1 hc; rw [ho] at this; cases this
  have enter : ∀ s1, step s (.step t 0 0) = s1 → inside (s1.pc t) = true → (∀ m r, s1.pc t ≠ .nested m r) → (∀ u, u ≠ t → s1.pc u = s.pc u) →
      ∃ k, let s' := (steps t k).foldl step s; s'.pc t = .idle ∧ s'.holder = none ∧ ∀ u, u ≠ t → s'.pc u = s.pc u := by
    intro s1 e hi hn hu
    obtain ⟨k, h1, h2, h3⟩ := drive_in (e ▸ inv_step h (.step t 0 0)) hi hn
    refine ⟨k + 1, ?_⟩
    rw [steps, List.replicate_succ, List.foldl_cons, e]
    exact ⟨h1, h2, fun u hu' => (h3 u hu').trans (hu u hu')⟩
  cases hp : s.pc t with
  | idle => exact ⟨0, hp, ho, fun _ _ => rfl⟩
  | wantLog m =>
    refine enter _ rfl ?_ ?_ ?_ <;> simp only [step, hp, ho, if_true]
    · simp [State.goto]
    · intro m' r; simp [State.goto]
    · intro u hu; simp [State.goto, hu]
  | wantAdd a =>
    refine enter _ rfl ?_ ?_ ?_ <;> simp only [step, hp, ho, if_true]
    · simp [State.goto, inside]
    · intro m' r; simp [State.goto]
    · intro u hu; simp [State.goto, hu]
  | logging m r => rw [hp] at hout; cases hout
  | nested m r => rw [hp] at hout; cases hout
  | adding a => rw [hp] at hout; cases hout
  | added a => rw [hp] at hout; cases hout

theorem inv_steps : ∀ (ms : List Move) {s : State}, Inv s → Inv (ms.foldl step s)
  | [], _, h => h
  | mv :: ms, _, h => inv_steps ms (inv_step h mv)

theorem finish_all : ∀ (T : List Nat) (s : State), Inv s → s.holder = none → ∃ ms : List Move, (∀ mv ∈ ms, ∃ t, mv = .step t 0 0) ∧
    let s' := ms.foldl step s; s'.holder = none ∧ (∀ t ∈ T, s'.pc t = .idle) ∧ ∀ u, s.pc u = .idle → s'.pc u = .idle
  | [], s, _, ho => ⟨[], by simp, ho, by simp, fun _ h => h⟩
  | t :: T, s, h, ho => by
    obtain ⟨k, h1, h2, h3⟩ := finish h ho t
    obtain ⟨ms, m1, m2, m3, m4⟩ := finish_all T _ (inv_steps (steps t k) h) h2
    refine ⟨steps t k ++ ms, ?_, ?_⟩
    · intro mv hm
      rcases List.mem_append.1 hm with hm | hm
      · exact ⟨t, (List.mem_replicate.1 hm).2⟩
      · exact m1 mv hm
    · rw [List.foldl_append]
      refine ⟨m2, fun u hu => ?_, fun u hu => m4 u ?_⟩
      · by_cases hut : u = t
        · subst hut; exact m4 u h1
        · rcases List.mem_cons.1 hu with rfl | hu
          · exact absurd rfl hut
          · exact m3 u hu
      · by_cases hut : u = t
        · subst hut; exact h1
        · rw [h3 u hut]; exact hu

def Move.who : Move → Nat
  | .log t _ | .add t _ | .step t _ _ | .nested t _ _ => t
  | .spill _ => 0

theorem step_other (s : State) (mv : Move) (u : Nat) (h : u ≠ mv.who) : (step s mv).pc u = s.pc u := by
  cases mv with
  | spill n => rfl
  | log t m => simp only [step, Move.who] at *; split <;> simp [State.note, State.goto, h]
  | add t a => simp only [step, Move.who] at *; split <;> simp [State.note, State.goto, h]
  | step t sec usec =>
    simp only [step, Move.who] at *
    split <;> first | rfl | (split <;> simp [State.goto, h]) | simp [State.goto, State.note, h, (give_same _ _ _ _ _ _).2.2.1]
  | nested t sec usec =>
    simp only [step, Move.who] at *
    split <;> first | rfl | simp [State.goto, h, (give_same _ _ _ _ _ _).2.2.1]

theorem not_nested (s : State) (mv : Move) (h : ∀ t m r, s.pc t ≠ .nested m r) (hm : ∀ t sec usec, mv ≠ .nested t sec usec) : ∀ t m r, (step s mv).pc t ≠ .nested m r := by
  intro u m r
  by_cases hu : u = mv.who
  · subst hu
    cases mv with
    | spill n => exact h _ _ _
    | log t m' => simp only [step, Move.who]; split <;> first | exact h _ _ _ | simp [State.note, State.goto]
    | add t a => simp only [step, Move.who]; split <;> first | exact h _ _ _ | simp [State.note, State.goto]
    | step t sec usec =>
      simp only [step, Move.who]
      split <;> first | exact h _ _ _ | (split <;> first | exact h _ _ _ | simp [State.goto]) | simp [State.goto, State.note]
    | nested t sec usec => exact absurd rfl (hm t sec usec)
  · rw [step_other s mv u hu]; exact h u m r

theorem run_facts (ms : List Move) : (∀ u, u ∉ ms.map Move.who → (run ms).pc u = .idle) ∧ (NoNested ms → ∀ t m r, (run ms).pc t ≠ .nested m r) := by
  have key : ∀ (ms : List Move) (s : State), (∀ u, u ∉ ms.map Move.who → (ms.foldl step s).pc u = s.pc u) ∧
      (NoNested ms → (∀ t m r, s.pc t ≠ .nested m r) → ∀ t m r, (ms.foldl step s).pc t ≠ .nested m r) := by
    intro ms
    induction ms with
    | nil => exact fun s => ⟨fun _ _ => rfl, fun _ h => h⟩
    | cons mv ms ih =>
      intro s
      refine ⟨fun u hu => ?_, fun hn hs => ?_⟩
      · rw [List.map_cons, List.mem_cons, not_or] at hu
        rw [List.foldl_cons, (ih _).1 u hu.2, step_other s mv u hu.1]
      · rw [List.foldl_cons]
        exact (ih _).2 (fun mv' h => hn mv' (List.mem_cons_of_mem _ h)) (not_nested s mv hs (hn mv List.mem_cons_self))
  exact ⟨(key ms init).1, fun hn => (key ms init).2 hn (fun _ _ _ => by simp [init])⟩

/-- C214. As long as no appender uses the library itself, every call can return: the threads need only go on. -/
theorem calls_return (ms : List Move) (h : NoNested ms) : ∃ ms' : List Move, (∀ mv ∈ ms', ∃ t, mv = .step t 0 0) ∧ Quiet (run (ms ++ ms')) := by
  obtain ⟨f1, f2⟩ := run_facts ms
  have hi := inv_run ms
  obtain ⟨k, t0, hk⟩ : ∃ k t0, ((steps t0 k).foldl step (run ms)).holder = none ∧ ∀ u, (run ms).pc u = .idle → ((steps t0 k).foldl step (run ms)).pc u = .idle := by
    cases ho : (run ms).holder with
    | none => exact ⟨0, 0, ho, fun _ h => h⟩
    | some t =>
      obtain ⟨k, h1, h2, h3⟩ := drive_in hi ((hi.excl t).2 ho) (f2 h t)
      refine ⟨k, t, h2, fun u hu => ?_⟩
      by_cases hut : u = t
      · subst hut; exact h1
      · rw [h3 u hut]; exact hu
  obtain ⟨ms1, m1, m2, m3, m4⟩ := finish_all (ms.map Move.who) _ (inv_steps (steps t0 k) hi) hk.1
  refine ⟨steps t0 k ++ ms1, ?_, fun u => ?_⟩
  · intro mv hm
    rcases List.mem_append.1 hm with hm | hm
    · exact ⟨t0, (List.mem_replicate.1 hm).2⟩
    · exact m1 mv hm
  · rw [show run (ms ++ (steps t0 k ++ ms1)) = ms1.foldl step ((steps t0 k).foldl step (run ms)) by simp [run]]
    by_cases hu : u ∈ ms.map Move.who
    · exact m3 u hu
    · exact m4 u (hk.2 u (f1 u hu))

example : NoNested [.log 0 ⟨['a'], .info⟩, .step 0 0 0, .log 1 ⟨['b'], .info⟩] ∧ ¬ Quiet (run [.log 0 ⟨['a'], .info⟩, .step 0 0 0, .log 1 ⟨['b'], .info⟩]) := by
  refine ⟨by simp [NoNested], fun h => ?_⟩
  have := h 1
  revert this
  decide +kernel

/-- C214, false of the code: once an appender calls the library, nothing is logged any more, and no call returns, for ever. -/
theorem nested_log_false (ms : List Move) (t : Nat) (m : Msg) (r : List App) (h : (run ms).pc t = .nested m r) (ms' : List Move) :
    given (run (ms ++ ms')).events = given (run ms).events ∧ ∀ u, returned u (run (ms ++ ms')).events = returned u (run ms).events := by
  have key : ∀ (ms' : List Move) (s : State), Inv s → s.pc t = .nested m r →
      given (ms'.foldl step s).events = given s.events ∧ ∀ u, returned u (ms'.foldl step s).events = returned u s.events := by
    intro ms'
    induction ms' with
    | nil => exact fun s _ _ => ⟨rfl, fun _ => rfl⟩
    | cons mv ms' ih =>
      intro s hi hp
      have hh : s.holder = some t := (hi.excl t).1 (by rw [hp]; rfl)
      have hout : ∀ u, u ≠ t → inside (s.pc u) = false := fun u hu => by
        cases hc : inside (s.pc u) with
        | false => rfl
        | true => exact absurd (Option.some.inj ((hi.excl u).1 hc ▸ hh)) hu
      have one : (step s mv).pc t = .nested m r ∧ given (step s mv).events = given s.events ∧ ∀ u, returned u (step s mv).events = returned u s.events := by
        cases mv with
        | spill n => exact ⟨hp, rfl, fun _ => rfl⟩
        | log u m' =>
          simp only [step]
          split
          · rename_i hu
            have : t ≠ u := fun hc => by rw [← hc, hp] at hu; cases hu
            exact ⟨by simp [State.note, State.goto, this, hp], by simp [State.note, State.goto, given], fun v => by simp [State.note, State.goto, returned_note]⟩
          · exact ⟨hp, rfl, fun _ => rfl⟩
        | add u a =>
          simp only [step]
          split
          · rename_i hu
            have : t ≠ u := fun hc => by rw [← hc, hp] at hu; cases hu
            exact ⟨by simp [State.note, State.goto, this, hp], by simp [State.note, State.goto, given], fun v => by simp [State.note, State.goto, returned_note]⟩
          · exact ⟨hp, rfl, fun _ => rfl⟩
        | step u sec usec =>
          by_cases hu : u = t
          · subst hu
            simp only [step, hp]
            exact ⟨trivial, trivial, fun _ => trivial⟩
          · have ho := hout u hu
            cases hpu : s.pc u with
            | idle => simp only [step, hpu]; exact ⟨hp, trivial, fun _ => trivial⟩
            | wantLog m' => simp only [step, hpu, hh]; exact ⟨hp, rfl, fun _ => rfl⟩
            | wantAdd a => simp only [step, hpu, hh]; exact ⟨hp, rfl, fun _ => rfl⟩
            | logging _ _ => rw [hpu] at ho; cases ho
            | nested _ _ => rw [hpu] at ho; cases ho
            | adding _ => rw [hpu] at ho; cases ho
            | added _ => rw [hpu] at ho; cases ho
        | nested u sec usec =>
          by_cases hu : u = t
          · subst hu
            simp only [step, hp]
            exact ⟨trivial, trivial, fun _ => trivial⟩
          · have ho := hout u hu
            cases hpu : s.pc u with
            | logging _ _ => rw [hpu] at ho; cases ho
            | _ => simp only [step, hpu]; exact ⟨hp, trivial, fun _ => trivial⟩
      obtain ⟨o1, o2, o3⟩ := one
      obtain ⟨i1, i2⟩ := ih (step s mv) (inv_step hi mv) o1
      exact ⟨i1.trans o2, fun u => (i2 u).trans (o3 u)⟩
  have e : run (ms ++ ms') = ms'.foldl step (run ms) := by simp [run]
  rw [e]
  exact key ms' _ (inv_run ms) h

example : (run [.add 0 (.user 1), .step 0 0 0, .step 0 0 0, .step 0 0 0, .log 0 ⟨['a'], .info⟩, .step 0 0 0, .nested 0 0 0]).pc 0 = .nested ⟨['a'], .info⟩ [] := by decide +kernel

end Verif.Log.Out
