import Verif.Proc.Segments

/-! # Exit functions that do not wait -/

namespace Verif.Proc

/-- Exit functions only start processes. -/
def Quiet (code : Nat → List Act) : Prop := ∀ i, ∀ a ∈ code i, ∃ m f, a = .fork m f

/-- What the stack looks like then. -/
inductive QStack (ch : List (Pid × Option Nat)) : List Frame → Prop
  | nil : QStack ch []
  | main {m} : QStack ch [.acts m]
  | all {r m} : QStack ch [.waitAll r, .acts m]
  | pid {p v m} : ((get p ch).isSome ∨ v ≠ none) → QStack ch [.waitPid p v, .acts m]
  | wmain {t ph ex n m} : QStack ch [.wait t ph ex n, .acts m]
  | wall {t ph ex n r m} : QStack ch [.wait t ph ex n, .waitAll r, .acts m]
  | wpid {t ph ex n p m} : ((get p ch).isSome ∨ get p ex ≠ none) → QStack ch [.wait t ph ex n, .waitPid p none, .acts m]
  | fn {l t ph ex n st} : (∀ a ∈ l, ∃ m f, a = Act.fork m f) → QStack ch (.wait t ph ex n :: st) → QStack ch (.acts l :: .wait t ph ex n :: st)

structure QInv (s : State) : Prop where
  shape : QStack s.children s.stack
  flat : Flat s.log
  fine : Event.died .vanished ∉ s.log

theorem QStack.more {ch ch' : List (Pid × Option Nat)} {st : List Frame} (h : QStack ch st) (hc : ∀ p, (get p ch).isSome → (get p ch').isSome) : QStack ch' st := by
  induction h with
  | nil => exact .nil
  | main => exact .main
  | all => exact .all
  | pid h => exact .pid (h.imp (hc _) id)
  | wmain => exact .wmain
  | wall => exact .wall
  | wpid h => exact .wpid (h.imp (hc _) id)
  | fn h _ ih => exact .fn h ih

/-- A `wait` that changes only its phase. -/
theorem QStack.phase {ch : List (Pid × Option Nat)} {st : List Frame} {t ph ph' ex n n'} (h : QStack ch (.wait t ph ex n :: st)) : QStack ch (.wait t ph' ex n' :: st) := by
  cases h with
  | wmain => exact .wmain
  | wall => exact .wall
  | wpid h => exact .wpid h

/-- A `wait` that reaps `p`. -/
theorem QStack.reap {ch : List (Pid × Option Nat)} {st : List Frame} {t ph ph' ex n n'} {p : Pid} {x : Status} (h : QStack ch (.wait t ph ex n :: st)) : QStack (del p ch) (.wait t ph' (set p x ex) n' :: st) := by
  cases h with
  | wmain => exact .wmain
  | wall => exact .wall
  | @wpid _ _ _ _ q _ h =>
    refine .wpid ?_
    rw [get_del, get_set]
    by_cases hq : p = q
    · simp [hq]
    · simpa [hq] using h

theorem QStack.ret {ch : List (Pid × Option Nat)} {st : List Frame} {t ph ex n} (h : QStack ch (.wait t ph ex n :: st)) : QStack ch (giveBack ex st) := by
  cases h with
  | wmain => exact .main
  | wall => exact .all
  | wpid h => exact .pid h

theorem open_of {s : State} (h : Inv s) {st : List Frame} (hs : s.stack = st) : ∃ it, open' s.log = some it ∧ Match st it := by
  obtain ⟨it, h1, h2⟩ := h.calls
  exact ⟨it, h1, hs ▸ h2⟩

theorem Match.main_items {m : List Act} {it : List Item} (h : Match [.acts m] it) : it = [] := by
  cases h with
  | acts a b => cases a; rfl

theorem qinv_handleExit {code : Nat → List Act} (hq : Quiet code) {s : State} (q : QInv s) {p : Pid} {st : Status} {t : Bool} {ph ph' : Phase} {ex : List (Pid × Status)} {n : Nat} {rest : List Frame}
    (hs : s.stack = .wait t ph ex n :: rest) : QInv (handleExit code s p st t ph' ex n rest) := by
  have sh := q.shape
  rw [hs] at sh
  unfold handleExit
  simp only []
  cases hg : get p s.children with
  | none =>
    refine ⟨?_, q.flat, by simpa using q.fine⟩
    apply QStack.more sh.reap
    intro r hr
    rw [get_del] at hr
    split at hr
    · cases hr
    · exact hr
  | some o =>
    cases o with
    | none => exact ⟨sh.reap, q.flat, by simpa using q.fine⟩
    | some f => exact ⟨.fn (hq f) sh.reap, q.flat, by simpa using q.fine⟩

theorem qinv_doWait {code : Nat → List Act} (hq : Quiet code) {s : State} (q : QInv s) {c : Choice} {t : Bool} {ph : Phase} {ex : List (Pid × Status)} {n : Nat} {rest : List Frame} (hs : s.stack = .wait t ph ex n :: rest) :
    QInv (doWait code s c t ph ex n rest) := by
  have sh := q.shape
  rw [hs] at sh
  have hmove : ∀ (ph' : Phase) (b : Bool), QInv { s with stack := .wait t ph' ex n :: rest, noChild := b } := fun ph' b => ⟨sh.phase, q.flat, q.fine⟩
  have hret : QInv (returnWait s ex rest) := ⟨sh.ret, q.flat, by simpa [returnWait] using q.fine⟩
  have hdie : ∀ d, d ≠ .vanished → QInv (s.die d) := fun d hd => ⟨q.shape, q.flat, by simpa [State.die, Ne.symm hd] using q.fine⟩
  unfold doWait
  simp only []
  cases ph with
  | top =>
    simp only []
    split
    · exact hret
    · split
      · exact hdie _ (by simp)
      · exact hmove _ _
  | inner =>
    simp only []
    cases hw : waitpid c s.zombies with
    | some x => exact qinv_handleExit hq q hs
    | none => exact hmove _ _
  | after =>
    simp only []
    split
    · exact hmove _ _
    · split
      · exact hmove _ _
      · exact hmove _ _
  | again =>
    simp only []
    cases hw : waitpid c s.zombies with
    | some x => exact qinv_handleExit hq q hs
    | none => exact hdie _ (by simp)
  | last =>
    simp only []
    split
    · exact hret
    · exact hmove _ _

theorem qinv_go {code : Nat → List Act} (hq : Quiet code) {s : State} (h : Inv s) (q : QInv s) (c : Choice) : QInv (go code s c) := by
  unfold go
  split
  · exact q
  · have sh := q.shape
    split
    · exact q
    · next hs =>
      rw [hs] at sh
      cases sh with
      | main => exact ⟨.nil, q.flat, q.fine⟩
      | fn _ h => exact ⟨h, q.flat, q.fine⟩
    · next a as rest hs =>
      rw [hs] at sh
      have hfork : ∀ (m : Bool) (f : Option Nat), (QStack s.children (.acts as :: rest)) → QInv (doAct s c (.fork m f) (.acts as :: rest)) := by
        intro m f hst
        unfold doAct
        simp only
        split
        · exact q
        · refine ⟨hst.more ?_, q.flat, by simpa using q.fine⟩
          intro r hr
          cases m
          · exact hr
          · simp only [if_true, get_set]
            split <;> simp_all
      cases sh with
      | main =>
        obtain ⟨it, h1, h2⟩ := open_of h hs
        obtain rfl := h2.main_items
        cases a with
        | fork m f => exact hfork m f .main
        | wait t => exact ⟨.wmain, ⟨.inl h1, q.flat⟩, by simpa [doAct, callWait] using q.fine⟩
        | waitAll => exact ⟨.all, ⟨h1, q.flat⟩, by simpa [doAct] using q.fine⟩
        | waitPid p =>
          simp only [doAct]
          split
          · next hp => exact ⟨.pid (.inl hp), ⟨h1, q.flat⟩, by simpa using q.fine⟩
          · exact ⟨.main, q.flat, by simpa using q.fine⟩
      | @fn _ _ _ _ _ st hl hw =>
        obtain ⟨m, f, rfl⟩ := hl a (by simp)
        exact hfork m f (.fn (fun b hb => hl b (List.mem_cons_of_mem _ hb)) hw)
    · next hs => exact qinv_doWait hq q hs
    · next ret rest hs =>
      rw [hs] at sh
      cases sh with
      | all =>
        obtain ⟨it, h1, h2⟩ := open_of h hs
        split
        · exact ⟨.main, q.flat, by simpa using q.fine⟩
        · cases h2 with
          | @all _ acc _ it' _ m _ =>
            obtain rfl := m.main_items
            exact ⟨.wall, ⟨.inr (.inl ⟨acc, h1⟩), q.flat⟩, by simpa [callWait] using q.fine⟩
    · next p st rest hs =>
      rw [hs] at sh
      cases sh with
      | pid _ => exact ⟨.main, q.flat, by simpa using q.fine⟩
    · next p rest hs =>
      rw [hs] at sh
      cases sh with
      | pid hp =>
        simp only [ne_eq, not_true_eq_false, or_false] at hp
        rw [if_pos hp]
        obtain ⟨it, h1, h2⟩ := open_of h hs
        cases h2 with
        | @pid _ _ acc _ it' _ m _ =>
          obtain rfl := m.main_items
          exact ⟨.wpid (.inl hp), ⟨.inr (.inr ⟨p, acc, h1⟩), q.flat⟩, by simpa [callWait] using q.fine⟩

theorem qinv_run {code : Nat → List Act} (hq : Quiet code) (main : List Act) (ms : List Move) : QInv (run code main ms) := by
  unfold run
  have : ∀ s, Inv s → QInv s → QInv (ms.foldl (step code) s) := by
    induction ms with
    | nil => intro s _ h; exact h
    | cons m ms ih =>
      intro s h q
      apply ih _ (inv_step h m)
      cases m with
      | exit p st =>
        simp only [step]
        split
        · exact ⟨q.shape, q.flat, by simpa using q.fine⟩
        · exact q
      | errno b => exact ⟨q.shape, q.flat, q.fine⟩
      | go c => exact qinv_go hq h q c
  exact this _ (inv_start main) ⟨.main, trivial, by simp [start]⟩

/-! ## Processes that can be signalled -/

structure SInv (s : State) : Prop where
  phases : ∀ t ex n, Frame.wait t .again ex n ∉ s.stack
  fine : Event.died .internal ∉ s.log

theorem giveBack_mem {t ph ex ex' n} {rest : List Frame} (h : Frame.wait t ph ex n ∈ giveBack ex' rest) : Frame.wait t ph ex n ∈ rest := by
  unfold giveBack at h
  split at h <;> simp_all

theorem sinv_go {code : Nat → List Act} {s : State} (h : Inv s) (q : SInv s) (c : Choice) (hc : ∀ p, c.signal p = true) : SInv (go code s c) := by
  have ph := q.phases
  unfold go
  split
  · exact q
  · split
    · exact q
    · next hs => rw [hs] at ph; exact ⟨fun t ex n hm => ph t ex n (List.mem_cons_of_mem _ hm), q.fine⟩
    · next a as rest hs =>
      rw [hs] at ph
      have hr : ∀ t ex n, Frame.wait t .again ex n ∉ rest := fun t ex n hm => ph t ex n (List.mem_cons_of_mem _ hm)
      unfold doAct
      cases a with
      | fork m f =>
        simp only
        split
        · exact q
        · exact ⟨by simpa using hr, by simpa using q.fine⟩
      | wait t => exact ⟨by simpa [callWait] using hr, by simpa [callWait] using q.fine⟩
      | waitAll => exact ⟨by simpa using hr, by simpa using q.fine⟩
      | waitPid p =>
        simp only
        split
        · exact ⟨by simpa using hr, by simpa using q.fine⟩
        · exact ⟨by simpa using hr, by simpa using q.fine⟩
    · next t ph' ex n rest hs =>
      have hk := h.has
      unfold HasKids at hk
      rw [hs] at ph hk
      simp only at hk
      have hr : ∀ t ex n, Frame.wait t .again ex n ∉ rest := fun t ex n hm => ph t ex n (List.mem_cons_of_mem _ hm)
      have hmove : ∀ (ph' : Phase) (b : Bool), ph' ≠ .again → SInv { s with stack := .wait t ph' ex n :: rest, noChild := b } := by
        intro ph' b hp
        refine ⟨?_, q.fine⟩
        intro t' ex' n' hm
        simp only [List.mem_cons, Frame.wait.injEq] at hm
        rcases hm with ⟨_, h2, _⟩ | hm
        · exact hp h2.symm
        · exact hr _ _ _ hm
      have hret : SInv (returnWait s ex rest) := ⟨fun t ex n hm => hr t ex n (giveBack_mem hm), by simpa [returnWait] using q.fine⟩
      have hexit : ∀ p st ph', ph' ≠ .again → SInv (handleExit code s p st t ph' ex n rest) := by
        intro p st ph' hp
        unfold handleExit
        simp only []
        split
        · exact ⟨by simpa [Ne.symm hp] using hr, by simpa using q.fine⟩
        · exact ⟨by simpa [Ne.symm hp] using hr, by simpa using q.fine⟩
        · exact ⟨by simpa [Ne.symm hp] using hr, by simpa using q.fine⟩
      unfold doWait
      simp only []
      cases ph' with
      | top =>
        simp only []
        split
        · exact hret
        · split
          · exact ⟨by rw [State.die, hs]; exact ph, by simpa [State.die] using q.fine⟩
          · exact hmove _ _ (by simp)
      | inner =>
        simp only []
        cases hw : waitpid c s.zombies with
        | some x => exact hexit _ _ _ (by simp)
        | none => exact hmove _ _ (by simp)
      | after =>
        simp only []
        split
        · exact hmove _ _ (by simp)
        · next h0 =>
          have hch := hk (by omega) (.inl (by simp))
          have : (s.children.any fun x => s.exists x.1 && c.signal x.1) = true := by
            cases hl : s.children with
            | nil => exact absurd hl hch
            | cons x l =>
              have := h.kids x.1 (by rw [hl, get_cons, if_pos rfl]; rfl)
              simp [this, hc]
          rw [this]
          simp only [Bool.not_true, Bool.and_false, Bool.false_eq_true, if_false]
          exact hmove _ _ (by simp)
      | again => exact absurd (by simp) (ph t ex n)
      | last =>
        simp only []
        split
        · exact hret
        · exact hmove _ _ (by simp)
    · next ret rest hs =>
      rw [hs] at ph
      have hr : ∀ t ex n, Frame.wait t .again ex n ∉ rest := fun t ex n hm => ph t ex n (List.mem_cons_of_mem _ hm)
      split
      · exact ⟨hr, by simpa using q.fine⟩
      · exact ⟨by simpa [callWait] using hr, by simpa [callWait] using q.fine⟩
    · next p st rest hs =>
      rw [hs] at ph
      exact ⟨fun t ex n hm => ph t ex n (List.mem_cons_of_mem _ hm), by simpa using q.fine⟩
    · next p rest hs =>
      rw [hs] at ph
      have hr : ∀ t ex n, Frame.wait t .again ex n ∉ rest := fun t ex n hm => ph t ex n (List.mem_cons_of_mem _ hm)
      split
      · exact ⟨by simpa [callWait] using hr, by simpa [callWait] using q.fine⟩
      · exact ⟨by rw [State.die, hs]; exact ph, by simpa [State.die] using q.fine⟩

theorem sinv_run (code : Nat → List Act) (main : List Act) (ms : List Move) (hc : ∀ c, Move.go c ∈ ms → ∀ p, c.signal p = true) : SInv (run code main ms) := by
  unfold run
  have : ∀ s, Inv s → SInv s → SInv (ms.foldl (step code) s) := by
    induction ms with
    | nil => intro s _ h; exact h
    | cons m ms ih =>
      intro s h q
      apply ih (fun c hm => hc c (List.mem_cons_of_mem _ hm)) _ (inv_step h m)
      cases m with
      | exit p st =>
        simp only [step]
        split
        · exact ⟨q.phases, by simpa using q.fine⟩
        · exact q
      | errno b => exact ⟨q.phases, q.fine⟩
      | go c => exact sinv_go h q c (hc c (by simp))
  exact this _ (inv_start main) ⟨by simp [start], by simp [start]⟩

end Verif.Proc
