import Verif.Proc.Spec

namespace Verif.Proc

theorem get_nil {α : Type} (p : Pid) : get p ([] : List (Pid × α)) = none := rfl

theorem get_cons {α : Type} (p : Pid) (x : Pid × α) (l : List (Pid × α)) : get p (x :: l) = if x.1 = p then some x.2 else get p l := by
  unfold get
  rw [List.find?_cons]
  by_cases h : x.1 = p <;> simp [h]

theorem get_del {α : Type} (p q : Pid) (l : List (Pid × α)) : get p (del q l) = if q = p then none else get p l := by
  unfold del
  induction l with
  | nil => simp [get]
  | cons x l ih =>
    rw [List.filter_cons, get_cons]
    by_cases h : x.1 = q
    · rw [if_neg (by simp [h]), ih, h]
      by_cases h2 : q = p <;> simp [h2]
    · rw [if_pos (by simp [h]), get_cons, ih]
      by_cases h2 : q = p
      · subst h2; simp [h]
      · simp [h2]

theorem get_set {α : Type} (p q : Pid) (v : α) (l : List (Pid × α)) : get p (set q v l) = if q = p then some v else get p l := by
  unfold set
  rw [get_cons, get_del]
  simp only
  split <;> rfl

theorem get_append {α : Type} (p : Pid) (a b : List (Pid × α)) : get p (a ++ b) = (get p a).or (get p b) := by
  induction a with
  | nil => simp [get]
  | cons x a ih =>
    rw [List.cons_append, get_cons, get_cons, ih]
    split <;> simp

theorem get_filter {α β : Type} (p : Pid) (r : List (Pid × α)) (o : List (Pid × β)) : get p (r.filter fun x => (get x.1 o).isNone) = if (get p o).isNone then get p r else none := by
  induction r with
  | nil => rw [List.filter_nil, get_nil]; split <;> rfl
  | cons x r ih =>
    rw [List.filter_cons, get_cons]
    by_cases h : (get x.1 o).isNone
    · rw [if_pos h, get_cons, ih]
      by_cases h2 : x.1 = p
      · rw [if_pos h2, if_pos h2, if_pos (by rw [← h2]; exact h)]
      · rw [if_neg h2, if_neg h2]
    · rw [if_neg h, ih]
      by_cases h2 : x.1 = p
      · rw [← h2, if_neg h, if_neg h]
      · rw [if_neg h2]

theorem get_merge {α : Type} (p : Pid) (r o : List (Pid × α)) : get p (merge r o) = (get p o).or (get p r) := by
  unfold merge
  rw [get_append, get_filter]
  cases get p o <;> simp

theorem get_none_all {α : Type} {l : List (Pid × α)} : l = [] ↔ ∀ p, get p l = none := by
  constructor
  · rintro rfl p; rfl
  · intro h
    cases l with
    | nil => rfl
    | cons x l => have := h x.1; rw [get_cons, if_pos rfl] at this; cases this

theorem ne_nil_of_get {α : Type} {l : List (Pid × α)} {p : Pid} (h : (get p l).isSome) : l ≠ [] := by
  rintro rfl; simp [get] at h

theorem get_of_ne_nil {α : Type} {l : List (Pid × α)} (h : l ≠ []) : ∃ p, (get p l).isSome := by
  cases l with
  | nil => exact absurd rfl h
  | cons x l => exact ⟨x.1, by rw [get_cons, if_pos rfl]; rfl⟩

theorem waitpid_some {c : Choice} {z : List (Pid × Status)} {p : Pid} {s : Status} (h : waitpid c z = some (p, s)) : get p z = some s := by
  unfold waitpid at h
  split at h
  · next hg => cases h; exact hg
  · cases z with
    | nil => simp at h
    | cons x z => simp only [List.head?_cons, Option.some.injEq] at h; subst h; rw [get_cons, if_pos rfl]

theorem waitpid_none {c : Choice} {z : List (Pid × Status)} (h : waitpid c z = none) : z = [] := by
  unfold waitpid at h
  split at h
  · cases h
  · cases z with
    | nil => rfl
    | cons x z => simp at h

/-! ## The invariant -/

/-- The life of `p` as the state has it. -/
def view (s : State) (p : Pid) : Life :=
  if p ∈ s.running then .live (get p s.children).isSome ((get p s.children).bind id).isSome
  else match get p s.zombies with
    | some st => .zombie (get p s.children).isSome ((get p s.children).bind id).isSome st
    | none => .absent

/-- Under a function: nothing, a function, or a `wait` that has reaped something. -/
def Covered : List Frame → Prop
  | .wait _ _ _ n :: _ => n ≠ 0
  | .waitAll _ :: _ => False
  | .waitPid _ _ :: _ => False
  | _ => True

/-- Under a `wait`. -/
def Below : List Frame → Prop
  | .waitPid _ v :: _ => v = none
  | .wait _ _ _ _ :: _ => False
  | _ => True

/-- Under `waitAll` and `waitPid`. -/
def Plain : List Frame → Prop
  | .acts _ :: _ => True
  | _ => False

inductive Match : List Frame → List Item → Prop
  | nil : Match [] []
  | acts {l st it} : Match st it → Covered st → Match (.acts l :: st) it
  | wait {t ph ex n acc st it} : Tells ex acc → (n = 0 ↔ acc = []) → (ph = .again → n = 0) → Match st it → Below st → Match (.wait t ph ex n :: st) (.wait t acc :: it)
  | all {r acc st it} : Tells r acc → Match st it → Plain st → Match (.waitAll r :: st) (.all acc :: it)
  | pid {p v acc st it} : get p acc = v → Match st it → Plain st → Match (.waitPid p v :: st) (.pid p acc :: it)

/-- A `wait` that has reaped nothing and passed its check, or was called by `waitAll` or `waitPid`, has processes to wait for. -/
def HasKids (s : State) : Prop :=
  match s.stack with
  | .wait _ ph _ n :: rest => n = 0 → (ph ≠ .top ∨ (∃ r st, rest = .waitAll r :: st) ∨ ∃ p v st, rest = .waitPid p v :: st) → s.children ≠ []
  | _ => True

structure Inv (s : State) : Prop where
  disj : ∀ p ∈ s.running, get p s.zombies = none
  kids : ∀ p, (get p s.children).isSome → s.exists p = true
  lives : ∀ p, life p s.log = some (view s p)
  calls : ∃ it, open' s.log = some it ∧ Match s.stack it
  honest : Honest s.log
  has : HasKids s

theorem ours_iff {s : State} (h : Inv s) (p : Pid) : Ours p s.log ↔ (get p s.children).isSome := by
  have hk := h.kids p
  unfold Ours
  rw [h.lives p]
  unfold view
  unfold State.exists at hk
  by_cases hr : p ∈ s.running
  · simp [hr]
  · simp only [hr, if_false]
    cases hz : get p s.zombies with
    | none => simp [hr, hz] at hk; simp [hk]
    | some st => simp

theorem exists_iff (s : State) (p : Pid) : s.exists p = true ↔ p ∈ s.running ∨ (get p s.zombies).isSome := by simp [State.exists]

theorem inv_start (main : List Act) : Inv (start main) where
  disj := by intro p hp; simp [start] at hp
  kids := by intro p hp; simp [start, get] at hp
  lives := by intro p; simp [start, life, view, get]
  calls := ⟨[], rfl, Match.acts Match.nil trivial⟩
  honest := trivial
  has := trivial

/-- Events that do not concern processes. -/
def Silent (e : Event) : Prop := ∀ (p : Pid) (l : Life), Life.next p e l = some l

theorem life_silent {e : Event} (h : Silent e) (p : Pid) (l : List Event) : life p (e :: l) = life p l := by
  simp only [life]
  cases life p l with
  | none => rfl
  | some x => exact h p x

theorem ours_silent {e : Event} (h : Silent e) (p : Pid) (l : List Event) : Ours p (e :: l) ↔ Ours p l := by
  unfold Ours; rw [life_silent h]

/-- Changes of the program only. -/
theorem Inv.program {s : State} (h : Inv s) {st : List Frame} {b d : Bool} {e : Event} (he : Silent e) (hc : ∃ it, open' (e :: s.log) = some it ∧ Match st it) (ho : Honest (e :: s.log))
    (hk : HasKids { s with stack := st }) : Inv { s with stack := st, log := e :: s.log, noChild := b, dead := d } where
  disj := h.disj
  kids := h.kids
  lives := fun p => by rw [life_silent he]; exact h.lives p
  calls := hc
  honest := ho
  has := hk

theorem Inv.quiet {s : State} (h : Inv s) {st : List Frame} {b : Bool} (hc : ∀ it, open' s.log = some it → Match s.stack it → Match st it)
    (hk : HasKids { s with stack := st }) : Inv { s with stack := st, noChild := b } where
  disj := h.disj
  kids := h.kids
  lives := h.lives
  calls := by obtain ⟨it, h1, h2⟩ := h.calls; exact ⟨it, h1, hc it h1 h2⟩
  honest := h.honest
  has := hk

theorem inv_exit {s : State} (h : Inv s) {p : Pid} (st : Status) (hp : p ∈ s.running) :
    Inv { s with running := s.running.filter (· ≠ p), zombies := s.zombies ++ [(p, st)], log := .exited p st :: s.log } where
  disj := by
    intro q hq
    simp only [List.mem_filter, decide_eq_true_eq] at hq
    rw [get_append, h.disj q hq.1, get_cons]
    simp [get, Ne.symm hq.2]
  kids := by
    intro q hq
    have := h.kids q hq
    rw [exists_iff] at this ⊢
    simp only [List.mem_filter, decide_eq_true_eq, get_append, get_cons, get_nil]
    by_cases hqp : q = p
    · right; subst hqp; cases get q s.zombies <;> simp
    · rcases this with h1 | h1
      · exact .inl ⟨h1, hqp⟩
      · right; cases hz : get q s.zombies with
        | none => rw [hz] at h1; simp at h1
        | some x => simp
  lives := by
    intro q
    simp only [life, h.lives q, Option.bind_some, Life.next, view, List.mem_filter, decide_eq_true_eq, get_append, get_cons, get_nil]
    by_cases hqp : p = q
    · subst hqp
      simp [hp, h.disj p hp]
    · have hqp' : q ≠ p := Ne.symm hqp
      simp only [hqp, hqp', if_false, ne_eq, not_false_eq_true, and_true, Option.or_none]
  calls := by
    obtain ⟨it, h1, h2⟩ := h.calls
    exact ⟨it, by simp [open', h1, Item.next], h2⟩
  honest := h.honest
  has := h.has

theorem inv_fork {s : State} (h : Inv s) {p : Pid} (m : Bool) (fn : Option Nat) (hp : s.exists p = false) {as : List Act} {a : Act} {rest : List Frame} (hs : s.stack = .acts (a :: as) :: rest) :
    Inv { s with running := p :: s.running, children := if m then set p fn s.children else s.children, stack := .acts as :: rest, log := .forked p m (m && fn.isSome) :: s.log } := by
  have hn : p ∉ s.running ∧ get p s.zombies = none := by
    have : ¬ s.exists p = true := by simp [hp]
    rw [exists_iff] at this
    simpa using this
  have hc : get p s.children = none := by
    cases hg : get p s.children with
    | none => rfl
    | some x => have := h.kids p (by rw [hg]; rfl); rw [hp] at this; cases this
  constructor
  · intro q hq
    simp only [List.mem_cons] at hq
    rcases hq with rfl | hq
    · exact hn.2
    · exact h.disj q hq
  · intro q hq
    rw [exists_iff]
    by_cases hqp : q = p
    · left; simp [hqp]
    · have := h.kids q (by
        revert hq
        cases m
        · simp
        · simp [get_set, Ne.symm hqp])
      rw [exists_iff] at this
      rcases this with h1 | h1
      · left; simp [h1]
      · right; exact h1
  · intro q
    simp only [life, h.lives q, Option.bind_some, Life.next, view, List.mem_cons]
    by_cases hqp : p = q
    · subst hqp
      cases m
      · simp [hn.1, hn.2, hc]
      · simp [hn.1, hn.2, get_set]
    · have hqp' : q ≠ p := Ne.symm hqp
      have hg : get q (if m then set p fn s.children else s.children) = get q s.children := by cases m <;> simp [get_set, hqp]
      simp only [hqp, hqp', if_false, false_or, hg]
  · obtain ⟨it, h1, h2⟩ := h.calls
    refine ⟨it, by simp [open', h1, Item.next], ?_⟩
    rw [hs] at h2
    cases h2 with
    | acts h3 h4 => exact Match.acts h3 h4
  · exact h.honest
  · trivial

theorem tells_set {ex acc : List (Pid × Status)} (h : Tells ex acc) (p : Pid) (st : Status) : Tells (set p st ex) ((p, st) :: acc) := by
  intro q
  rw [get_set]
  show _ = get q ((p, st) :: acc)
  rw [get_cons, h q]
  rfl

theorem tells_merge {r ex acc acc' : List (Pid × Status)} (h : Tells r acc) (h' : Tells ex acc') : Tells (merge r ex) (acc' ++ acc) := by
  intro q
  show _ = get q (acc' ++ acc)
  rw [get_merge, get_append, h q, h' q]
  rfl

/-- The state after `$handle_exit` has the same invariant. -/
theorem inv_handleExit {code : Nat → List Act} {s : State} (h : Inv s) {p : Pid} {st : Status} (hz : get p s.zombies = some st) {t : Bool} {ph ph' : Phase} {ex : List (Pid × Status)} {n : Nat} {rest : List Frame}
    (hs : s.stack = .wait t ph ex n :: rest) (hph : ph' ≠ .again) : Inv (handleExit code s p st t ph' ex n rest) := by
  have hr : p ∉ s.running := fun hp => by have := h.disj p hp; rw [hz] at this; cases this
  obtain ⟨it, h1, h2⟩ := h.calls
  rw [hs] at h2
  cases h2 with
  | @wait _ _ _ _ acc _ it' ht hn ha hm hb =>
    have hop : ∀ l, (l = s.log ∨ False) → open' (.reaped p st :: l) = some (.wait t ((p, st) :: acc) :: it') := by
      intro l hl
      simp only [or_false] at hl
      subst hl
      simp [open', h1, Item.next]
    have hop := hop s.log (.inl rfl)
    have hw : Match (.wait t ph' (set p st ex) (n + 1) :: rest) (.wait t ((p, st) :: acc) :: it') := Match.wait (tells_set ht p st) (by simp) (fun h => absurd h hph) hm hb
    have hlife : ∀ q, life q (.reaped p st :: s.log) = some (if p = q then (if (get p s.children).isSome then (if ((get p s.children).bind id).isSome then .due true st else .absent) else .due false st) else view s q) := by
      intro q
      simp only [life, h.lives q, Option.bind_some, Life.next]
      by_cases hq : p = q
      · subst hq
        simp [view, hr, hz]
      · simp [hq]
    unfold handleExit
    simp only []
    cases hg : get p s.children with
    | none =>
      simp only
      constructor
      · intro q hq
        rw [get_del, h.disj q hq]; split <;> rfl
      · intro q hq
        have := h.kids q hq
        rw [exists_iff] at this ⊢
        rw [get_del]
        rcases this with h3 | h3
        · exact .inl h3
        · right
          have : p ≠ q := by rintro rfl; simp only at hq; rw [hg] at hq; cases hq
          simp [this, h3]
      · intro q
        show (life q (.reaped p st :: s.log)).bind (Life.next q (.warned p st)) = _
        rw [hlife q, Option.bind_some]
        by_cases hq : p = q
        · subst hq
          simp [Life.next, hg, view, hr, get_del]
        · simp [Life.next, hq, view, get_del]
      · exact ⟨_, by show (open' (.reaped p st :: s.log)).bind _ = _; rw [hop]; rfl, hw⟩
      · exact h.honest
      · intro h0; cases h0
    | some o =>
      have hkids : ∀ q, (get q (del p s.children)).isSome → ((q ∈ s.running) ∨ (get q (del p s.zombies)).isSome) := by
        intro q hq
        rw [get_del] at hq ⊢
        by_cases hqp : p = q
        · simp [hqp] at hq
        · simp only [hqp, if_false] at hq ⊢
          have := h.kids q hq
          rwa [exists_iff] at this
      cases o with
      | none =>
        simp only
        constructor
        · intro q hq
          rw [get_del, h.disj q hq]; split <;> rfl
        · intro q hq
          rw [exists_iff]
          exact hkids q hq
        · intro q
          show life q (.reaped p st :: s.log) = _
          rw [hlife q]
          by_cases hq : p = q
          · subst hq
            simp [hg, view, hr, get_del]
          · simp [hq, view, get_del]
        · exact ⟨_, hop, hw⟩
        · exact h.honest
        · intro h0; cases h0
      | some f =>
        simp only
        constructor
        · intro q hq
          rw [get_del, h.disj q hq]; split <;> rfl
        · intro q hq
          rw [exists_iff]
          exact hkids q hq
        · intro q
          show (life q (.reaped p st :: s.log)).bind (Life.next q (.called p st)) = _
          rw [hlife q, Option.bind_some]
          by_cases hq : p = q
          · subst hq
            simp [Life.next, hg, view, hr, get_del]
          · simp [Life.next, hq, view, get_del]
        · exact ⟨_, by show (open' (.reaped p st :: s.log)).bind _ = _; rw [hop]; rfl, Match.acts hw (by simp [Covered])⟩
        · exact h.honest
        · trivial

theorem covered_hand {st : List Frame} {it : List Item} (hm : Match st it) : Covered st → ∀ {acc : List (Pid × Status)}, hand acc it = it := by
  induction hm with
  | nil => intro _ acc; rfl
  | acts a b ih => intro _ acc; exact ih b
  | wait a b _ c d => intro _ acc; rfl
  | all a b c => intro h; exact absurd h (by simp [Covered])
  | pid a b c => intro h; exact absurd h (by simp [Covered])

theorem inv_returnWait {s : State} (h : Inv s) {t : Bool} {ph : Phase} {ex : List (Pid × Status)} {n : Nat} {rest : List Frame} (hs : s.stack = .wait t ph ex n :: rest) (hn0 : n ≠ 0 ∨ t = true) :
    Inv (returnWait s ex rest) := by
  obtain ⟨it, h1, h2⟩ := h.calls
  rw [hs] at h2
  cases h2 with
  | @wait _ _ _ _ acc _ it' ht hn ha hm hb =>
    have hop : open' (.gaveWait ex :: s.log) = some (hand acc it') := by simp [open', h1, Item.next]
    refine h.program (b := s.noChild) (d := s.dead) (fun p l => rfl) ⟨_, hop, ?_⟩ ⟨⟨t, acc, it', h1, ht, ?_⟩, h.honest⟩ ?_
    · cases hm with
      | nil => exact Match.nil
      | acts a b =>
        rw [covered_hand (Match.acts (l := []) a b) trivial]
        exact Match.acts a b
      | wait a b _ c d => exact absurd hb (by simp [Below])
      | all a b c => exact Match.all (tells_merge a ht) b c
      | @pid p v acc' st it a b c =>
        refine Match.pid ?_ b c
        have hv : v = none := hb
        rw [get_append, a, hv, ht p]
        simp [get]
    · rintro rfl rfl
      simp only [Bool.false_eq_true, or_false] at hn0
      apply hn0
      rw [hn]
      cases acc with
      | nil => rfl
      | cons x acc => have := ht x.1; simp [get] at this
    · cases hm with
      | nil => trivial
      | acts a b => trivial
      | wait a b _ c d => exact absurd hb (by simp [Below])
      | all a b c => trivial
      | pid a b c => trivial

theorem inv_callWait {s : State} (h : Inv s) {t : Bool} {rest : List Frame} {it : List Item} (hm : open' s.log = some it) (hr : Match rest it) (hb : Below rest)
    (hk : ((∃ r st, rest = .waitAll r :: st) ∨ ∃ p v st, rest = .waitPid p v :: st) → s.children ≠ []) : Inv (callWait s t rest) := by
  refine h.program (b := s.noChild) (d := s.dead) (fun p l => rfl) ⟨.wait t [] :: it, by simp [open', hm, Item.next], Match.wait (fun p => rfl) (by simp) (fun _ => rfl) hr hb⟩ h.honest ?_
  intro _ h2
  rcases h2 with h2 | h2
  · exact absurd rfl h2
  · exact hk h2

theorem inv_die {s : State} (h : Inv s) {d : Death} (ho : Honest (.died d :: s.log)) : Inv (s.die d) := by
  obtain ⟨it, h1, h2⟩ := h.calls
  exact h.program (st := s.stack) (b := s.noChild) (d := true) (fun p l => rfl) ⟨it, by simp [open', h1, Item.next], h2⟩ ho h.has

theorem plain_head {st : List Frame} {it : List Item} (hm : Match st it) (h : ¬ ((∃ r st', st = .waitAll r :: st') ∨ ∃ p v st', st = .waitPid p v :: st')) (hb : Below st) :
    (∀ r st', it ≠ .all r :: st') ∧ (∀ q r st', it ≠ .pid q r :: st') := by
  have key : ∀ {st : List Frame} {it : List Item}, Match st it → Covered st → (∀ r st', it ≠ .all r :: st') ∧ (∀ q r st', it ≠ .pid q r :: st') := by
    intro st it hm
    induction hm with
    | nil => simp
    | acts a b ih => intro _; exact ih b
    | wait a b _ c d => simp
    | all a b c => simp [Covered]
    | pid a b c => simp [Covered]
  apply key hm
  cases hm with
  | nil => trivial
  | acts a b => trivial
  | wait a b _ c d => exact absurd hb (by simp [Below])
  | all a b c => exact absurd (.inl ⟨_, _, rfl⟩) h
  | pid a b c => exact absurd (.inr ⟨_, _, _, rfl⟩) h

theorem inv_doWait {code : Nat → List Act} {s : State} (h : Inv s) {c : Choice} {t : Bool} {ph : Phase} {ex : List (Pid × Status)} {n : Nat} {rest : List Frame} (hs : s.stack = .wait t ph ex n :: rest) :
    Inv (doWait code s c t ph ex n rest) := by
  have hmove : ∀ (ph' : Phase) (b : Bool), (ph' = .again → n = 0) → (n = 0 → (ph' ≠ .top ∨ ph ≠ .top) → s.children ≠ []) → Inv { s with stack := .wait t ph' ex n :: rest, noChild := b } := by
    intro ph' b hag hk
    apply h.quiet
    · intro it _ hm
      rw [hs] at hm
      cases hm with
      | wait a b _ c d => exact Match.wait a b hag c d
    · intro h0 h2
      by_cases h3 : ph' ≠ .top ∨ ph ≠ .top
      · exact hk h0 h3
      · have := h.has
        unfold HasKids at this
        rw [hs] at this
        apply this h0
        rcases h2 with h2 | h2
        · exact absurd (.inl h2) h3
        · exact .inr h2
  have hkids : n = 0 → ph ≠ .top → s.children ≠ [] := by
    intro h0 h1
    have := h.has
    unfold HasKids at this
    rw [hs] at this
    exact this h0 (.inl h1)
  obtain ⟨it, h1, h2⟩ := h.calls
  rw [hs] at h2
  cases h2 with
  | @wait _ _ _ _ acc _ it' ht hn ha hm hb =>
    unfold doWait
    simp only []
    cases ph with
    | top =>
      simp only []
      by_cases h0 : n ≠ 0
      · rw [if_pos h0]; exact inv_returnWait h hs (.inl h0)
      · rw [if_neg h0]
        have h0 : n = 0 := by omega
        by_cases hc : s.children = []
        · rw [if_pos hc]
          apply inv_die h
          refine ⟨⟨t, it', by rw [h1, hn.1 h0], ?_, ?_⟩, h.honest⟩
          · intro p hp
            rw [ours_iff h, hc] at hp
            simp [get] at hp
          · apply plain_head hm ?_ hb
            intro h3
            have := h.has
            unfold HasKids at this
            rw [hs] at this
            exact this h0 (.inr h3) hc
        · rw [if_neg hc]
          exact hmove .inner s.noChild (fun h => by cases h) (fun _ _ => hc)
    | inner =>
      simp only []
      cases hw : waitpid c s.zombies with
      | some x => exact inv_handleExit h (waitpid_some hw) hs (by simp)
      | none => exact hmove .after _ (fun h => by cases h) (fun h0 _ => hkids h0 (by simp))
    | after =>
      simp only []
      split
      · exact hmove .top s.noChild (fun h => by cases h) (fun h0 _ => by contradiction)
      · split
        · exact hmove .again s.noChild (fun _ => by omega) (fun h0 _ => hkids h0 (by simp))
        · exact hmove .last s.noChild (fun h => by cases h) (fun h0 _ => hkids h0 (by simp))
    | again =>
      simp only []
      cases hw : waitpid c s.zombies with
      | some x => exact inv_handleExit h (waitpid_some hw) hs (by simp)
      | none =>
        apply inv_die h
        have h0 := ha rfl
        obtain ⟨p, hp⟩ := get_of_ne_nil (hkids h0 (by simp))
        exact ⟨⟨t, it', p, by rw [h1, hn.1 h0], (ours_iff h p).2 hp⟩, h.honest⟩
    | last =>
      simp only []
      split
      · next hc => exact inv_returnWait h hs (.inr (by simp at hc; exact hc.1))
      · exact hmove .top s.noChild (fun h => by cases h) (fun h0 _ => hkids h0 (by simp))

theorem inv_go {code : Nat → List Act} {s : State} (h : Inv s) (c : Choice) : Inv (go code s c) := by
  unfold go
  split
  · exact h
  · obtain ⟨it, h1, h2⟩ := h.calls
    split
    · exact h
    · next hs =>
      apply h.quiet (b := s.noChild)
      · intro it _ hm
        rw [hs] at hm
        cases hm with
        | acts a b => exact a
      · rw [hs] at h2
        cases h2 with
        | acts a b =>
          cases a with
          | nil => trivial
          | acts _ _ => trivial
          | wait _ _ _ _ _ => intro h0; exact absurd h0 b
          | all _ _ _ => trivial
          | pid _ _ _ => trivial
    · next a as rest hs =>
      rw [hs] at h2
      cases h2 with
      | acts m b =>
        have m' : Match (.acts as :: rest) it := Match.acts m b
        unfold doAct
        cases a with
        | fork managed fn =>
          simp only
          split
          · exact h
          · next he => exact inv_fork h managed fn (by simpa using he) hs
        | wait t => exact inv_callWait h h1 m' trivial (by rintro (⟨_, _, h3⟩ | ⟨_, _, _, h3⟩) <;> cases h3)
        | waitAll =>
          exact h.program (b := s.noChild) (d := s.dead) (fun p l => rfl) ⟨.all [] :: it, by simp [open', h1, Item.next], Match.all (fun p => rfl) m' trivial⟩ h.honest trivial
        | waitPid p =>
          simp only
          split
          · next hp =>
            exact h.program (b := s.noChild) (d := s.dead) (fun p l => rfl) ⟨.pid p [] :: it, by simp [open', h1, Item.next], Match.pid rfl m' trivial⟩ ⟨(ours_iff h p).2 hp, h.honest⟩ trivial
          · next hp =>
            exact h.program (b := s.noChild) (d := s.dead) (fun p l => rfl) ⟨it, by simp [open', h1, Item.next], m'⟩ ⟨fun ho => hp ((ours_iff h p).1 ho), h.honest⟩ trivial
    · next hs => exact inv_doWait h hs
    · next ret rest hs =>
      rw [hs] at h2
      split
      · next hc =>
        cases h2 with
        | @all _ acc _ it' ht m pl =>
          refine h.program (b := s.noChild) (d := s.dead) (fun p l => rfl) ⟨it', by simp [open', h1, Item.next], m⟩ ⟨⟨acc, it', h1, ht, ?_⟩, h.honest⟩ ?_
          · intro p hp
            rw [ours_iff h, hc] at hp
            simp [get] at hp
          · cases rest with
            | nil => trivial
            | cons f rest => cases f <;> first | trivial | exact absurd pl (by simp [Plain])
      · next hc => exact inv_callWait h h1 h2 trivial (fun _ => hc)
    · next p st rest hs =>
      rw [hs] at h2
      cases h2 with
      | @pid _ _ acc _ it' ht m pl =>
        refine h.program (b := s.noChild) (d := s.dead) (fun p l => rfl) ⟨it', by simp [open', h1, Item.next], m⟩ ⟨⟨acc, it', h1, ht⟩, h.honest⟩ ?_
        cases rest with
        | nil => trivial
        | cons f rest => cases f <;> first | trivial | exact absurd pl (by simp [Plain])
    · next p rest hs =>
      rw [hs] at h2
      split
      · next hp => exact inv_callWait h h1 h2 rfl (fun _ => ne_nil_of_get hp)
      · next hp =>
        apply inv_die h
        cases h2 with
        | @pid _ _ acc _ it' ht m pl =>
          exact ⟨⟨p, acc, it', h1, fun ho => hp ((ours_iff h p).1 ho)⟩, h.honest⟩

theorem inv_step {code : Nat → List Act} {s : State} (h : Inv s) (m : Move) : Inv (step code s m) := by
  cases m with
  | exit p st =>
    simp only [step]
    split
    · next hp => exact inv_exit h st hp
    · exact h
  | errno b => exact h.quiet (st := s.stack) (fun _ _ hm => hm) h.has
  | go c => exact inv_go h c

theorem inv_run (code : Nat → List Act) (main : List Act) (ms : List Move) : Inv (run code main ms) := by
  unfold run
  have : ∀ s, Inv s → Inv (ms.foldl (step code) s) := by
    induction ms with
    | nil => intro s h; exact h
    | cons m ms ih => intro s h; exact ih _ (inv_step h m)
  exact this _ (inv_start main)

end Verif.Proc
