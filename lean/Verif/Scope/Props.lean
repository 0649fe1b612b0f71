import Verif.Scope.Model

/-! # C217: locks that belong to a block -/

namespace Verif.Scope

/-! ## The specification -/

/-- Which mutexes are held. -/
abbrev Held := Nat → Bool

def none' : Held := fun _ => false
def with' (h : Held) (m : Nat) : Held := fun k => if k = m then true else h k
def without (h : Held) (m : Nat) : Held := fun k => if k = m then false else h k

/-- Every lock, unlock, read and store in the text, with what is held there, is as `P` says; and no mutex is locked twice or given up twice. By hand nothing is locked. -/
def Obeys (P : Held → Ev → Prop) : Held → Stmt → Prop
  | _, .skip => True
  | _, .throw => True
  | h, .bump x => P h (.read x) ∧ P h (.store x)
  | h, .seq a b => Obeys P h a ∧ Obeys P h b
  | h, .either a b => Obeys P h a ∧ Obeys P h b
  | h, .loop a => Obeys P h a
  | h, .attempt a b => Obeys P h a ∧ Obeys P h b
  | h, .under m a => h m = false ∧ P h (.lock m) ∧ Obeys P (with' h m) a
  | h, .release m a => h m = true ∧ Obeys P (without h m) a ∧ P (without h m) (.lock m)
  | _, .lock _ => False
  | _, .unlock _ => False

/-- Any block. -/
def Blocks (s : Stmt) : Prop := Obeys (fun _ _ => True) none' s

/-- Mutexes are locked in the order of their numbers. -/
def InOrder (s : Stmt) : Prop := Obeys (fun h e => match e with | .lock m => ∀ k, h k = true → k < m | _ => True) none' s

/-- The variable `x` is used only with the mutex `m` locked. -/
def Guarded (x m : Nat) (s : Stmt) : Prop := Obeys (fun h e => match e with | .read y => y = x → h m = true | .store y => y = x → h m = true | _ => True) none' s

/-- What thread `t` did. -/
def own (t : Nat) (l : List (Nat × Ev)) : List Ev := (l.filter fun p => p.1 = t).map (·.2)

/-- Each thread did what its program may do, up to some point. -/
def Follows (progs : Nat → Stmt) (l : List (Nat × Ev)) : Prop := ∀ t, ∃ rest o, Run (progs t) (own t l ++ rest) o

/-- Thread `t` is between locking and unlocking `m`. -/
def Inside (t m : Nat) (l : List (Nat × Ev)) : Prop := (own t l).count (.unlock m) < (own t l).count (.lock m)

/-! ## Traces -/

def after (h : Held) : Ev → Held
  | .lock m => with' h m
  | .unlock m => without h m
  | _ => h

def hold (h : Held) : List Ev → Held
  | [] => h
  | e :: l => hold (after h e) l

theorem hold_append (h : Held) (a b : List Ev) : hold h (a ++ b) = hold (hold h a) b := by
  induction a generalizing h with
  | nil => rfl
  | cons e a ih => exact ih _

/-- Locks are of what is free, unlocks of what is held, and all is as `P` says. -/
def Good (P : Held → Ev → Prop) (h : Held) : Ev → Prop
  | .lock m => h m = false ∧ P h (.lock m)
  | .unlock m => h m = true
  | e => P h e

def Every (P : Held → Ev → Prop) (h : Held) : List Ev → Prop
  | [] => True
  | e :: l => P h e ∧ Every P (after h e) l

theorem every_append {P : Held → Ev → Prop} (h : Held) (a b : List Ev) : Every P h (a ++ b) ↔ Every P h a ∧ Every P (hold h a) b := by
  induction a generalizing h with
  | nil => simp [Every, hold]
  | cons e a ih => simp only [List.cons_append, Every, hold, ih, and_assoc]

theorem without_with {h : Held} {m : Nat} (hm : h m = false) : without (with' h m) m = h := by
  funext k; unfold without with'
  by_cases hk : k = m
  · simp [hk, hm]
  · simp [hk]

theorem with_without {h : Held} {m : Nat} (hm : h m = true) : with' (without h m) m = h := by
  funext k; unfold without with'
  by_cases hk : k = m
  · simp [hk, hm]
  · simp [hk]

/-- Whatever way a block ends, what is held is what was held, and on the way everything was good. -/
theorem run_good {P : Held → Ev → Prop} {s : Stmt} {tr : List Ev} {o : Bool} (hr : Run s tr o) : ∀ h, Obeys P h s → Every (Good P) h tr ∧ hold h tr = h := by
  induction hr with
  | skip => intro h _; exact ⟨trivial, rfl⟩
  | throw => intro h _; exact ⟨trivial, rfl⟩
  | bump x => intro h ho; exact ⟨⟨ho.1, ho.2, trivial⟩, rfl⟩
  | bumpThrow x => intro h ho; exact ⟨⟨ho.1, trivial⟩, rfl⟩
  | seq _ _ ia ib =>
    intro h ho
    obtain ⟨a1, a2⟩ := ia h ho.1
    obtain ⟨b1, b2⟩ := ib h ho.2
    exact ⟨(every_append ..).mpr ⟨a1, by rw [a2]; exact b1⟩, by rw [hold_append, a2, b2]⟩
  | seqThrow _ ia => intro h ho; exact ia h ho.1
  | left _ ia => intro h ho; exact ia h ho.1
  | right _ ib => intro h ho; exact ib h ho.2
  | loopEnd => intro h _; exact ⟨trivial, rfl⟩
  | loopMore _ _ ia ib =>
    intro h ho
    obtain ⟨a1, a2⟩ := ia h ho
    obtain ⟨b1, b2⟩ := ib h ho
    exact ⟨(every_append ..).mpr ⟨a1, by rw [a2]; exact b1⟩, by rw [hold_append, a2, b2]⟩
  | loopThrow _ ia => intro h ho; exact ia h ho
  | noThrow _ ia => intro h ho; exact ia h ho.1
  | caught _ _ ia ib =>
    intro h ho
    obtain ⟨a1, a2⟩ := ia h ho.1
    obtain ⟨b1, b2⟩ := ib h ho.2
    exact ⟨(every_append ..).mpr ⟨a1, by rw [a2]; exact b1⟩, by rw [hold_append, a2, b2]⟩
  | @under m a tr o _ ia =>
    intro h ho
    obtain ⟨hm, hp, ha⟩ := ho
    obtain ⟨a1, a2⟩ := ia _ ha
    refine ⟨⟨⟨hm, hp⟩, (every_append ..).mpr ⟨a1, ?_⟩⟩, ?_⟩
    · show Every (Good P) (hold (with' h m) tr) [.unlock m]
      rw [a2]; exact ⟨by simp [Good, with'], trivial⟩
    · show hold (with' h m) (tr ++ [.unlock m]) = h
      rw [hold_append, a2]; exact without_with hm
  | @release m a tr o _ ia =>
    intro h ho
    obtain ⟨hm, ha, hp⟩ := ho
    obtain ⟨a1, a2⟩ := ia _ ha
    refine ⟨⟨hm, (every_append ..).mpr ⟨a1, ?_⟩⟩, ?_⟩
    · show Every (Good P) (hold (without h m) tr) [.lock m]
      rw [a2]; exact ⟨⟨by simp [without], hp⟩, trivial⟩
    · show hold (without h m) (tr ++ [.lock m]) = h
      rw [hold_append, a2]; exact with_without hm
  | lock => intro h ho; exact ho.elim
  | unlock => intro h ho; exact ho.elim

/-- The count of locks is that of unlocks, or one more where the mutex is held. -/
theorem count_hold {P : Held → Ev → Prop} (m : Nat) : ∀ (tr : List Ev) (h : Held), Every (Good P) h tr →
    tr.count (.lock m) + (h m).toNat = tr.count (.unlock m) + (hold h tr m).toNat := by
  intro tr
  induction tr with
  | nil => intro h _; simp [hold]
  | cons e tr ih =>
    intro h he
    obtain ⟨h1, h2⟩ := he
    have ih := ih _ h2
    simp only [hold]
    cases e with
    | lock k =>
      by_cases hk : m = k
      · subst hk
        have h3 : h m = false := h1.1
        have h4 : after h (.lock m) m = true := by simp [after, with']
        rw [h4] at ih
        simp [h3] at ih ⊢
        omega
      · have h4 : after h (.lock k) m = h m := by simp [after, with', hk]
        have h5 : ¬ k = m := fun e => hk e.symm
        rw [h4] at ih
        simp [h5] at ih ⊢
        omega
    | unlock k =>
      by_cases hk : m = k
      · subst hk
        have h3 : h m = true := h1
        have h4 : after h (.unlock m) m = false := by simp [after, without]
        rw [h4] at ih
        simp [h3] at ih ⊢
        omega
      · have h4 : after h (.unlock k) m = h m := by simp [after, without, hk]
        have h5 : ¬ k = m := fun e => hk e.symm
        rw [h4] at ih
        simp [h5] at ih ⊢
        omega
    | read x => simpa [List.count_cons, after] using ih
    | store x => simpa [List.count_cons, after] using ih

/-- C217: a block that locks with scoped locks only has unlocked every mutex as often as it has locked it when it ends, with an exception or without; on the way there is never more than one lock of a mutex open, and none is unlocked that is not locked. -/
theorem scoped_balanced (s : Stmt) (hs : Blocks s) (tr : List Ev) (o : Bool) (hr : Run s tr o) (m : Nat) :
    tr.count (.lock m) = tr.count (.unlock m) ∧
      ∀ a b, tr = a ++ b → a.count (.unlock m) ≤ a.count (.lock m) ∧ a.count (.lock m) ≤ a.count (.unlock m) + 1 := by
  obtain ⟨h1, h2⟩ := run_good hr none' hs
  refine ⟨?_, ?_⟩
  · have := count_hold m tr _ h1
    rw [h2] at this
    simpa using this
  · rintro a b rfl
    have := count_hold m a _ ((every_append ..).mp h1).1
    have h3 := Bool.toNat_le (hold none' a m)
    simp only [none', Bool.toNat_false] at this h3
    omega

/-! ## Threads -/

theorem own_append (t : Nat) (a b : List (Nat × Ev)) : own t (a ++ b) = own t a ++ own t b := by
  unfold own; rw [List.filter_append, List.map_append]

theorem own_snoc_self (t : Nat) (e : Ev) (l : List (Nat × Ev)) : own t (l ++ [(t, e)]) = own t l ++ [e] := by
  rw [own_append]; simp [own]

theorem own_snoc_other {t u : Nat} (h : u ≠ t) (e : Ev) (l : List (Nat × Ev)) : own t (l ++ [(u, e)]) = own t l := by
  rw [own_append]; simp [own, h]

theorem exec_append (s : St) (a b : List (Nat × Ev)) : exec s (a ++ b) = match exec s a with | .at s' => exec s' b | .waits => .waits | .ub => .ub := by
  induction a generalizing s with
  | nil => rfl
  | cons p a ih =>
    obtain ⟨t, e⟩ := p
    rw [List.cons_append]
    simp only [exec]
    cases step s t e with
    | «at» s' => exact ih s'
    | waits => rfl
    | ub => rfl

/-- Each thread's own list is good. -/
def AllGood (P : Held → Ev → Prop) (l : List (Nat × Ev)) : Prop := ∀ t, Every (Good P) none' (own t l)

theorem follows_good {P : Held → Ev → Prop} {progs : Nat → Stmt} (hp : ∀ t, Obeys P none' (progs t)) {l : List (Nat × Ev)} (hl : Follows progs l) : AllGood P l := by
  intro t
  obtain ⟨rest, o, hr⟩ := hl t
  exact ((every_append ..).mp (run_good hr _ (hp t)).1).1

theorem allGood_init {P : Held → Ev → Prop} {l : List (Nat × Ev)} {p : Nat × Ev} (h : AllGood P (l ++ [p])) : AllGood P l := by
  intro t
  have := h t
  rw [own_append, every_append] at this
  exact this.1

theorem allGood_last {P : Held → Ev → Prop} {l : List (Nat × Ev)} {t : Nat} {e : Ev} (h : AllGood P (l ++ [(t, e)])) : Good P (hold none' (own t l)) e := by
  have := h t
  rw [own_snoc_self, every_append] at this
  exact this.2.1

/-- The owner of a mutex is the thread that holds it. -/
def Owns (s : St) (l : List (Nat × Ev)) : Prop := ∀ m t, s.owner m = some t ↔ hold none' (own t l) m = true

theorem snoc_ind {α : Type} {P : List α → Prop} (h0 : P []) (h1 : ∀ l x, P l → P (l ++ [x])) (l : List α) : P l := by
  have : ∀ r : List α, P r.reverse := by
    intro r
    induction r with
    | nil => exact h0
    | cons x r ih => rw [List.reverse_cons]; exact h1 _ _ ih
  have := this l.reverse
  rwa [List.reverse_reverse] at this

theorem hold_snoc_self (t : Nat) (e : Ev) (l : List (Nat × Ev)) : hold none' (own t (l ++ [(t, e)])) = after (hold none' (own t l)) e := by
  rw [own_snoc_self, hold_append]; rfl

theorem hold_snoc_other {t u : Nat} (h : u ≠ t) (e : Ev) (l : List (Nat × Ev)) : hold none' (own t (l ++ [(u, e)])) = hold none' (own t l) := by
  rw [own_snoc_other h]

theorem step_owns {P : Held → Ev → Prop} {s : St} {l : List (Nat × Ev)} {t : Nat} {e : Ev} (ho : Owns s l) (hg : Good P (hold none' (own t l)) e) :
    step s t e ≠ .ub ∧ ∀ s', step s t e = .at s' → Owns s' (l ++ [(t, e)]) := by
  cases e with
  | lock m =>
    simp only [step]
    split
    · rename_i hm
      refine ⟨fun h => (by cases h), ?_⟩
      intro s' hs'
      cases hs'
      intro k u
      simp only [upd]
      by_cases hu : t = u
      · subst hu
        rw [hold_snoc_self]
        simp only [after, with']
        by_cases hk : k = m
        · simp [hk]
        · simp only [hk, if_false]; exact ho k t
      · rw [hold_snoc_other hu]
        by_cases hk : k = m
        · subst hk
          simp only [if_true]
          constructor
          · intro h; exact absurd (Option.some.inj h) hu
          · intro h; rw [(ho k u).mpr h] at hm; cases hm
        · simp only [hk, if_false]; exact ho k u
    · exact ⟨fun h => (by cases h), fun s' h => (by cases h)⟩
  | unlock m =>
    simp only [step]
    have hm : s.owner m = some t := (ho m t).mpr hg
    rw [if_pos hm]
    refine ⟨fun h => (by cases h), ?_⟩
    intro s' hs'
    cases hs'
    intro k u
    simp only [upd]
    by_cases hu : t = u
    · subst hu
      rw [hold_snoc_self]
      simp only [after, without]
      by_cases hk : k = m
      · simp [hk]
      · simp only [hk, if_false]; exact ho k t
    · rw [hold_snoc_other hu]
      by_cases hk : k = m
      · subst hk
        simp only [if_true]
        constructor
        · intro h; cases h
        · intro h
          have := (ho k u).mpr h
          rw [hm] at this
          exact absurd (Option.some.inj this) hu
      · simp only [hk, if_false]; exact ho k u
  | read x =>
    refine ⟨fun h => (by cases h), ?_⟩
    intro s' hs'
    cases hs'
    intro k u
    by_cases hu : t = u
    · subst hu; rw [hold_snoc_self]; exact ho k t
    · rw [hold_snoc_other hu]; exact ho k u
  | store x =>
    refine ⟨fun h => (by cases h), ?_⟩
    intro s' hs'
    cases hs'
    intro k u
    by_cases hu : t = u
    · subst hu; rw [hold_snoc_self]; exact ho k t
    · rw [hold_snoc_other hu]; exact ho k u

theorem exec_snoc {l : List (Nat × Ev)} {t : Nat} {e : Ev} {s : St} (h : exec .start (l ++ [(t, e)]) = .at s) :
    ∃ s0, exec .start l = .at s0 ∧ step s0 t e = .at s := by
  rw [exec_append] at h
  cases h0 : exec .start l with
  | «at» s0 =>
    rw [h0] at h
    simp only [exec] at h
    refine ⟨s0, rfl, ?_⟩
    cases h1 : step s0 t e with
    | «at» s1 => rw [h1] at h; exact h
    | waits => rw [h1] at h; cases h
    | ub => rw [h1] at h; cases h
  | waits => rw [h0] at h; cases h
  | ub => rw [h0] at h; cases h

theorem exec_owns {P : Held → Ev → Prop} (l : List (Nat × Ev)) : AllGood P l → exec .start l ≠ .ub ∧ ∀ s, exec .start l = .at s → Owns s l := by
  induction l using snoc_ind with
  | h0 =>
    intro _
    refine ⟨fun h => (by cases h), fun s h => ?_⟩
    cases h
    intro m t
    simp [St.start, own, hold, none']
  | h1 l p ih =>
    obtain ⟨t, e⟩ := p
    intro hg
    obtain ⟨h1, h2⟩ := ih (allGood_init hg)
    have hl := allGood_last hg
    refine ⟨?_, ?_⟩
    · rw [exec_append]
      cases h0 : exec .start l with
      | «at» s0 =>
        simp only [exec]
        have := (step_owns (h2 s0 h0) hl).1
        cases h3 : step s0 t e with
        | «at» s1 => exact fun h => (by cases h)
        | waits => exact fun h => (by cases h)
        | ub => exact absurd h3 this
      | waits => exact fun h => (by cases h)
      | ub => exact absurd h0 h1
    · intro s hs
      obtain ⟨s0, h0, h3⟩ := exec_snoc hs
      exact (step_owns (h2 s0 h0) hl).2 s h3

theorem inside_iff {P : Held → Ev → Prop} {l : List (Nat × Ev)} (hg : AllGood P l) (t m : Nat) : Inside t m l ↔ hold none' (own t l) m = true := by
  have h1 := count_hold m (own t l) none' (hg t)
  unfold Inside
  rw [show none' m = false from rfl, Bool.toNat_false] at h1
  cases hh : hold none' (own t l) m with
  | true => rw [hh] at h1; simp only [Bool.toNat_true] at h1; simp; omega
  | false => rw [hh] at h1; simp only [Bool.toNat_false] at h1; simp; omega

/-- C217: whatever the threads, their number, their exceptions and the schedule, if all of them lock with scoped locks only: nothing undefined happens, and no two threads are between locking and unlocking the same mutex. -/
theorem scoped_excludes (progs : Nat → Stmt) (hp : ∀ t, Blocks (progs t)) (l : List (Nat × Ev)) (hl : Follows progs l) :
    exec .start l ≠ .ub ∧ ∀ s, exec .start l = .at s → ∀ m t u, Inside t m l → Inside u m l → t = u := by
  have hg := follows_good hp hl
  obtain ⟨h1, h2⟩ := exec_owns l hg
  refine ⟨h1, fun s hs m t u ht hu => ?_⟩
  have a := (h2 s hs m t).mpr ((inside_iff hg t m).mp ht)
  have b := (h2 s hs m u).mpr ((inside_iff hg u m).mp hu)
  rw [a] at b
  exact Option.some.inj b

/-! ## No update is lost -/

/-- Every store comes right after the read it belongs to. -/
def Paired (prev : Option Ev) : List Ev → Prop
  | [] => True
  | e :: l => (∀ x, e = .store x → prev = some (.read x)) ∧ Paired (some e) l

def lastOf (prev : Option Ev) : List Ev → Option Ev
  | [] => prev
  | e :: l => lastOf (some e) l

theorem paired_append (prev : Option Ev) (a b : List Ev) : Paired prev (a ++ b) ↔ Paired prev a ∧ Paired (lastOf prev a) b := by
  induction a generalizing prev with
  | nil => simp [Paired, lastOf]
  | cons e a ih => simp only [List.cons_append, Paired, lastOf, ih, and_assoc]

theorem paired_any {l : List Ev} (h : Paired none l) (p : Option Ev) : Paired p l := by
  cases l with
  | nil => trivial
  | cons e l => exact ⟨fun x hx => absurd (h.1 x hx) (by simp), h.2⟩

theorem run_paired {s : Stmt} {tr : List Ev} {o : Bool} (hr : Run s tr o) : Paired none tr := by
  induction hr with
  | skip => trivial
  | throw => trivial
  | bump x => exact ⟨fun y h => (by cases h), fun y h => (by cases h; rfl), trivial⟩
  | bumpThrow x => exact ⟨fun y h => (by cases h), trivial⟩
  | seq _ _ ia ib => exact (paired_append ..).mpr ⟨ia, paired_any ib _⟩
  | seqThrow _ ia => exact ia
  | left _ ia => exact ia
  | right _ ib => exact ib
  | loopEnd => trivial
  | loopMore _ _ ia ib => exact (paired_append ..).mpr ⟨ia, paired_any ib _⟩
  | loopThrow _ ia => exact ia
  | noThrow _ ia => exact ia
  | caught _ _ ia ib => exact (paired_append ..).mpr ⟨ia, paired_any ib _⟩
  | under _ ia => exact ⟨fun y h => (by cases h), (paired_append ..).mpr ⟨paired_any ia _, fun y h => (by cases h), trivial⟩⟩
  | release _ ia => exact ⟨fun y h => (by cases h), (paired_append ..).mpr ⟨paired_any ia _, fun y h => (by cases h), trivial⟩⟩
  | lock => exact ⟨fun y h => (by cases h), trivial⟩
  | unlock => exact ⟨fun y h => (by cases h), trivial⟩

theorem lastOf_snoc (p : Option Ev) (l : List Ev) (e : Ev) : lastOf p (l ++ [e]) = some e := by
  induction l generalizing p with
  | nil => rfl
  | cons x l ih => exact ih _

def stores (x : Nat) (l : List (Nat × Ev)) : Nat := l.countP fun p => decide (p.2 = .store x)

/-- What is so of a variable `x` that `m` guards: it counts the stores, and a thread that has just read it has its value. -/
def Fresh (x m : Nat) (s : St) (l : List (Nat × Ev)) : Prop :=
  s.mem x = stores x l ∧ ∀ t, lastOf none (own t l) = some (.read x) → s.reg t x = s.mem x ∧ s.owner m = some t

/-- The guard, as a rule for events. -/
def guard (x m : Nat) (h : Held) (e : Ev) : Prop :=
  match e with
  | .read y => y = x → h m = true
  | .store y => y = x → h m = true
  | _ => True

theorem stores_snoc (x : Nat) (l : List (Nat × Ev)) (p : Nat × Ev) : stores x (l ++ [p]) = stores x l + if p.2 = .store x then 1 else 0 := by
  unfold stores
  rw [List.countP_append, List.countP_singleton]
  simp

theorem step_fresh {x m : Nat} {s s' : St} {l : List (Nat × Ev)} {t : Nat} {e : Ev} (ho : Owns s l) (hf : Fresh x m s l)
    (hg : Good (guard x m) (hold none' (own t l)) e) (hp : ∀ y, e = .store y → lastOf none (own t l) = some (.read y)) (hs : step s t e = .at s') :
    Fresh x m s' (l ++ [(t, e)]) := by
  obtain ⟨f1, f2⟩ := hf
  cases e with
  | lock k =>
    simp only [step] at hs
    split at hs
    · rename_i hk
      cases hs
      refine ⟨by rw [stores_snoc, f1]; simp, ?_⟩
      intro u hu
      by_cases hut : t = u
      · subst hut; rw [own_snoc_self, lastOf_snoc] at hu; cases hu
      · rw [own_snoc_other hut] at hu
        obtain ⟨g1, g2⟩ := f2 u hu
        refine ⟨g1, ?_⟩
        simp only [upd]
        rw [if_neg (fun h => by rw [h, hk] at g2; cases g2)]
        exact g2
    · cases hs
  | unlock k =>
    simp only [step] at hs
    split at hs
    · rename_i hk
      cases hs
      refine ⟨by rw [stores_snoc, f1]; simp, ?_⟩
      intro u hu
      by_cases hut : t = u
      · subst hut; rw [own_snoc_self, lastOf_snoc] at hu; cases hu
      · rw [own_snoc_other hut] at hu
        obtain ⟨g1, g2⟩ := f2 u hu
        refine ⟨g1, ?_⟩
        simp only [upd]
        rw [if_neg (fun h => by rw [h, hk] at g2; exact hut (Option.some.inj g2))]
        exact g2
    · cases hs
  | read y =>
    cases hs
    refine ⟨by rw [stores_snoc, f1]; simp, ?_⟩
    intro u hu
    simp only [upd]
    by_cases hut : t = u
    · subst hut
      rw [own_snoc_self, lastOf_snoc] at hu
      simp only [Option.some.injEq, Ev.read.injEq] at hu
      subst hu
      exact ⟨by simp [upd], (ho m t).mpr (hg rfl)⟩
    · rw [own_snoc_other hut] at hu
      rw [if_neg (fun h => hut h.symm)]
      exact f2 u hu
  | store y =>
    have hl := hp y rfl
    cases hs
    by_cases hy : y = x
    · subst hy
      obtain ⟨g1, g2⟩ := f2 t hl
      refine ⟨?_, ?_⟩
      · rw [stores_snoc]
        simp only [upd, if_true]
        rw [g1, f1]
      · intro u hu
        by_cases hut : t = u
        · subst hut; rw [own_snoc_self, lastOf_snoc] at hu; cases hu
        · rw [own_snoc_other hut] at hu
          have := (f2 u hu).2
          rw [g2] at this
          exact absurd (Option.some.inj this) hut
    · refine ⟨?_, ?_⟩
      · rw [stores_snoc]
        simp only [upd, Ev.store.injEq]
        rw [if_neg (fun h => hy h.symm), if_neg hy, f1]; rfl
      · intro u hu
        by_cases hut : t = u
        · subst hut; rw [own_snoc_self, lastOf_snoc] at hu; cases hu
        · rw [own_snoc_other hut] at hu
          have hx : ¬ x = y := fun h => hy h.symm
          simp only [upd, hx, if_false]
          exact f2 u hu

/-- C217: a variable that all threads use only with the same mutex locked has counted every update, at any time and whatever the schedule and the exceptions. -/
theorem scoped_counts (progs : Nat → Stmt) (x m : Nat) (hp : ∀ t, Guarded x m (progs t)) (l : List (Nat × Ev)) (hl : Follows progs l) (s : St) (hs : exec .start l = .at s) :
    s.mem x = l.countP fun p => decide (p.2 = .store x) := by
  have hg : AllGood (guard x m) l := follows_good (P := guard x m) hp hl
  have hpair : ∀ t, Paired none (own t l) := by
    intro t
    obtain ⟨rest, o, hr⟩ := hl t
    exact ((paired_append ..).mp (run_paired hr)).1
  have key : ∀ l : List (Nat × Ev), AllGood (guard x m) l → (∀ t, Paired none (own t l)) → ∀ s, exec .start l = .at s → Fresh x m s l := by
    intro l
    induction l using snoc_ind with
    | h0 =>
      intro _ _ s h
      cases h
      exact ⟨rfl, fun t h => (by cases h)⟩
    | h1 l p ih =>
      obtain ⟨t, e⟩ := p
      intro hg hp s hs
      obtain ⟨s0, h0, h1⟩ := exec_snoc hs
      have hp' : ∀ u, Paired none (own u l) := by
        intro u
        have := hp u
        rw [own_append, paired_append] at this
        exact this.1
      refine step_fresh ((exec_owns l (allGood_init hg)).2 s0 h0) (ih (allGood_init hg) hp' s0 h0) (allGood_last hg) ?_ h1
      intro y hy
      have := hp t
      rw [own_snoc_self, paired_append] at this
      exact this.2.1 y hy
  exact (key l hg hpair s hs).1

/-! ## Some thread can go on -/

/-- The order, as a rule for events. -/
def order (h : Held) (e : Ev) : Prop :=
  match e with
  | .lock m => ∀ k, h k = true → k < m
  | _ => True

theorem exec_ready {l : List (Nat × Ev)} {t : Nat} {e : Ev} {s s' : St} (h : exec .start l = .at s) (hs : step s t e = .at s') : exec .start (l ++ [(t, e)]) = .at s' := by
  rw [exec_append, h]
  simp only [exec, hs]

/-- No mutex from some number on is locked in a list. -/
theorem lock_bound (l : List (Nat × Ev)) : ∃ n, ∀ t m, hold none' (own t l) m = true → m < n := by
  induction l using snoc_ind with
  | h0 => exact ⟨0, fun t m h => by simp [own, hold, none'] at h⟩
  | h1 l p ih =>
    obtain ⟨n, hn⟩ := ih
    obtain ⟨t, e⟩ := p
    refine ⟨n + (match e with | .lock m => m + 1 | _ => 0), ?_⟩
    intro u m h
    by_cases hu : t = u
    · subst hu
      rw [hold_snoc_self] at h
      cases e with
      | lock k =>
        simp only [after, with'] at h
        split at h
        · simp only; omega
        · have := hn t m h; simp only; omega
      | unlock k =>
        simp only [after, without] at h
        split at h
        · cases h
        · exact hn t m h
      | read x => exact hn t m h
      | store x => exact hn t m h
    · rw [hold_snoc_other hu] at h
      have := hn u m h
      omega

/-- C217: if all threads lock mutexes in the same order, with scoped locks only, then as long as not all have come to their end, one can go on; so nothing they do together waits for ever. -/
theorem scoped_goes_on (progs : Nat → Stmt) (hp : ∀ t, InOrder (progs t)) (runs : Nat → List Ev) (ends : Nat → Bool) (hr : ∀ t, Run (progs t) (runs t) (ends t))
    (l : List (Nat × Ev)) (hl : ∀ t, own t l <+: runs t) (s : St) (hs : exec .start l = .at s) (hne : ∃ t, own t l ≠ runs t) :
    ∃ t e s', own t l ++ [e] <+: runs t ∧ exec .start (l ++ [(t, e)]) = .at s' := by
  have hrg := fun t => run_good (hr t) _ (hp t)
  have hg : AllGood order l := by
    intro t
    obtain ⟨rest, h⟩ := hl t
    have := (hrg t).1
    rw [← h, every_append] at this
    exact this.1
  have ho := (exec_owns l hg).2 s hs
  obtain ⟨n, hn⟩ := lock_bound l
  -- what a thread does next
  have next : ∀ t, own t l ≠ runs t → ∃ e, own t l ++ [e] <+: runs t ∧ Good order (hold none' (own t l)) e := by
    intro t ht
    obtain ⟨rest, h⟩ := hl t
    cases rest with
    | nil => exact absurd (by simpa using h) ht
    | cons e rest =>
      refine ⟨e, ⟨rest, by rw [← h]; simp⟩, ?_⟩
      have := (hrg t).1
      rw [← h, every_append] at this
      exact this.2.1
  have key : ∀ (d : Nat) (t m : Nat), n - m ≤ d → own t l ++ [.lock m] <+: runs t → s.owner m ≠ none →
      ∃ t e s', own t l ++ [e] <+: runs t ∧ exec .start (l ++ [(t, e)]) = .at s' := by
    intro d
    induction d with
    | zero =>
      intro t m hd _ hm
      obtain ⟨u, hu⟩ := Option.ne_none_iff_exists'.mp hm
      have := hn u m ((ho m u).mp hu)
      omega
    | succ d ih =>
      intro t m hd _ hm
      obtain ⟨u, hu⟩ := Option.ne_none_iff_exists'.mp hm
      have hum := (ho m u).mp hu
      have hlt := hn u m hum
      have hune : own u l ≠ runs u := by
        intro e
        rw [e, (hrg u).2] at hum
        cases hum
      obtain ⟨e, h1, h2⟩ := next u hune
      cases e with
      | lock k =>
        have hk : m < k := h2.2 m hum
        by_cases hko : s.owner k = none
        · exact ⟨u, .lock k, _, h1, exec_ready hs (if_pos hko)⟩
        · exact ih u k (by omega) h1 hko
      | unlock k => exact ⟨u, .unlock k, _, h1, exec_ready hs (if_pos ((ho k u).mpr h2))⟩
      | read x => exact ⟨u, .read x, _, h1, exec_ready hs rfl⟩
      | store x => exact ⟨u, .store x, _, h1, exec_ready hs rfl⟩
  obtain ⟨t, ht⟩ := hne
  obtain ⟨e, h1, h2⟩ := next t ht
  cases e with
  | lock k =>
    by_cases hko : s.owner k = none
    · exact ⟨t, .lock k, _, h1, exec_ready hs (if_pos hko)⟩
    · exact key (n - k) t k (Nat.le_refl _) h1 hko
  | unlock k => exact ⟨t, .unlock k, _, h1, exec_ready hs (if_pos ((ho k t).mpr h2))⟩
  | read x => exact ⟨t, .read x, _, h1, exec_ready hs rfl⟩
  | store x => exact ⟨t, .store x, _, h1, exec_ready hs rfl⟩

/-! ## Examples, and what is not so -/

/-- Thread 0 and 1 count under mutex 3; thread 1 opens the block for a while. -/
def prog1 : Nat → Stmt
  | 0 => .under 3 (.bump 7)
  | 1 => .attempt (.under 3 (.seq (.release 3 .skip) (.bump 7))) .skip
  | _ => .skip

theorem prog1_guarded : ∀ t, Guarded 7 3 (prog1 t) := by
  intro t
  unfold prog1
  split
  · exact ⟨rfl, trivial, fun _ => rfl, fun _ => rfl⟩
  · exact ⟨⟨rfl, trivial, ⟨rfl, trivial, trivial⟩, fun _ => rfl, fun _ => rfl⟩, trivial⟩
  · trivial

theorem prog1_order : ∀ t, InOrder (prog1 t) := by
  intro t
  unfold prog1
  split
  · exact ⟨rfl, fun k h => (by cases h), trivial, trivial⟩
  · refine ⟨⟨rfl, fun k h => (by cases h), ⟨rfl, trivial, ?_⟩, trivial, trivial⟩, trivial⟩
    intro k h
    by_cases hk : k = 3
    · subst hk; cases h
    · simp [without, with', hk, none'] at h
  · trivial

/-- Thread 1 locks, lets thread 0 in, locks again and throws in the middle of its update. -/
def day1 : List (Nat × Ev) :=
  [(1, .lock 3), (1, .unlock 3), (0, .lock 3), (0, .read 7), (0, .store 7), (0, .unlock 3), (1, .lock 3), (1, .read 7), (1, .unlock 3)]

theorem day1_follows : Follows prog1 day1 := by
  intro t
  by_cases h0 : t = 0
  · subst h0; exact ⟨[], true, Run.under (Run.bump 7)⟩
  · by_cases h1 : t = 1
    · subst h1
      exact ⟨[], true, Run.caught (Run.under (Run.seq (Run.release Run.skip) (Run.bumpThrow 7))) Run.skip⟩
    · refine ⟨[], true, ?_⟩
      have e1 : own t day1 = [] := by
        unfold own day1
        simp [Ne.symm h0, Ne.symm h1]
      have e2 : prog1 t = .skip := by
        unfold prog1
        split
        · exact absurd rfl h0
        · exact absurd rfl h1
        · rfl
      rw [e1, e2]
      exact Run.skip

example : ∃ s, exec .start day1 = .at s ∧ s.mem 7 = 1 := ⟨_, rfl, rfl⟩

/-- The third mutex is taken by thread 0 alone, halfway through the day. -/
example : Inside 0 3 (day1.take 4) ∧ ¬ Inside 1 3 (day1.take 4) ∧ ∃ t, own t (day1.take 4) ≠ own t day1 := by
  exact ⟨by unfold Inside; decide, by unfold Inside; decide, 0, by decide⟩

example : Run (.under 3 (.loop (.under 4 .throw))) [.lock 3, .lock 4, .unlock 4, .unlock 3] false :=
  Run.under (Run.loopThrow (Run.under Run.throw))

/-- C217, false of `SimpleMutex`: a block inside a block for the same mutex waits for ever, without other threads. -/
theorem scoped_recursion_false : ∃ (s : Stmt) (tr : List Ev), Run s tr true ∧ exec .start (tr.map fun e => (0, e)) = .waits ∧
    ∀ m, tr.count (.lock m) = tr.count (.unlock m) :=
  ⟨.under 0 (.under 0 .skip), [.lock 0, .lock 0, .unlock 0, .unlock 0], Run.under (Run.under Run.skip), rfl, fun m => by
    by_cases h : 0 = m
    · subst h; rfl
    · simp [h]⟩

/-- C217: two threads that lock in opposite orders can come to where each waits for the other. -/
theorem scoped_opposite_false : ∃ (progs : Nat → Stmt) (l : List (Nat × Ev)) (s : St), (∀ t, Blocks (progs t)) ∧ Follows progs l ∧ exec .start l = .at s ∧
    (∀ e rest o, Run (progs 0) (own 0 l ++ e :: rest) o → step s 0 e = .waits) ∧ (∀ e rest o, Run (progs 1) (own 1 l ++ e :: rest) o → step s 1 e = .waits) := by
  refine ⟨fun t => if t = 0 then .under 0 (.under 1 .skip) else if t = 1 then .under 1 (.under 0 .skip) else .skip, [(0, .lock 0), (1, .lock 1)], _, ?_, ?_, rfl, ?_, ?_⟩
  · intro t
    dsimp only
    split
    · exact ⟨rfl, trivial, rfl, trivial, trivial⟩
    · split
      · exact ⟨rfl, trivial, rfl, trivial, trivial⟩
      · trivial
  · intro t
    by_cases h0 : t = 0
    · subst h0; exact ⟨[.lock 1, .unlock 1, .unlock 0], true, Run.under (Run.under Run.skip)⟩
    · by_cases h1 : t = 1
      · subst h1; exact ⟨[.lock 0, .unlock 0, .unlock 1], true, Run.under (Run.under Run.skip)⟩
      · refine ⟨[], true, ?_⟩
        have e1 : own t [(0, Ev.lock 0), (1, .lock 1)] = [] := by
          unfold own
          simp [Ne.symm h0, Ne.symm h1]
        rw [e1]
        simp only [h0, h1, if_false]
        exact Run.skip
  · intro e rest o h
    have e1 : own 0 [(0, Ev.lock 0), (1, .lock 1)] ++ e :: rest = [.lock 0, e] ++ rest := rfl
    rw [e1] at h
    simp only [if_true] at h
    generalize ht : [Ev.lock 0, e] ++ rest = tr at h
    cases h with
    | under h =>
      cases h with
      | under h =>
        simp only [List.cons_append, List.nil_append, List.cons.injEq] at ht
        rw [ht.2.1]; rfl
  · intro e rest o h
    have e1 : own 1 [(0, Ev.lock 0), (1, .lock 1)] ++ e :: rest = [.lock 1, e] ++ rest := rfl
    rw [e1] at h
    simp only [if_true, Nat.one_ne_zero, if_false] at h
    generalize ht : [Ev.lock 1, e] ++ rest = tr at h
    cases h with
    | under h =>
      cases h with
      | under h =>
        simp only [List.cons_append, List.nil_append, List.cons.injEq] at ht
        rw [ht.2.1]; rfl

/-- C217, false of `LintelLog::log`: it locks by hand, so an appender that throws leaves the mutex locked, and no thread can ever log again. -/
theorem log_throw_false : ∃ tr, Run logCall tr false ∧ ∃ s, exec .start (tr.map fun e => (0, e)) = .at s ∧ s.owner 0 = some 0 ∧
    ∀ t tr' o, Run logCall tr' o → exec s (tr'.map fun e => (t, e)) = .waits := by
  refine ⟨[.lock 0], Run.seq (tr := [.lock 0]) (tr' := []) Run.lock (Run.seqThrow (Run.right Run.throw)), _, rfl, rfl, ?_⟩
  intro t tr' o h
  unfold logCall at h
  cases h with
  | seq h1 h2 => cases h1; rfl
  | seqThrow h1 => cases h1

end Verif.Scope
