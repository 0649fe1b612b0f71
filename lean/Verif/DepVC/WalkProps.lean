import Verif.DepVC.Walk
import Verif.DepVC.SelectProps

/-! # C198: a code review goes through all the files, in order -/

namespace Verif.DepVC.Walk

open Verif.Deptool.Deps (Text)
open Verif.DepVC.Select (lt lt_self)

/-! ## The specification: a bookmark in the list -/

structure Book where
  /-- the place of the file that comes next -/
  pos : Nat
  auto : Bool
  seen : List Text

/-- The place of the alphabetically first of the names that fit. -/
def choose (order : List Text) (hit : Text → Bool) : Option Nat :=
  (List.range order.length).find? fun i => (order[i]?).any fun m => hit m && order.all fun x => !hit x || !lt x m

/-- The next file is shown, or there is none. -/
def turn (order : List Text) (there : Text → Bool) (b : Book) : Option Book :=
  match order[b.pos]? with
  | none => none
  | some x => if there x then some { b with pos := b.pos + 1, seen := b.seen ++ [x] } else some { b with auto := false }

/-- What a review does with the commands that are typed. -/
def read (order : List Text) (there : Text → Bool) : Nat → List Cmd → Book → List Text × End
  | 0, _, b => (b.seen, .waiting)
  | f + 1, cs, b =>
    match b.auto, cs with
    | true, cs => match turn order there b with | none => (b.seen, .asked) | some b' => read order there f cs b'
    | false, [] => (b.seen, .waiting)
    | false, .ret :: cs => match turn order there b with | none => (b.seen, .asked) | some b' => read order there f cs b'
    | false, .auto :: cs => read order there f cs { b with auto := true }
    | false, .info :: cs => read order there f cs b
    | false, .pick hit :: cs => read order there f cs { b with pos := (choose order hit).getD b.pos }
    | false, .reviewed :: _ => (b.seen, .marked)
    | false, .finish :: _ => (b.seen, .finished)
    | false, .exit :: _ => (b.seen, .exited)
    | false, .ask :: _ => (b.seen, .asked)

/-! ## Lemmas -/

theorem lt_mix : ∀ (y x m : Text), lt y x = true → lt m x = false → lt y m = true := by
  intro y
  induction y with
  | nil =>
    intro x m h1 h2
    cases x with
    | nil => cases h1
    | cons b x => cases m with | nil => cases h2 | cons c m => rfl
  | cons a y ih =>
    intro x m h1 h2
    cases x with
    | nil => cases h1
    | cons b x =>
      cases m with
      | nil => cases h2
      | cons c m =>
        simp only [lt, Bool.or_eq_true, Bool.or_eq_false_iff, Bool.and_eq_true, Bool.and_eq_false_iff, decide_eq_true_eq, decide_eq_false_iff_not] at h1 h2 ⊢
        rcases h1 with h1 | ⟨rfl, h1⟩
        · exact Or.inl (by omega)
        · by_cases hc : c = a
          · subst hc
            exact Or.inr ⟨rfl, ih x m h1 (h2.2.resolve_left (fun h => h rfl))⟩
          · left
            have : c.toNat ≠ a.toNat := fun h => hc (Char.toNat_inj.mp h)
            omega

theorem lt_both : ∀ x y : Text, lt x y = true → lt y x = false := by
  intro x
  induction x with
  | nil => intro y h; cases y with | nil => rfl | cons _ _ => rfl
  | cons c x ih =>
    intro y h
    cases y with
    | nil => cases h
    | cons d y =>
      simp only [lt, Bool.or_eq_true, Bool.and_eq_true, Bool.or_eq_false_iff, Bool.and_eq_false_iff, decide_eq_true_eq, decide_eq_false_iff_not] at h ⊢
      rcases h with h | ⟨rfl, h⟩
      · exact ⟨by omega, Or.inl (fun e => by rw [e] at h; omega)⟩
      · exact ⟨by omega, Or.inr (ih y h)⟩

theorem lt_total : ∀ x y : Text, lt x y = false → lt y x = false → x = y := by
  intro x
  induction x with
  | nil => intro y h _; cases y with | nil => rfl | cons _ _ => cases h
  | cons c x ih =>
    intro y h1 h2
    cases y with
    | nil => cases h2
    | cons d y =>
      simp only [lt, Bool.or_eq_false_iff, Bool.and_eq_false_iff, decide_eq_false_iff_not] at h1 h2
      have : c = d := Char.toNat_inj.mp (by omega)
      subst this
      rw [ih y (h1.2.resolve_left (fun h => h rfl)) (h2.2.resolve_left (fun h => h rfl))]

theorem least_none (xs : List Text) : least xs = none ↔ xs = [] := by
  cases xs with
  | nil => simp [least]
  | cons x xs =>
    simp only [least, reduceCtorEq, iff_false]
    cases least xs with
    | none => simp
    | some m => simp only; split <;> simp

theorem least_some : ∀ (xs : List Text) (m : Text), least xs = some m → m ∈ xs ∧ ∀ x ∈ xs, lt x m = false := by
  intro xs
  induction xs with
  | nil => intro m h; cases h
  | cons x xs ih =>
    intro m h
    unfold least at h
    cases e : least xs with
    | none =>
      rw [e] at h
      cases h
      rw [(least_none xs).mp e]
      refine ⟨List.mem_singleton.mpr rfl, ?_⟩
      intro y hy
      rw [List.mem_singleton.mp hy]; exact lt_self _
    | some k =>
      rw [e] at h
      obtain ⟨i1, i2⟩ := ih k e
      simp only at h
      split at h
      · rename_i hk
        obtain rfl := Option.some.inj h
        refine ⟨List.mem_cons_of_mem _ i1, ?_⟩
        intro y hy
        rcases List.mem_cons.mp hy with hy | hy
        · rw [hy]; exact lt_both _ _ hk
        · exact i2 y hy
      · rename_i hk
        obtain rfl := Option.some.inj h
        refine ⟨List.mem_cons_self .., ?_⟩
        intro y hy
        rcases List.mem_cons.mp hy with hy | hy
        · rw [hy]; exact lt_self _
        · cases hyx : lt y x with
          | false => rfl
          | true =>
            have := lt_mix y x k hyx (by simpa using hk)
            rw [i2 y hy] at this; cases this

/-- The name of the last file, for a place in the list. -/
def curAt (order : List Text) (pos : Nat) : Text := if pos = 0 then startMark else (order[pos - 1]?).getD []

theorem after_at : ∀ (xs : List Text), xs.Nodup → ∀ i, i < xs.length → after ((xs[i]?).getD []) xs = (xs[i + 1]?).getD endMark := by
  intro xs
  induction xs with
  | nil => intro _ i h; cases h
  | cons x xs ih =>
    intro hn i h
    obtain ⟨h1, h2⟩ := List.nodup_cons.mp hn
    cases i with
    | zero =>
      simp only [List.getElem?_cons_zero, Option.getD_some, after, if_pos]
      cases xs <;> rfl
    | succ i =>
      simp only [List.length_cons, Nat.add_lt_add_iff_right] at h
      simp only [List.getElem?_cons_succ]
      have hne : x ≠ (xs[i]?).getD [] := by
        rw [List.getElem?_eq_getElem h, Option.getD_some]
        intro e; exact h1 (e ▸ List.getElem_mem h)
      rw [after.eq_def]
      simp only
      rw [if_neg hne, ih h2 i h]

theorem next_at (order : List Text) (hn : order.Nodup) (hs : startMark ∉ order) (pos : Nat) (hp : pos ≤ order.length) :
    next order (curAt order pos) = (order[pos]?).getD endMark := by
  cases ho : order with
  | nil => simp [next]
  | cons x xs =>
    rw [← ho]
    have hnx : next order (curAt order pos) = if curAt order pos = startMark then x else after (curAt order pos) order := by rw [ho]; rfl
    rw [hnx]
    cases pos with
    | zero => simp [curAt, ho]
    | succ i =>
      have hi : i < order.length := by omega
      have hc : curAt order (i + 1) = (order[i]?).getD [] := by simp [curAt]
      rw [hc, if_neg, after_at order hn i hi]
      rw [List.getElem?_eq_getElem hi, Option.getD_some]
      intro e; exact hs (e ▸ List.getElem_mem hi)

theorem before_at : ∀ (xs : List Text) (prev : Text), xs.Nodup → ∀ i, i < xs.length → before ((xs[i]?).getD []) prev xs = some (if i = 0 then prev else (xs[i - 1]?).getD []) := by
  intro xs
  induction xs with
  | nil => intro _ _ i h; cases h
  | cons x xs ih =>
    intro prev hn i h
    obtain ⟨h1, h2⟩ := List.nodup_cons.mp hn
    cases i with
    | zero => simp [before]
    | succ i =>
      simp only [List.length_cons, Nat.add_lt_add_iff_right] at h
      simp only [List.getElem?_cons_succ]
      have hne : x ≠ (xs[i]?).getD [] := by
        rw [List.getElem?_eq_getElem h, Option.getD_some]
        intro e; exact h1 (e ▸ List.getElem_mem h)
      rw [before, if_neg hne, ih x h2 i h]
      cases i with
      | zero => simp
      | succ j => simp

theorem selectPrev_at (order : List Text) (hn : order.Nodup) (hit : Text → Bool) (pos : Nat) (hp : pos ≤ order.length) :
    selectPrev order hit (curAt order pos) = some (curAt order ((choose order hit).getD pos)) ∧ (choose order hit).getD pos ≤ order.length := by
  unfold selectPrev
  cases hl : least (order.filter hit) with
  | none =>
    have hnil := (least_none _).mp hl
    have hno : choose order hit = none := by
      unfold choose
      rw [List.find?_eq_none]
      intro i hi
      cases ho : order[i]? with
      | none => simp
      | some m =>
        have hm : m ∈ order := List.mem_of_getElem? ho
        have : hit m ≠ true := fun h => by
          have : m ∈ order.filter hit := List.mem_filter.mpr ⟨hm, h⟩
          rw [hnil] at this; cases this
        simp [this]
    rw [hno]; exact ⟨rfl, hp⟩
  | some m =>
    obtain ⟨h1, h2⟩ := least_some _ _ hl
    obtain ⟨hmo, hmh⟩ := List.mem_filter.mp h1
    obtain ⟨j, hj⟩ := List.getElem?_of_mem hmo
    have hjl : j < order.length := (List.getElem?_eq_some_iff.mp hj).1
    have hsome : (choose order hit).isSome = true := by
      unfold choose
      rw [List.find?_isSome]
      refine ⟨j, List.mem_range.mpr hjl, ?_⟩
      rw [hj]
      simp only [Option.any_some, hmh, Bool.true_and, List.all_eq_true]
      intro x hx
      cases hh : hit x with
      | false => rfl
      | true => rw [h2 x (List.mem_filter.mpr ⟨hx, hh⟩)]; rfl
    obtain ⟨i, hi⟩ := Option.isSome_iff_exists.mp hsome
    have hi2 := List.find?_some hi
    have hil : i < order.length := List.mem_range.mp (List.mem_of_find?_eq_some hi)
    have him : order[i]? = some m := by
      rw [List.getElem?_eq_getElem hil] at hi2 ⊢
      simp only [Option.any_some, Bool.and_eq_true, List.all_eq_true] at hi2
      have ha := hi2.2 m hmo
      rw [hmh] at ha
      have hb := h2 _ (List.mem_filter.mpr ⟨List.getElem_mem hil, hi2.1⟩)
      rw [lt_total _ _ hb (by simpa using ha)]
    rw [hi, Option.getD_some]
    refine ⟨?_, by omega⟩
    have := before_at order startMark hn i hil
    rw [him] at this
    simp only [Option.getD_some] at this
    show before m startMark order = _
    rw [this]
    rfl

/-- The two states go together. -/
structure Same (order : List Text) (s : St) (b : Book) : Prop where
  pos : b.pos ≤ order.length
  cur : s.cur = curAt order b.pos
  auto : s.auto = b.auto
  seen : s.seen = b.seen

theorem ret_same (order : List Text) (hn : order.Nodup) (hs : startMark ∉ order) (he : endMark ∉ order) (there : Text → Bool) (s : St) (b : Book) (h : Same order s b) :
    (ret order there s = none ∧ turn order there b = none) ∨ ∃ s' b', ret order there s = some s' ∧ turn order there b = some b' ∧ Same order s' b' := by
  have hx := next_at order hn hs b.pos h.pos
  unfold ret turn
  simp only
  rw [h.cur, hx]
  cases ho : order[b.pos]? with
  | none => left; simp
  | some x =>
    have hb : b.pos < order.length := (List.getElem?_eq_some_iff.mp ho).1
    have hxe : x ≠ endMark := fun e => he (e ▸ List.mem_of_getElem? ho)
    right
    simp only [Option.getD_some]
    rw [if_neg hxe]
    by_cases ht : there x = true
    · rw [if_pos ht, if_pos ht]
      refine ⟨_, _, rfl, rfl, ⟨hb, ?_, h.auto, ?_⟩⟩
      · show x = curAt order (b.pos + 1)
        unfold curAt
        simp [ho]
      · show s.seen ++ [x] = b.seen ++ [x]
        rw [h.seen]
    · rw [if_neg ht, if_neg ht]
      exact ⟨_, _, rfl, rfl, ⟨h.pos, rfl, rfl, h.seen⟩⟩

theorem run_read (order : List Text) (hn : order.Nodup) (hs : startMark ∉ order) (he : endMark ∉ order) (there : Text → Bool) :
    ∀ (f : Nat) (cs : List Cmd) (s : St) (b : Book), Same order s b → run order there f cs s = read order there f cs b := by
  intro f
  induction f with
  | zero => intro cs s b h; unfold run read; rw [h.seen]
  | succ f ih =>
    intro cs s b h
    unfold run read
    have hr := ret_same order hn hs he there s b h
    have ha := h.auto
    cases hb : b.auto with
    | true =>
      rw [ha, hb, if_pos rfl]
      simp only
      rcases hr with ⟨r1, r2⟩ | ⟨s', b', r1, r2, r3⟩
      · rw [r1, r2]; simp only [h.seen]
      · rw [r1, r2]; exact ih cs s' b' r3
    | false =>
      rw [ha, hb, if_neg (by decide)]
      cases cs with
      | nil => simp only [h.seen]
      | cons c cs =>
        cases c with
        | ret =>
          simp only
          rcases hr with ⟨r1, r2⟩ | ⟨s', b', r1, r2, r3⟩
          · rw [r1, r2]; simp only [h.seen]
          · rw [r1, r2]; exact ih cs s' b' r3
        | auto => exact ih cs _ _ ⟨h.pos, h.cur, rfl, h.seen⟩
        | info => exact ih cs s b h
        | pick hit =>
          simp only
          obtain ⟨p1, p2⟩ := selectPrev_at order hn hit b.pos h.pos
          rw [h.cur, p1]
          exact ih cs _ _ ⟨p2, rfl, rfl, h.seen⟩
        | reviewed => simp only [h.seen]
        | finish => simp only [h.seen]
        | exit => simp only [h.seen]
        | ask => simp only [h.seen]

/-- C198: if no file comes twice in the ordering file (and none is called `*start*` or `*end*`), a review is a bookmark in the list: return shows the file at the bookmark and moves on, `auto` does so to the end, part of a name puts the bookmark at the alphabetically first file that fits, and at the end of the list the question comes; for all commands. -/
theorem walk_partial (order : List Text) (hn : order.Nodup) (hs : startMark ∉ order) (he : endMark ∉ order) (there : Text → Bool) (f : Nat) (cs : List Cmd) :
    run order there f cs start = read order there f cs { pos := 0, auto := false, seen := [] } :=
  run_read order hn hs he there f cs start _ ⟨Nat.zero_le _, rfl, rfl, rfl⟩

theorem read_auto (order : List Text) (there : Text → Bool) (ht : ∀ x ∈ order, there x = true) : ∀ (k pos : Nat) (f : Nat) (cs : List Cmd) (seen : List Text), order.length - pos = k → k < f →
    read order there f cs { pos := pos, auto := true, seen := seen } = (seen ++ order.drop pos, .asked) := by
  intro k
  induction k with
  | zero =>
    intro pos f cs seen hk hf
    cases f with
    | zero => cases hf
    | succ f =>
      have hp : order.length ≤ pos := by omega
      have hnone : order[pos]? = none := List.getElem?_eq_none hp
      unfold read turn
      simp only [hnone]
      rw [List.drop_of_length_le hp, List.append_nil]
  | succ k ih =>
    intro pos f cs seen hk hf
    cases f with
    | zero => cases hf
    | succ f =>
      have hp : pos < order.length := by omega
      unfold read turn
      simp only [List.getElem?_eq_getElem hp]
      rw [if_pos (ht _ (List.getElem_mem hp))]
      simp only
      rw [ih (pos + 1) f cs _ (by omega) (by omega), List.append_assoc, List.singleton_append, ← List.drop_eq_getElem_cons hp]

/-- C198: with `auto`, all files are shown once each, in order, and then comes the question. -/
theorem walk_auto (order : List Text) (hn : order.Nodup) (hs : startMark ∉ order) (he : endMark ∉ order) (there : Text → Bool) (ht : ∀ x ∈ order, there x = true) (f : Nat) (hf : order.length + 1 < f) (cs : List Cmd) :
    run order there f (.auto :: cs) start = (order, .asked) := by
  rw [walk_partial order hn hs he there]
  cases f with
  | zero => cases hf
  | succ f =>
    unfold read
    simp only
    rw [read_auto order there ht order.length 0 f cs [] (by omega) (by omega)]
    rfl

example : run [['b'], ['a'], ['c']] (fun _ => true) 9 [.ret, .pick (fun x => decide (x ≠ ['b'])), .ret, .ret, .ret] start = ([['b'], ['a'], ['c']], .asked) := by decide +kernel

/-- C198, false of the code: if a file comes twice in the ordering file, which is there to be edited, the files after it are never shown, however often return is pressed. -/
theorem walk_twice_false : ∃ order : List Text, startMark ∉ order ∧ endMark ∉ order ∧ ['c'] ∈ order ∧ ∀ f n, ['c'] ∉ (run order (fun _ => true) f (List.replicate n .ret) start).1 := by
  refine ⟨[['a'], ['b'], ['a'], ['c']], by decide, by decide, by decide, ?_⟩
  have key : ∀ (f n : Nat) (s : St), s.auto = false → (s.cur = startMark ∨ s.cur = ['a'] ∨ s.cur = ['b']) → ['c'] ∉ s.seen →
      ['c'] ∉ (run [['a'], ['b'], ['a'], ['c']] (fun _ => true) f (List.replicate n .ret) s).1 := by
    intro f
    induction f with
    | zero => intro n s _ _ h; exact h
    | succ f ih =>
      intro n s ha hc h
      cases n with
      | zero => unfold run; rw [ha]; exact h
      | succ n =>
        have hx : (next [['a'], ['b'], ['a'], ['c']] s.cur = ['a'] ∨ next [['a'], ['b'], ['a'], ['c']] s.cur = ['b']) := by
          rcases hc with hc | hc | hc <;> rw [hc]
          · left; decide
          · right; decide
          · left; decide
        rw [List.replicate_succ]
        unfold run
        rw [ha, if_neg (by decide)]
        unfold ret
        simp only [if_true]
        rcases hx with hx | hx <;> rw [hx]
        · rw [if_neg (by decide)]
          exact ih n _ ha (Or.inr (Or.inl rfl)) (by simp [h])
        · rw [if_neg (by decide)]
          exact ih n _ ha (Or.inr (Or.inr rfl)) (by simp [h])
  intro f n
  exact key f n start rfl (Or.inl rfl) (by simp [start])

end Verif.DepVC.Walk
