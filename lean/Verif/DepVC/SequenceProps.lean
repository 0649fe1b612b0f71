import Verif.DepVC.Sequence
import Verif.DepVC.WalkProps
import Verif.DepVC.MarksProps

/-! # C199: a code review shows what the chosen revisions changed -/

namespace Verif.DepVC.Sequence

open Verif.Deptool.Deps (Text)
open Verif.DepVC.Select (lt lt_self)
open Verif.DepVC.Walk (lt_mix lt_both lt_total)
open Verif.DepVC.Marks (lines lines_append isHex)

/-! ## The specification -/

/-- The same files with the same contents. -/
def Same (t u : Tree) : Prop := ∀ p, look t p = look u p

/-- A list of files has every name once. -/
def Wf (t : Tree) : Prop := (t.map (·.1)).Nodup

/-- Names that `patch` and the program itself use. -/
def Special (fresh : Prop) (p : Text) : Prop :=
  (fresh ∧ ∃ q, p = q ++ ".orig".toList ∨ p = q ++ ".rej".toList) ∨
  (∃ q, p = q ++ "-cr-edit-me".toList) ∨ ∃ q h, p = q ++ "-cr-version-".toList ++ h ∧ h ≠ [] ∧ ∀ c ∈ h, isHex c = true

/-- A file of the last directory that was not there or had other contents. -/
def Differs (start last : Tree) (p : Text) : Prop := ∃ c, look last p = some (.file c) ∧ look start p ≠ some (.file c)

/-- A file has become a directory, or a directory a file. -/
def Clash (start last : Tree) : Prop := ∃ p c, (look start p = some .dir ∧ look last p = some (.file c)) ∨ (look start p = some (.file c) ∧ look last p = some .dir)

/-- Each revision is the parent of the next. -/
def Chain : List Rv → Prop
  | r :: s :: rs => s.parent = r.id ∧ Chain (s :: rs)
  | _ => True

/-- What is asked of the revisions and of git and patch. -/
structure Line (w : World) (r : Rv) (rs : List Rv) : Prop where
  chain : Chain (r :: rs)
  ids : (r.parent :: (r :: rs).map Rv.id).Nodup
  dates : (r :: rs).Pairwise fun a b => lt a.date b.date = true
  law : ∀ x ∈ r :: rs, ∀ t, Wf t → Same t (w.checkout x.parent) → Wf (w.patch x.parent x.id t) ∧ Same (w.patch x.parent x.id t) (w.checkout x.id)
  wf : Wf (w.checkout r.parent)

/-! ## Sorting -/

theorem ins_perm {α : Type} (k : α → Text) (x : α) (l : List α) : (ins k x l).Perm (x :: l) := by
  induction l with
  | nil => exact List.Perm.refl _
  | cons y ys ih =>
    unfold ins
    split
    · exact (List.Perm.cons y ih).trans (List.Perm.swap x y ys)
    · exact List.Perm.refl _

theorem sortBy_perm {α : Type} (k : α → Text) (l : List α) : (sortBy k l).Perm l := by
  induction l with
  | nil => exact List.Perm.refl _
  | cons x xs ih => exact (ins_perm k x _).trans (List.Perm.cons x ih)

theorem le_trans {a b c : Text} (h1 : lt b a = false) (h2 : lt c b = false) : lt c a = false := by
  cases h : lt c a with
  | false => rfl
  | true =>
    have := lt_mix c a b h h1
    rw [h2] at this; cases this

theorem ins_sorted {α : Type} (k : α → Text) (x : α) (l : List α) (h : l.Pairwise fun a b => lt (k b) (k a) = false) : (ins k x l).Pairwise fun a b => lt (k b) (k a) = false := by
  induction l with
  | nil => simp [ins]
  | cons y ys ih =>
    obtain ⟨h1, h2⟩ := List.pairwise_cons.mp h
    unfold ins
    split
    · rename_i hl
      refine List.pairwise_cons.mpr ⟨?_, ih h2⟩
      intro z hz
      rcases List.mem_cons.mp ((ins_perm k x ys).mem_iff.mp hz) with rfl | hz
      · exact lt_both _ _ hl
      · exact h1 z hz
    · rename_i hl
      have hl : lt (k y) (k x) = false := by simpa using hl
      refine List.pairwise_cons.mpr ⟨?_, h⟩
      intro z hz
      rcases List.mem_cons.mp hz with rfl | hz
      · exact hl
      · exact le_trans hl (h1 z hz)

theorem sortBy_sorted {α : Type} (k : α → Text) (l : List α) : (sortBy k l).Pairwise fun a b => lt (k b) (k a) = false := by
  induction l with
  | nil => exact List.Pairwise.nil
  | cons x xs ih => exact ins_sorted k x _ ih

theorem pair_eq {α : Type} (k : α → Text) : ∀ (l : List α), l.Pairwise (fun a b => lt (k a) (k b) = true) → ∀ a b, a ∈ l → b ∈ l → k a = k b → a = b := by
  intro l
  induction l with
  | nil => intro _ a b h; cases h
  | cons x xs ih =>
    intro hp a b ha hb hk
    obtain ⟨h1, h2⟩ := List.pairwise_cons.mp hp
    rcases List.mem_cons.mp ha with ha1 | ha1 <;> rcases List.mem_cons.mp hb with hb1 | hb1
    · rw [ha1, hb1]
    · have := h1 b hb1
      rw [← ha1, hk, lt_self] at this; cases this
    · have := h1 a ha1
      rw [← hb1, ← hk, lt_self] at this; cases this
    · exact ih h2 a b ha1 hb1 hk

/-- What is strictly ordered is found again, in whatever order it comes. -/
theorem sortBy_line {α : Type} (k : α → Text) (keys l : List α) (hp : keys.Perm l) (hl : l.Pairwise fun a b => lt (k a) (k b) = true) : sortBy k keys = l := by
  refine List.Perm.eq_of_pairwise (le := fun a b => lt (k b) (k a) = false) ?_ (sortBy_sorted k keys) ?_ ((sortBy_perm k keys).trans hp)
  · intro a b ha hb h1 h2
    have ha' : a ∈ l := hp.mem_iff.mp ((sortBy_perm k keys).mem_iff.mp ha)
    exact pair_eq k l hl a b ha' hb (lt_total _ _ h2 h1)
  · exact hl.imp fun h => lt_both _ _ h

/-! ## The changed files -/

theorem look_cons (e : Text × Node) (t : Tree) (p : Text) : look (e :: t) p = if e.1 = p then some e.2 else look t p := by
  unfold look
  rw [List.find?_cons]
  by_cases h : e.1 = p <;> simp [h]

theorem look_none (t : Tree) (p : Text) : look t p = none ↔ p ∉ t.map (·.1) := by
  induction t with
  | nil => simp [look]
  | cons e t ih =>
    rw [look_cons]
    by_cases h : e.1 = p
    · simp [h]
    · rw [if_neg h, ih]; simp [Ne.symm h]

theorem suffix_iff (s p : Text) : s.isSuffixOf p = true ↔ ∃ q, p = q ++ s := by
  rw [List.isSuffixOf_iff_suffix]
  exact ⟨fun ⟨q, h⟩ => ⟨q, h.symm⟩, fun ⟨q, h⟩ => ⟨q, h.symm⟩⟩

theorem leftOver_iff (p : Text) : leftOver p = true ↔ ∃ q, p = q ++ ".orig".toList ∨ p = q ++ ".rej".toList := by
  unfold leftOver
  rw [Bool.or_eq_true, suffix_iff, suffix_iff]
  constructor
  · rintro (⟨q, h⟩ | ⟨q, h⟩)
    · exact ⟨q, Or.inl h⟩
    · exact ⟨q, Or.inr h⟩
  · rintro ⟨q, h | h⟩
    · exact Or.inl ⟨q, h⟩
    · exact Or.inr ⟨q, h⟩

theorem takeWhile_append_stop {f : Char → Bool} (a : Text) (c : Char) (b : Text) (ha : ∀ x ∈ a, f x = true) (hc : f c = false) :
    (a ++ c :: b).takeWhile f = a ∧ (a ++ c :: b).dropWhile f = c :: b := by
  induction a with
  | nil => simp [hc]
  | cons x xs ih =>
    obtain ⟨h1, h2⟩ := ih fun y hy => ha y (List.mem_cons_of_mem _ hy)
    have hx := ha x (List.mem_cons_self ..)
    simp only [List.cons_append, List.takeWhile_cons, List.dropWhile_cons, hx, if_true, h1, h2, and_self]

theorem mem_takeWhile {f : Char → Bool} : ∀ (a : Text) (c : Char), c ∈ a.takeWhile f → f c = true := by
  intro a
  induction a with
  | nil => intro c h; cases h
  | cons x xs ih =>
    intro c h
    rw [List.takeWhile_cons] at h
    split at h
    · rcases List.mem_cons.mp h with h | h
      · rw [h]; assumption
      · exact ih c h
    · cases h

theorem helper_iff (p : Text) : helper p = true ↔ (∃ q, p = q ++ "-cr-edit-me".toList) ∨ ∃ q h, p = q ++ "-cr-version-".toList ++ h ∧ h ≠ [] ∧ ∀ c ∈ h, isHex c = true := by
  have hv : "-cr-version-".toList = sufVersion := by decide +kernel
  unfold helper
  simp only
  rw [Bool.or_eq_true, suffix_iff, hv]
  refine or_congr Iff.rfl ?_
  rw [Bool.and_eq_true, decide_eq_true_eq, List.isPrefixOf_iff_prefix]
  constructor
  · rintro ⟨h1, ⟨q, h2⟩⟩
    refine ⟨q.reverse, (p.reverse.takeWhile isHex).reverse, ?_, ?_, ?_⟩
    · have h3 := List.takeWhile_append_dropWhile (p := isHex) (l := p.reverse)
      rw [← h2] at h3
      have h4 := congrArg List.reverse h3
      simp only [List.reverse_append, List.reverse_reverse] at h4
      exact h4.symm
    · simpa using h1
    · intro c hc
      exact mem_takeWhile _ _ (List.mem_reverse.mp hc)
  · rintro ⟨q, h, rfl, hne, hh⟩
    have hr : (q ++ sufVersion ++ h).reverse = h.reverse ++ '-' :: (sufVersion.reverse.drop 1 ++ q.reverse) := by
      simp [sufVersion]
    obtain ⟨t1, t2⟩ := takeWhile_append_stop (f := isHex) h.reverse '-' (sufVersion.reverse.drop 1 ++ q.reverse) (fun x hx => hh x (List.mem_reverse.mp hx)) (by decide)
    rw [hr, t1, t2]
    refine ⟨by simpa using hne, q.reverse, ?_⟩
    simp [sufVersion]

theorem check_none (start : Tree) (e : Text × Node) : check start e = none ↔ (look start e.1 = some .dir ∧ ∃ c, e.2 = .file c) ∨ ((∃ c, look start e.1 = some (.file c)) ∧ e.2 = .dir) := by
  unfold check
  split <;> rename_i h1 h2 <;> simp [h1, h2]

theorem check_some (start : Tree) (e : Text × Node) (b : Bool) (h : check start e = some b) : b = true ↔ ∃ c, e.2 = .file c ∧ look start e.1 ≠ some (.file c) ∧ (look start e.1 = none → leftOver e.1 = false) := by
  unfold check at h
  split at h <;> rename_i h1 h2 <;> simp only [Option.some.injEq, reduceCtorEq] at h
  all_goals subst h
  · simp [h2]
  · rename_i a c
    simp [h1, h2]
  · simp [h2]
  · simp [h1, h2]

/-- `getChanged` dies if and only if a name has become a directory or a directory a name; otherwise it lists every file that differs, once, but for the special names. -/
theorem getChanged_spec (start last : Tree) (hw : Wf last) :
    (getChanged start last = none ↔ Clash start last) ∧
    ∀ l, getChanged start last = some l → l.Nodup ∧ ∀ p, p ∈ l ↔ Differs start last p ∧ ¬ Special (look start p = none) p := by
  have key : (changedIn start last = none ↔ Clash start last) ∧
      ∀ l, changedIn start last = some l → l.Nodup ∧ ∀ p, p ∈ l ↔ Differs start last p ∧ (look start p = none → leftOver p = false) := by
    induction last with
    | nil =>
      refine ⟨by simp [changedIn, Clash, look], ?_⟩
      intro l h
      simp only [changedIn, Option.some.injEq] at h
      subst h
      simp [Differs, look]
    | cons e es ih =>
      have hw' : e.1 ∉ es.map (·.1) ∧ Wf es := List.nodup_cons.mp hw
      obtain ⟨i1, i2⟩ := ih hw'.2
      have hno := (look_none es e.1).mpr hw'.1
      constructor
      · have hs : changedIn start (e :: es) = none ↔ check start e = none ∨ changedIn start es = none := by
          simp only [changedIn]
          cases check start e <;> cases changedIn start es <;> simp
        rw [hs, check_none, i1]
        constructor
        · rintro ((⟨h1, c, h2⟩ | ⟨⟨c, h1⟩, h2⟩) | ⟨p, c, h⟩)
          · exact ⟨e.1, c, Or.inl ⟨h1, by rw [look_cons, if_pos rfl, h2]⟩⟩
          · exact ⟨e.1, c, Or.inr ⟨h1, by rw [look_cons, if_pos rfl, h2]⟩⟩
          · have hne : e.1 ≠ p := by
              intro heq
              rw [← heq, hno] at h
              rcases h with ⟨_, h⟩ | ⟨_, h⟩ <;> cases h
            exact ⟨p, c, by rw [look_cons, if_neg hne]; exact h⟩
        · rintro ⟨p, c, h⟩
          rw [look_cons] at h
          by_cases hp : e.1 = p
          · rw [if_pos hp, ← hp] at h
            left
            rcases h with ⟨h1, h2⟩ | ⟨h1, h2⟩
            · exact Or.inl ⟨h1, c, Option.some.inj h2⟩
            · exact Or.inr ⟨⟨c, h1⟩, Option.some.inj h2⟩
          · rw [if_neg hp] at h
            exact Or.inr ⟨p, c, h⟩
      · intro l hl
        unfold changedIn at hl
        cases hc : check start e with
        | none => rw [hc] at hl; cases hl
        | some b =>
          cases hr : changedIn start es with
          | none => rw [hc, hr] at hl; cases hl
          | some m =>
            rw [hc, hr] at hl
            obtain rfl := Option.some.inj hl
            obtain ⟨j1, j2⟩ := i2 m hr
            have hb := check_some start e b hc
            have hnm : e.1 ∉ m := by
              intro hm
              obtain ⟨⟨c, h1, _⟩, _⟩ := (j2 e.1).mp hm
              rw [hno] at h1; cases h1
            have hmem : ∀ p, p ∈ (if b then e.1 :: m else m) ↔ (p = e.1 ∧ b = true) ∨ p ∈ m := by
              intro p
              cases b <;> simp
            refine ⟨?_, ?_⟩
            · cases b
              · exact j1
              · exact List.nodup_cons.mpr ⟨hnm, j1⟩
            · intro p
              rw [hmem p]
              unfold Differs
              rw [look_cons]
              by_cases hp : e.1 = p
              · subst hp
                simp only [true_and, if_true, Option.some.injEq]
                rw [hb]
                constructor
                · rintro (⟨c, h1, h2, h3⟩ | h)
                  · exact ⟨⟨c, h1, h2⟩, h3⟩
                  · exact absurd h hnm
                · rintro ⟨⟨c, h1, h2⟩, h3⟩
                  exact Or.inl ⟨c, h1, h2, h3⟩
              · rw [if_neg hp]
                have hp' : p ≠ e.1 := fun h => hp h.symm
                simp only [hp', false_and, false_or]
                exact j2 p
  have hsp : ∀ p, ¬ Special (look start p = none) p ↔ (look start p = none → leftOver p = false) ∧ helper p = false := by
    intro p
    unfold Special
    rw [← helper_iff, ← leftOver_iff, not_or, not_and]
    simp only [Bool.not_eq_true]
  constructor
  · unfold getChanged
    rw [Option.map_eq_none_iff]; exact key.1
  · intro l hl
    unfold getChanged at hl
    obtain ⟨m, h1, h2⟩ := Option.map_eq_some_iff.mp hl
    subst h2
    obtain ⟨k1, k2⟩ := key.2 m h1
    refine ⟨k1.sublist List.filter_sublist, ?_⟩
    intro p
    rw [List.mem_filter, k2 p, hsp p, and_assoc]
    refine and_congr Iff.rfl (and_congr Iff.rfl ?_)
    simp

/-! ## The ordering file -/

theorem lines_flat : ∀ (xs : List Text), (∀ x ∈ xs, '\n' ∉ x) → lines (xs.flatMap fun p => p ++ ['\n']) = xs := by
  intro xs
  induction xs with
  | nil => intro _; rfl
  | cons x xs ih =>
    intro h
    rw [List.flatMap_cons, List.append_assoc, List.singleton_append, lines_append x _ (h x (List.mem_cons_self ..)), ih fun y hy => h y (List.mem_cons_of_mem _ hy)]

/-- Names that a line can hold. -/
def Plain (p : Text) : Prop := '\n' ∉ p ∧ blank p = false

theorem order_back (c : List Text) (h : ∀ p ∈ c, Plain p) : getDiffOrder (orderText c) = sortBy key c := by
  have hm : ∀ p ∈ sortBy key c, Plain p := fun p hp => h p ((sortBy_perm key c).mem_iff.mp hp)
  unfold orderText
  cases hs : sortBy key c with
  | nil => decide +kernel
  | cons x xs =>
    rw [hs] at hm
    show (lines ((x :: xs).flatMap fun p => p ++ ['\n'])).filter _ = _
    rw [lines_flat (x :: xs) fun p hp => (hm p hp).1, List.filter_eq_self]
    intro p hp
    rw [(hm p hp).2]; rfl

/-! ## The directories -/

theorem patches_last (w : World) : ∀ (rs : List Rv) (r : Rv) (dirs : List (Text × Tree)) (t : Tree),
    ((patches w (r :: rs) dirs t).1.find? fun e => decide (e.1 = lastId r rs)).map (·.2) = some (patches w (r :: rs) dirs t).2 := by
  intro rs
  induction rs with
  | nil => intro r dirs t; simp [patches, lastId]
  | cons s rs ih =>
    intro r dirs t
    have hl : lastId r (s :: rs) = lastId s rs := rfl
    rw [hl]
    show ((patches w (s :: rs) ((r.id, w.patch r.parent r.id t) :: dirs) (w.patch r.parent r.id t)).1.find? fun e => decide (e.1 = lastId s rs)).map (·.2) = _
    exact ih s _ _

theorem patches_keep (w : World) (x : Text) : ∀ (rs : List Rv) (dirs : List (Text × Tree)) (t : Tree), x ∉ rs.map Rv.id →
    ((patches w rs dirs t).1.find? fun e => decide (e.1 = x)) = dirs.find? fun e => decide (e.1 = x) := by
  intro rs
  induction rs with
  | nil => intro dirs t _; rfl
  | cons r rs ih =>
    intro dirs t h
    simp only [List.map_cons, List.mem_cons, not_or] at h
    show ((patches w rs ((r.id, w.patch r.parent r.id t) :: dirs) (w.patch r.parent r.id t)).1.find? fun e => decide (e.1 = x)) = _
    rw [ih _ _ h.2, List.find?_cons]
    have : decide (r.id = x) = false := by simpa using fun e => h.1 e.symm
    simp only [this]

theorem patches_tree (w : World) : ∀ (rs : List Rv) (r : Rv) (dirs : List (Text × Tree)) (t : Tree), Chain (r :: rs) →
    (∀ x ∈ r :: rs, ∀ t, Wf t → Same t (w.checkout x.parent) → Wf (w.patch x.parent x.id t) ∧ Same (w.patch x.parent x.id t) (w.checkout x.id)) →
    Wf t → Same t (w.checkout r.parent) → Wf (patches w (r :: rs) dirs t).2 ∧ Same (patches w (r :: rs) dirs t).2 (w.checkout (lastId r rs)) := by
  intro rs
  induction rs with
  | nil => intro r dirs t _ hl hw hs; exact hl r (List.mem_singleton.mpr rfl) t hw hs
  | cons s rs ih =>
    intro r dirs t hc hl hw hs
    obtain ⟨h1, h2⟩ := hl r (List.mem_cons_self ..) t hw hs
    have hl' : lastId r (s :: rs) = lastId s rs := rfl
    rw [hl']
    refine ih s _ _ hc.2 (fun x hx => hl x (List.mem_cons_of_mem _ hx)) h1 ?_
    rw [hc.1]; exact h2

/-- C199: if the chosen revisions follow each other directly, with dates that grow, and nothing is left of another review, then the review compares the parent of the first with the last one, and going through it shows every file that differs, once, but for those with special names; and after `exit` the review of the same revisions goes on with the same. -/
theorem review_partial (w : World) (r : Rv) (rs : List Rv) (h : Line w r rs) (keys : List Rv) (hk : keys.Perm (r :: rs))
    (hc : ¬ Clash (w.checkout r.parent) (w.checkout (lastId r rs)))
    (hp : ∀ p, Differs (w.checkout r.parent) (w.checkout (lastId r rs)) p → Plain p ∧ p ≠ Walk.startMark ∧ p ≠ Walk.endMark) :
    ∃ b s, review w none none keys = some (b, s) ∧ Same s.start (w.checkout r.parent) ∧ Same s.last (w.checkout (lastId r rs)) ∧ s.order.Nodup ∧
      (∀ p, p ∈ s.order ↔ Differs (w.checkout r.parent) (w.checkout (lastId r rs)) p ∧ ¬ Special (look (w.checkout r.parent) p = none) p) ∧
      (∀ f cs, s.order.length + 1 < f → Walk.run s.order (fun _ => true) f (.auto :: cs) Walk.start = (s.order, .asked)) ∧
      ∀ keys' : List Rv, keys'.Perm keys → ∀ reference, review w reference (some b) keys' = some (b, s) := by
  have hsort := sortBy_line Rv.date keys (r :: rs) hk h.dates
  obtain ⟨hw, hs⟩ := patches_tree w rs r [(r.parent, w.checkout r.parent)] (w.checkout r.parent) h.chain h.law h.wf fun _ => rfl
  have hlast := patches_last w rs r [(r.parent, w.checkout r.parent)] (w.checkout r.parent)
  have hfirst := patches_keep w r.parent (r :: rs) [(r.parent, w.checkout r.parent)] (w.checkout r.parent) (List.nodup_cons.mp h.ids).1
  generalize hg : patches w (r :: rs) [(r.parent, w.checkout r.parent)] (w.checkout r.parent) = g at hw hs hlast hfirst
  obtain ⟨g1, g2⟩ := getChanged_spec (w.checkout r.parent) g.2 hw
  have hnc : ¬ Clash (w.checkout r.parent) g.2 := by
    rintro ⟨p, c, hh⟩
    rw [hs p] at hh
    exact hc ⟨p, c, hh⟩
  cases hch : getChanged (w.checkout r.parent) g.2 with
  | none => exact absurd (g1.mp hch) hnc
  | some c =>
    obtain ⟨c1, c2⟩ := g2 c hch
    have hd : ∀ p, Differs (w.checkout r.parent) g.2 p ↔ Differs (w.checkout r.parent) (w.checkout (lastId r rs)) p := by
      intro p; unfold Differs; rw [hs p]
    have hplain : ∀ p ∈ c, Plain p ∧ p ≠ Walk.startMark ∧ p ≠ Walk.endMark := fun p hpc => hp p ((hd p).mp ((c2 p).mp hpc).1)
    have hback := order_back c fun p hpc => (hplain p hpc).1
    have hmem : ∀ p, p ∈ sortBy key c ↔ p ∈ c := fun p => (sortBy_perm key c).mem_iff
    have hnd : (sortBy key c).Nodup := (sortBy_perm key c).nodup_iff.mpr c1
    refine ⟨{ dirs := g.1, order := orderText c }, { start := w.checkout r.parent, last := g.2, order := getDiffOrder (orderText c) }, ?_, fun _ => rfl, hs, ?_, ?_, ?_, ?_⟩
    · unfold review
      rw [hsort]
      simp only [resume]
      unfold build
      simp only [hg, hch, Option.map_some]
    · rw [hback]; exact hnd
    · intro p
      show p ∈ getDiffOrder (orderText c) ↔ _
      rw [hback, hmem, c2 p, hd p]
    · intro f cs hf
      simp only [hback] at hf ⊢
      exact Walk.walk_auto _ hnd (fun hm => (hplain _ ((hmem _).mp hm)).2.1 rfl) (fun hm => (hplain _ ((hmem _).mp hm)).2.2 rfl) _ (fun _ _ => rfl) f hf cs
    · intro keys' hk' reference
      unfold review
      rw [sortBy_line Rv.date keys' (r :: rs) (hk'.trans hk) h.dates]
      simp only [resume, dirOf, hlast, hfirst]
      simp

/-! ## Examples -/

/-- Put a file into a directory unless it is there. -/
def put (p c : Text) (t : Tree) : Tree := if look t p = none then t ++ [(p, .file c)] else t

/-- Three revisions on top of `0`; each adds a file: `a`, `b` and `c`. -/
def toy : World where
  checkout id := if id = ['1'] then [(['a'], .file [])] else if id = ['2'] then [(['a'], .file []), (['b'], .file [])] else if id = ['3'] then [(['a'], .file []), (['b'], .file []), (['c'], .file [])] else []
  patch _ dst t := if dst = ['1'] then put ['a'] [] t else if dst = ['2'] then put ['b'] [] t else if dst = ['3'] then put ['c'] [] t else t

def r1 (d : Text) : Rv := { id := ['1'], parent := ['0'], date := d }
def r2 (d : Text) : Rv := { id := ['2'], parent := ['1'], date := d }
def r3 (d : Text) : Rv := { id := ['3'], parent := ['2'], date := d }

theorem put_wf (p c : Text) (t : Tree) (h : Wf t) : Wf (put p c t) := by
  unfold put
  split
  · rename_i hn
    unfold Wf
    rw [List.map_append]
    have := (look_none t p).mp hn
    simp only [List.map_cons, List.map_nil]
    exact List.nodup_append.mpr ⟨h, by simp, by intro a ha b hb; rw [List.mem_singleton.mp hb]; intro e; exact this (e ▸ ha)⟩
  · exact h

theorem look_append (t u : Tree) (q : Text) : look (t ++ u) q = (look t q).or (look u q) := by
  induction t with
  | nil => simp [look]
  | cons e t ih =>
    rw [List.cons_append, look_cons, look_cons, ih]
    split <;> simp

theorem put_same (p c : Text) (t u : Tree) (h : Same t u) : Same (put p c t) (put p c u) := by
  intro q
  unfold put
  rw [← h p]
  split
  · rw [look_append, look_append, h q]
  · exact h q

/-- The hypotheses are met, with the revisions given in another order. -/
theorem toy_line : Line toy (r1 ['1']) [r2 ['2'], r3 ['3']] where
  chain := ⟨rfl, rfl, trivial⟩
  ids := by decide
  dates := by decide
  law := by
    intro x hx t hw hs
    simp only [List.mem_cons, List.not_mem_nil, or_false] at hx
    rcases hx with rfl | rfl | rfl
    · exact ⟨put_wf _ _ _ hw, put_same _ _ _ _ hs⟩
    · exact ⟨put_wf _ _ _ hw, put_same _ _ _ _ hs⟩
    · exact ⟨put_wf _ _ _ hw, put_same _ _ _ _ hs⟩
  wf := by unfold Wf; decide

example : ∃ b s, review toy none none [r3 ['3'], r1 ['1'], r2 ['2']] = some (b, s) ∧ s.order = [['a'], ['b'], ['c']] :=
  ⟨_, _, rfl, by decide +kernel⟩

example : [r3 ['3'], r1 ['1'], r2 ['2']].Perm (r1 ['1'] :: [r2 ['2'], r3 ['3']]) := by decide

/-! ## Where the code differs -/

/-- C199, false of the code: two revisions made in the same second are sorted as perl's hash happens to have them; then the first one's file is not shown. -/
theorem review_dates_false : ∃ (w : World) (r s : Rv) (p : Text), s.parent = r.id ∧ r.date = s.date ∧ Differs (w.checkout r.parent) (w.checkout s.id) p ∧ ¬ Special True p ∧
    ∃ b x, review w none none [s, r] = some (b, x) ∧ p ∉ x.order := by
  refine ⟨toy, r1 ['1'], r2 ['1'], ['a'], rfl, rfl, ⟨[], by decide, by decide⟩, ?_, _, _, rfl, by decide +kernel⟩
  have h1 : leftOver ['a'] = false := by decide
  have h2 : helper ['a'] = false := by decide
  unfold Special
  rw [← leftOver_iff, ← helper_iff]
  simp [h1, h2]

/-- C199, false of the code: after a review of the first and the third revision that was left with `exit`, a review of all three goes on with the directories of the first one: what the second revision changed is not shown, though it is marked as reviewed with the others. -/
theorem review_skip_false : ∃ (w : World) (a b c : Rv) (p : Text), Line w a [b, c] ∧ Differs (w.checkout a.parent) (w.checkout c.id) p ∧
    ∃ old s, review w none none [a, c] = some (old, s) ∧ ∃ b' s', review w none (some old) [a, b, c] = some (b', s') ∧ p ∉ s'.order :=
  ⟨toy, r1 ['1'], r2 ['2'], r3 ['3'], ['b'], toy_line, ⟨[], by decide, by decide⟩, _, _, rfl, _, _, rfl, by decide +kernel⟩

/-- Removes the file `a`. -/
def drop : World where
  checkout id := if id = ['0'] then [(['a'], .file [])] else []
  patch _ _ t := t.filter fun e => decide (e.1 ≠ ['a'])

/-- C199, false of the code: a file that a revision removes is not shown (there is a warning). -/
theorem review_removed_false : ∃ (w : World) (r : Rv) (p : Text), look (w.checkout r.parent) p ≠ none ∧ look (w.checkout r.id) p = none ∧
    ∃ b s, review w none none [r] = some (b, s) ∧ Same s.last (w.checkout r.id) ∧ p ∉ s.order :=
  ⟨drop, r1 [], ['a'], by decide, by decide, _, _, rfl, fun _ => rfl, by decide +kernel⟩

end Verif.DepVC.Sequence
