import Verif.DepVC.Checkout

/-! # C232: deptool checkout selects the branch that was meant -/

namespace Verif.DepVC.Checkout

open Verif.Deptool.Deps (Text isWord)

/-! ## Specification -/

/-- An argument begins at a component of a name. -/
def slashed : Text → Text
  | '/' :: r => '/' :: r
  | re => '/' :: re

/-- The names that an argument can mean: they contain it; and if some of them are of git, only those. -/
def Cand (l : Listing) (re n : Text) : Prop :=
  n ∈ l.names ∧ slashed re <:+: n ∧ ((∃ i, l.info n = some i ∧ i.vc = .git) ∨ ¬ ∃ m i, m ∈ l.names ∧ slashed re <:+: m ∧ l.info m = some i ∧ i.vc = .git)

/-- What `git branch` prints in a repository with branches `names`, `cur` checked out. -/
def printed (cur : Text) (names : List Text) : List Text := names.map fun n => if n = cur then '*' :: ' ' :: n else ' ' :: ' ' :: n

/-- A name of a branch as git allows. -/
def GoodName (n : Text) : Prop := n ≠ [] ∧ ∀ c ∈ n, isSpace c = false

/-- One repository is not inside another one. -/
def Apart (p q : Text) : Prop := p ≠ q ∧ (¬ ∃ t, p = q ++ '/' :: t) ∧ ¬ ∃ t, q = p ++ '/' :: t

/-- A repository: where it is below the directory for all, its branches and the one that is checked out. -/
structure Repo where
  path : Text
  cur : Text
  names : List Text

/-- Has a repository this branch? The empty one stands for master. -/
def Repo.Has (r : Repo) (sub : Text) : Prop := sub ∈ r.names ∨ (sub = [] ∧ "master".toList ∈ r.names)

/-! ## Selecting -/

theorem dotPrefix_iff : ∀ (p t : Text), '.' ∉ p → (dotPrefix p t = true ↔ p <+: t)
  | [], t, _ => by simp [dotPrefix]
  | a :: p, [], _ => by simp [dotPrefix]
  | a :: p, c :: t, h => by
    have ha : a ≠ '.' := fun e => h (by simp [e])
    have ih := dotPrefix_iff p t (fun e => h (List.mem_cons_of_mem _ e))
    simp only [dotPrefix, Bool.and_eq_true, Bool.or_eq_true, beq_iff_eq, ha, or_false, ih, List.cons_prefix_cons]

theorem dotInfix_iff (p : Text) (h : '.' ∉ p) : ∀ t : Text, dotInfix p t = true ↔ p <:+: t
  | [] => by simp only [dotInfix, dotPrefix_iff p [] h, List.prefix_nil, List.infix_nil]
  | c :: t => by
    simp only [dotInfix, Bool.or_eq_true, dotPrefix_iff p _ h, dotInfix_iff p h t, List.infix_cons_iff]

theorem stripOption_id : ∀ t : Text, ';' ∉ t → stripOption t = t
  | [], _ => rfl
  | c :: t, h => by
    rw [stripOption, if_neg (fun e => h (by simp [e.1])), stripOption_id t (fun e => h (List.mem_cons_of_mem _ e))]

theorem pattern_eq (re : Text) (h : ';' ∉ re) : pattern re = slashed re := by
  unfold pattern
  rw [stripOption_id re h]
  cases re with
  | nil => rfl
  | cons c r =>
    by_cases hc : c = '/'
    · subst hc; rfl
    · simp [slashed, hc]

theorem isGit_iff (l : Listing) (n : Text) : isGit l n = true ↔ ∃ i, l.info n = some i ∧ i.vc = .git := by
  unfold isGit
  rw [decide_eq_true_eq, Option.map_eq_some_iff]

theorem slashed_dot {re : Text} (h : '.' ∉ re) : '.' ∉ slashed re := by
  cases re with
  | nil => simp [slashed]
  | cons c r =>
    by_cases hc : c = '/'
    · subst hc; simpa [slashed] using h
    · have e : slashed (c :: r) = '/' :: c :: r := by simp [slashed, hc]
      rw [e]; simpa using h

theorem mem_insertLen (x n : Text) : ∀ l, n ∈ insertLen x l ↔ n = x ∨ n ∈ l
  | [] => by simp [insertLen]
  | y :: l => by
    rw [insertLen]
    split
    · simp
    · rw [List.mem_cons, mem_insertLen x n l, List.mem_cons]
      constructor
      · rintro (h | h | h)
        · exact Or.inr (Or.inl h)
        · exact Or.inl h
        · exact Or.inr (Or.inr h)
      · rintro (h | h | h)
        · exact Or.inr (Or.inl h)
        · exact Or.inl h
        · exact Or.inr (Or.inr h)

theorem mem_sortLen (n : Text) : ∀ l, n ∈ sortLen l ↔ n ∈ l
  | [] => by simp [sortLen]
  | x :: l => by rw [sortLen, mem_insertLen, mem_sortLen n l, List.mem_cons]

theorem insertLen_sorted (x : Text) : ∀ l : List Text, (l.Pairwise fun a b => a.length ≤ b.length) → (insertLen x l).Pairwise fun a b => a.length ≤ b.length
  | [], _ => by simp [insertLen]
  | y :: l, h => by
    obtain ⟨h1, h2⟩ := List.pairwise_cons.1 h
    rw [insertLen]
    split
    · rename_i hxy
      refine List.pairwise_cons.2 ⟨fun z hz => ?_, h⟩
      rcases List.mem_cons.1 hz with rfl | hz
      · exact hxy
      · exact Nat.le_trans hxy (h1 z hz)
    · rename_i hxy
      refine List.pairwise_cons.2 ⟨fun z hz => ?_, insertLen_sorted x l h2⟩
      rcases (mem_insertLen x z l).1 hz with rfl | hz
      · omega
      · exact h1 z hz

theorem sortLen_sorted : ∀ l : List Text, (sortLen l).Pairwise fun a b => a.length ≤ b.length
  | [] => List.Pairwise.nil
  | x :: l => insertLen_sorted x _ (sortLen_sorted l)

theorem mem_possibles (l : Listing) (re : Text) (h1 : ';' ∉ re) (h2 : '.' ∉ re) (n : Text) : n ∈ possibles l re ↔ Cand l re n := by
  have hm : ∀ m, m ∈ sortLen (l.names.filter (dotInfix (pattern re))) ↔ m ∈ l.names ∧ slashed re <:+: m := by
    intro m
    rw [mem_sortLen, List.mem_filter, pattern_eq re h1, dotInfix_iff _ (slashed_dot h2)]
  unfold possibles Cand
  simp only []
  split
  · rename_i hg
    rw [List.any_eq_true] at hg
    obtain ⟨m, hm1, hm2⟩ := hg
    rw [List.mem_filter, hm, isGit_iff]
    obtain ⟨i, hi1, hi2⟩ := (isGit_iff l m).1 hm2
    have hm3 := (hm m).1 hm1
    constructor
    · rintro ⟨⟨a, b⟩, c⟩; exact ⟨a, b, Or.inl c⟩
    · rintro ⟨a, b, c | c⟩
      · exact ⟨⟨a, b⟩, c⟩
      · exact (c ⟨m, i, hm3.1, hm3.2, hi1, hi2⟩).elim
  · rename_i hg
    rw [hm]
    constructor
    · rintro ⟨a, b⟩
      refine ⟨a, b, Or.inr ?_⟩
      rintro ⟨m, i, c1, c2, c3, c4⟩
      refine hg (List.any_eq_true.2 ⟨m, (hm m).2 ⟨c1, c2⟩, (isGit_iff l m).2 ⟨i, c3, c4⟩⟩)
    · rintro ⟨a, b, _⟩; exact ⟨a, b⟩

theorem possibles_sorted (l : Listing) (re : Text) : (possibles l re).Pairwise fun a b => a.length ≤ b.length := by
  have h := sortLen_sorted (l.names.filter (dotInfix (pattern re)))
  unfold possibles
  simp only []
  split
  · exact h.sublist List.filter_sublist
  · exact h

/-- C232: among the names an argument can mean, the one selected is that with which all of them begin; without such a name checkout dies.  Names and argument without dots. -/
theorem select_iff_partial (l : Listing) (re : Text) (h1 : ';' ∉ re) (h2 : '.' ∉ re) (h3 : ∀ n ∈ l.names, '.' ∉ n) (b : Text) :
    select l re = some b ↔ Cand l re b ∧ ∀ c, Cand l re c → b <+: c := by
  have hm := mem_possibles l re h1 h2
  have hs := possibles_sorted l re
  unfold select
  cases hp : possibles l re with
  | nil =>
    rw [hp] at hm
    simp only [List.not_mem_nil, false_iff] at hm
    simp [hm b]
  | cons a r =>
    rw [hp] at hm hs
    have ha : Cand l re a := (hm a).1 (List.mem_cons_self ..)
    have hda := h3 a ha.1
    have hall : (r.all (dotPrefix a) = true) ↔ ∀ c, Cand l re c → a <+: c := by
      rw [List.all_eq_true]
      constructor
      · intro h c hc
        rcases List.mem_cons.1 ((hm c).2 hc) with rfl | hc
        · exact List.prefix_rfl
        · exact (dotPrefix_iff a c hda).1 (h c hc)
      · intro h c hc
        exact (dotPrefix_iff a c hda).2 (h c ((hm c).1 (List.mem_cons_of_mem _ hc)))
    simp only []
    constructor
    · intro h
      split at h
      · rename_i hr
        obtain rfl := Option.some.inj h
        exact ⟨ha, hall.1 hr⟩
      · cases h
    · rintro ⟨hb, hb2⟩
      have hab : b <+: a := hb2 a ha
      have hle : a.length ≤ b.length := by
        rcases List.mem_cons.1 ((hm b).2 hb) with rfl | hb
        · exact Nat.le_refl _
        · exact (List.pairwise_cons.1 hs).1 b hb
      have : b = a := List.IsPrefix.eq_of_length_le hab hle
      subst this
      rw [if_pos (hall.2 hb2)]

/-- C232: what is after a semicolon, the type of build of a dependency, does not matter. -/
theorem select_type (l : Listing) (re w : Text) (h : ';' ∉ re) (hw : w ≠ []) (hw2 : ∀ c ∈ w, isWord c = true) : select l (re ++ ';' :: w) = select l re := by
  have hs : ∀ t : Text, ';' ∉ t → stripOption (t ++ ';' :: w) = t := by
    intro t
    induction t with
    | nil =>
      intro _
      cases w with
      | nil => exact absurd rfl hw
      | cons c w =>
        have hd : (c :: w).dropWhile isWord = [] := by
          have : ∀ v : Text, (∀ c ∈ v, isWord c = true) → v.dropWhile isWord = [] := by
            intro v
            induction v with
            | nil => intro _; rfl
            | cons a v ih => intro h; rw [List.dropWhile_cons, if_pos (h a (List.mem_cons_self ..))]; exact ih fun c hc => h c (List.mem_cons_of_mem _ hc)
          exact this _ hw2
        rw [List.nil_append, stripOption, if_pos ⟨rfl, by simpa using hw2 c (List.mem_cons_self ..)⟩, hd]
    | cons c t ih =>
      intro ht
      rw [List.cons_append, stripOption, if_neg (fun e => ht (by simp [e.1])), ih (fun e => ht (List.mem_cons_of_mem _ e))]
  have hp : pattern (re ++ ';' :: w) = pattern re := by
    unfold pattern
    rw [hs re h, stripOption_id re h]
  unfold select possibles
  rw [hp]

/-! ## Listing -/

theorem branchLine_printed (cur n : Text) (hn : GoodName n) : branchLine (if n = cur then '*' :: ' ' :: n else ' ' :: ' ' :: n) = some n := by
  obtain ⟨h1, h2⟩ := hn
  have hd : (' ' :: n).dropWhile (· == ' ') = n ∧ (' ' :: ' ' :: n).dropWhile (· == ' ') = n := by
    have : n.dropWhile (· == ' ') = n := by
      cases n with
      | nil => rfl
      | cons c n =>
        have : c ≠ ' ' := by
          intro e
          have := h2 c (List.mem_cons_self ..)
          rw [e] at this
          exact absurd this (by decide)
        rw [List.dropWhile_cons, if_neg (by simpa using this)]
    refine ⟨?_, ?_⟩
    · rw [List.dropWhile_cons, if_pos (by decide)]; exact this
    · rw [List.dropWhile_cons, if_pos (by decide), List.dropWhile_cons, if_pos (by decide)]; exact this
  have ha : n.all (fun c => !isSpace c) = true := by
    rw [List.all_eq_true]
    intro c hc
    rw [h2 c hc]; rfl
  split
  · show (let n' := (' ' :: n).dropWhile (· == ' '); if (' ' :: n).head? = some ' ' ∧ n' ≠ [] ∧ n'.all (fun c => !isSpace c) = true then some n' else none) = some n
    simp only [hd.1, List.head?_cons, ne_eq, h1, not_false_eq_true, ha, and_self, if_true]
  · show (let n' := (' ' :: ' ' :: n).dropWhile (· == ' '); if (' ' :: ' ' :: n).head? = some ' ' ∧ n' ≠ [] ∧ n'.all (fun c => !isSpace c) = true then some n' else none) = some n
    simp only [hd.2, List.head?_cons, ne_eq, h1, not_false_eq_true, ha, and_self, if_true]

theorem subBranches_printed (cur : Text) : ∀ names : List Text, (∀ n ∈ names, GoodName n) → names.Nodup →
    ∃ s, subBranches (printed cur names) = some s ∧ s.Nodup ∧ ∀ x, x ∈ s ↔ x ∈ names ∨ (x = [] ∧ "master".toList ∈ names)
  | [], _, _ => ⟨[], rfl, List.nodup_nil, by simp⟩
  | n :: names, hg, hd => by
    obtain ⟨hn, hd⟩ := List.nodup_cons.1 hd
    obtain ⟨s, e, hs, hm⟩ := subBranches_printed cur names (fun m hm => hg m (List.mem_cons_of_mem _ hm)) hd
    have hgn := hg n (List.mem_cons_self ..)
    have hne : ∀ m ∈ names, m ≠ [] := fun m hm => (hg m (List.mem_cons_of_mem _ hm)).1
    refine ⟨n :: (if n = "master".toList then [[]] else []) ++ s, ?_, ?_, ?_⟩
    · simp only [printed, List.map_cons, subBranches]
      rw [branchLine_printed cur n hgn]
      unfold printed at e
      rw [e]
    · have hns : n ∉ s := by
        rw [hm]
        rintro (h | ⟨h, _⟩)
        · exact hn h
        · exact hgn.1 h
      split
      · rename_i hmas
        have h0 : ([] : Text) ∉ s := by
          rw [hm]
          rintro (h | ⟨_, h⟩)
          · exact hne [] h rfl
          · rw [← hmas] at h; exact hn h
        simp only [List.cons_append, List.nil_append, List.nodup_cons, List.mem_cons, not_or]
        exact ⟨⟨hgn.1, hns⟩, h0, hs⟩
      · simp only [List.append_nil, List.cons_append, List.nil_append, List.nodup_cons]
        exact ⟨hns, hs⟩
    · intro x
      by_cases hmas : n = "master".toList
      · rw [if_pos hmas]
        simp only [List.cons_append, List.nil_append, List.mem_cons, hm]
        constructor
        · rintro (h | h | h | ⟨h, h'⟩)
          · exact Or.inl (Or.inl h)
          · exact Or.inr ⟨h, Or.inl hmas.symm⟩
          · exact Or.inl (Or.inr h)
          · exact Or.inr ⟨h, Or.inr h'⟩
        · rintro ((h | h) | ⟨h, _⟩)
          · exact Or.inl h
          · exact Or.inr (Or.inr (Or.inl h))
          · exact Or.inr (Or.inl h)
      · rw [if_neg hmas]
        simp only [List.nil_append, List.cons_append, List.mem_cons, hm]
        constructor
        · rintro (h | h | ⟨h, h'⟩)
          · exact Or.inl (Or.inl h)
          · exact Or.inl (Or.inr h)
          · exact Or.inr ⟨h, Or.inr h'⟩
        · rintro ((h | h) | ⟨h, h' | h'⟩)
          · exact Or.inl h
          · exact Or.inr (Or.inl h)
          · exact absurd h'.symm hmas
          · exact Or.inr (Or.inr ⟨h, h'⟩)

theorem info_cons (l : Listing) (names : List Text) (n m : Text) (i : Info) :
    (Listing.info { names := names, infos := (n, i) :: l.infos } m) = if n = m then some i else l.info m := by
  unfold Listing.info
  rw [List.find?_cons]
  by_cases h : n = m
  · simp [h]
  · simp [h]

theorem addSubs_ok (dir p : Text) : ∀ (s : List Text) (l : Listing), s.Nodup → (∀ x ∈ s, l.info (branchName p x) = none) → (∀ x y, branchName p x = branchName p y → x = y) →
    ∃ l', addSubs dir p s l = some l' ∧ (∀ x ∈ s, l'.info (branchName p x) = some ⟨.git, dir, p, x⟩) ∧ (∀ n, (∀ x ∈ s, n ≠ branchName p x) → l'.info n = l.info n) ∧
      l'.names = l.names ++ s.map (branchName p)
  | [], l, _, _, _ => ⟨l, rfl, by simp, fun _ _ => rfl, by simp⟩
  | x :: s, l, hd, hf, hi => by
    obtain ⟨hx, hd⟩ := List.nodup_cons.1 hd
    have h1 : addSub l dir p x = some { names := l.names ++ [branchName p x], infos := (branchName p x, ⟨.git, dir, p, x⟩) :: l.infos } := by
      unfold addSub
      rw [hf x (List.mem_cons_self ..)]
      rfl
    obtain ⟨l', e, g1, g2, g3⟩ := addSubs_ok dir p s { names := l.names ++ [branchName p x], infos := (branchName p x, ⟨.git, dir, p, x⟩) :: l.infos } hd (by
      intro y hy
      rw [info_cons, if_neg (fun h => hx (by rw [hi _ _ h]; exact hy))]
      exact hf y (List.mem_cons_of_mem _ hy)) hi
    refine ⟨l', by rw [addSubs, h1]; exact e, ?_, ?_, ?_⟩
    · intro y hy
      rcases List.mem_cons.1 hy with rfl | hy
      · rw [g2 _ (fun z hz h => hx (by rw [hi _ _ h]; exact hz)), info_cons, if_pos rfl]
      · exact g1 y hy
    · intro n hn
      rw [g2 n (fun y hy => hn y (List.mem_cons_of_mem _ hy)), info_cons, if_neg (fun h => hn x (List.mem_cons_self ..) h.symm)]
    · rw [g3]; simp

theorem branchName_inj (p : Text) {x y : Text} (h : branchName p x = branchName p y) : x = y := by
  unfold branchName at h
  split at h <;> split at h
  · simp_all
  · have := congrArg List.length h; simp at this
  · have := congrArg List.length h; simp at this
  · have := List.append_cancel_left h
    simpa using this

theorem branchName_apart {p q x y : Text} (h : Apart p q) : branchName p x ≠ branchName q y := by
  obtain ⟨h1, h2, h3⟩ := h
  unfold branchName
  split <;> split
  · exact h1
  · exact fun e => h2 ⟨_, e⟩
  · exact fun e => h3 ⟨_, e.symm⟩
  · intro e
    rcases List.append_eq_append_iff.1 e with ⟨a, ha, hb⟩ | ⟨a, ha, hb⟩
    · cases a with
      | nil => rw [List.append_nil] at ha; exact h1 ha.symm
      | cons c a =>
        rw [List.cons_append, List.cons.injEq] at hb
        rw [← hb.1] at ha
        exact h3 ⟨a, ha⟩
    · cases a with
      | nil => rw [List.append_nil] at ha; exact h1 ha
      | cons c a =>
        rw [List.cons_append, List.cons.injEq] at hb
        rw [← hb.1] at ha
        exact h2 ⟨a, ha⟩

/-- C232: with repositories that are not inside each other and whose branches git lists, no name is taken twice: each branch of each repository gets a name of its own, under which it is found, master also under the name of the repository, and nothing that was known before changes. -/
theorem git_listing (root : Text) : ∀ (rs : List Repo) (l : Listing), (∀ r ∈ rs, r.names.Nodup ∧ ∀ n ∈ r.names, GoodName n) → rs.Pairwise (fun r s => Apart r.path s.path) →
    (∀ r ∈ rs, ∀ x, l.info (branchName r.path x) = none) →
    ∃ l', addGits root (rs.map fun r => (r.path, some (printed r.cur r.names))) l = some l' ∧
      (∀ r ∈ rs, ∀ sub, r.Has sub → branchName r.path sub ∈ l'.names ∧ l'.info (branchName r.path sub) = some ⟨.git, root ++ r.path, r.path, sub⟩) ∧
      (∀ n, n ∈ l'.names ↔ n ∈ l.names ∨ ∃ r ∈ rs, ∃ sub, r.Has sub ∧ n = branchName r.path sub) ∧
      (∀ n, (∀ r ∈ rs, ∀ sub, n ≠ branchName r.path sub) → l'.info n = l.info n)
  | [], l, _, _, _ => ⟨l, rfl, by simp, by simp, fun _ _ => rfl⟩
  | r :: rs, l, hg, ha, hn => by
    obtain ⟨ha1, ha2⟩ := List.pairwise_cons.1 ha
    obtain ⟨hg1, hg2⟩ := hg r (List.mem_cons_self ..)
    obtain ⟨s, e1, s1, s2⟩ := subBranches_printed r.cur r.names hg2 hg1
    obtain ⟨l1, e2, g1, g2, g3⟩ := addSubs_ok (root ++ r.path) r.path s l s1 (fun x _ => hn r (List.mem_cons_self ..) x) (fun x y => branchName_inj r.path)
    obtain ⟨l', e3, k1, k2, k3⟩ := git_listing root rs l1 (fun q hq => hg q (List.mem_cons_of_mem _ hq)) ha2 (by
      intro q hq x
      rw [g2 _ (fun y _ h => branchName_apart (ha1 q hq) h.symm)]
      exact hn q (List.mem_cons_of_mem _ hq) x)
    have hap : ∀ q ∈ rs, ∀ x y, branchName r.path x ≠ branchName q.path y := fun q hq x y => branchName_apart (ha1 q hq)
    refine ⟨l', ?_, ?_, ?_, ?_⟩
    · rw [List.map_cons, addGits]
      unfold addGit
      simp only [e1, Option.bind_some, e2]
      exact e3
    · intro q hq sub hsub
      rcases List.mem_cons.1 hq with rfl | hq
      · have hin : sub ∈ s := (s2 sub).2 hsub
        refine ⟨(k2 _).2 (Or.inl ?_), ?_⟩
        · rw [g3]; exact List.mem_append_right _ (List.mem_map_of_mem hin)
        · rw [k3 _ (fun q hq y => hap q hq sub y)]
          exact g1 sub hin
      · exact k1 q hq sub hsub
    · intro n
      rw [k2, g3]
      simp only [List.mem_append, List.mem_map, List.mem_cons]
      constructor
      · rintro ((h | ⟨x, hx, rfl⟩) | ⟨q, hq, sub, h1, h2⟩)
        · exact Or.inl h
        · exact Or.inr ⟨r, Or.inl rfl, x, (s2 x).1 hx, rfl⟩
        · exact Or.inr ⟨q, Or.inr hq, sub, h1, h2⟩
      · rintro (h | ⟨q, rfl | hq, sub, h1, h2⟩)
        · exact Or.inl (Or.inl h)
        · exact Or.inl (Or.inr ⟨sub, (s2 sub).2 h1, h2.symm⟩)
        · exact Or.inr ⟨q, hq, sub, h1, h2⟩
    · intro n hnn
      rw [k3 n (fun q hq => hnn q (List.mem_cons_of_mem _ hq)), g2 n (fun x _ => hnn r (List.mem_cons_self ..) x)]

/-! ## The branches of monotone -/

theorem addMtn_info_in (l : Listing) (db n : Text) (bs : List Text) (h : n ∈ bs) : (addMtn l db bs).info n = some ⟨.mtn, db, [], []⟩ := by
  have key : ∀ (cs : List Text) (r : List (Text × Info)), n ∈ cs → (((cs.map fun b => (b, (⟨.mtn, db, [], []⟩ : Info))).append r).find? fun e => decide (e.1 = n)).map (·.2) = some ⟨.mtn, db, [], []⟩ := by
    intro cs r
    induction cs with
    | nil => intro h; cases h
    | cons c cs ih =>
      intro hc
      by_cases e : c = n
      · simp [e]
      · have := ih ((List.mem_cons.1 hc).resolve_left (fun h => e h.symm))
        simpa [e] using this
  have := key bs.reverse l.infos (List.mem_reverse.2 h)
  simpa [Listing.info, addMtn, List.map_reverse] using this

theorem addMtn_info_out (l : Listing) (db n : Text) (bs : List Text) (h : n ∉ bs) : (addMtn l db bs).info n = l.info n := by
  have key : ∀ (cs : List Text) (r : List (Text × Info)), n ∉ cs → ((cs.map fun b => (b, (⟨.mtn, db, [], []⟩ : Info))) ++ r).find? (fun e => decide (e.1 = n)) = r.find? fun e => decide (e.1 = n) := by
    intro cs r
    induction cs with
    | nil => intro _; rfl
    | cons c cs ih =>
      intro hc
      have e : ¬ c = n := fun e => hc (by simp [e])
      have := ih (fun h => hc (List.mem_cons_of_mem _ h))
      simpa [e] using this
  have := key bs.reverse l.infos (fun h' => h (List.mem_reverse.1 h'))
  show Option.map _ _ = Option.map _ _
  rw [addMtn, ← List.map_reverse, this]

/-- C232: each branch in each database of monotone is listed, and nothing else; a branch in several databases is taken from the last of them. -/
theorem mtn_listing : ∀ (dbs : List (Text × List Text)) (l : Listing),
    (∀ n, n ∈ (addMtns l dbs).names ↔ n ∈ l.names ∨ ∃ e ∈ dbs, n ∈ e.2) ∧
    (∀ before after db bs n, dbs = before ++ (db, bs) :: after → n ∈ bs → (∀ e ∈ after, n ∉ e.2) → (addMtns l dbs).info n = some ⟨.mtn, db, [], []⟩) ∧
    (∀ n, (∀ e ∈ dbs, n ∉ e.2) → (addMtns l dbs).info n = l.info n)
  | [], l => ⟨fun n => by simp [addMtns], fun before after db bs n h => by simp at h, fun n _ => rfl⟩
  | (db, bs) :: r, l => by
    obtain ⟨h1, h2, h3⟩ := mtn_listing r (addMtn l db bs)
    refine ⟨?_, ?_, ?_⟩
    · intro n
      show n ∈ (addMtns (addMtn l db bs) r).names ↔ _
      rw [h1 n]
      simp [addMtn, or_assoc]
    · intro before after db' bs' n he hn ha
      show (addMtns (addMtn l db bs) r).info n = _
      cases before with
      | nil =>
        obtain ⟨e1, e2⟩ := List.cons.inj he
        obtain ⟨rfl, rfl⟩ := Prod.mk.inj e1
        subst e2
        rw [h3 n ha]
        exact addMtn_info_in l db n bs hn
      | cons x before =>
        exact h2 before after db' bs' n (List.cons.inj he).2 hn ha
    · intro n hn
      show (addMtns (addMtn l db bs) r).info n = _
      rw [h3 n (fun e he => hn e (List.mem_cons_of_mem _ he))]
      exact addMtn_info_out l db n bs (hn _ (List.mem_cons_self ..))

/-! ## What does not hold -/

/-- Dots in names stand for any character: the shorter branch is selected although the longer one is not a branch below it. -/
theorem select_dot_false : select (addMtn ⟨[], []⟩ ['d'] [['a', '.', 'b', '/', 'x'], ['a', 'c', 'b', '/', 'x', 'y']]) ['x'] = some ['a', '.', 'b', '/', 'x'] ∧
    ¬ (['a', '.', 'b', '/', 'x'] <+: ['a', 'c', 'b', '/', 'x', 'y']) := by
  decide

/-- A repository without master is not found by its name if it has two branches. -/
theorem select_nomaster_false : ∃ l, addGits ['g'] [(['/', 'r'], some [[' ', ' ', 'd'], ['*', ' ', 'm']])] ⟨[], []⟩ = some l ∧ select l ['r'] = none ∧ select l ['r', '/', 'm'] = some ['/', 'r', '/', 'm'] :=
  ⟨_, rfl, by decide, by decide⟩

/-- A repository in which a commit is checked out instead of a branch makes every checkout die. -/
theorem listing_detached_false : addGits ['g'] [(['/', 'r'], some [['*', ' ', '(', 'H', 'E', 'A', 'D', ' ', 'd', ')'], [' ', ' ', 'm']])] ⟨[], []⟩ = none := by decide

/-! ## The hypotheses can be met -/

example : let l := addMtn ⟨[], []⟩ ['d'] [['u', '/', 'L', 'i'], ['u', '/', 'L', 'i', '/', 't']]
    (∀ n ∈ l.names, '.' ∉ n) ∧ select l ['L'] = some ['u', '/', 'L', 'i'] ∧ select l ['L', 'i', '/', 't'] = some ['u', '/', 'L', 'i', '/', 't'] := by decide

example : Apart ['/', 'a'] ['/', 'a', 'b'] ∧ GoodName ['m'] ∧ (⟨['/', 'a'], ['m'], [['m'], ['n']]⟩ : Repo).names.Nodup := by
  refine ⟨⟨by decide, ?_, ?_⟩, ⟨by decide, by decide⟩, by decide⟩
  · rintro ⟨t, h⟩; have := congrArg List.length h; simp at this
  · rintro ⟨t, h⟩; simp at h

end Verif.DepVC.Checkout
