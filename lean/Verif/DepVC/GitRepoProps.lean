import Verif.DepVC.GitRepo

/-! # Properties of deptool init for git (C228) -/

namespace Verif.DepVC.GitRepo

open Verif.Deptool.Deps (Text isWord)

/-! ## Specification -/

/-- Nothing that pushes or fetches over what is there. -/
def Safe (d : Disk) : Prop := ∀ x ∈ d, x.2.mirror = false ∧ x.2.force = false

/-- The short name of a repository, to be found on the server. -/
def Short (t : Text) : Prop := t ≠ [] ∧ scheme t = none

/-- A name of a host. -/
def Host (t : Text) : Prop := t ≠ [] ∧ '/' ∉ t

/-- No path leads through another. -/
def Apart (ps : List Text) : Prop := ∀ a ∈ ps, ∀ b ∈ ps, ¬ a ++ ['/'] <+: b

/-! ## Lemmas -/

theorem cmd_cases (f : Disk → Option Disk) (s : St) (h : s.alive = true) :
    ((cmd f s).alive = false ∧ (cmd f s).disk = s.disk) ∨ ∃ d, f s.disk = some d ∧ (cmd f s).alive = true ∧ (cmd f s).disk = d := by
  unfold cmd
  rw [if_pos h]
  split
  · exact .inl ⟨rfl, rfl⟩
  · split
    · rename_i d hd; exact .inr ⟨d, hd, rfl, rfl⟩
    · exact .inl ⟨rfl, rfl⟩

theorem cmd_dead (f : Disk → Option Disk) (s : St) (h : s.alive = false) : cmd f s = s := by
  unfold cmd
  rw [if_neg (by simp [h])]

theorem cmd_runs (f : Disk → Option Disk) (s : St) (h : s.alive = true) (ho : s.outs = []) (d : Disk) (hd : f s.disk = some d) :
    cmd f s = ⟨d, [], true⟩ := by
  unfold cmd
  rw [if_pos h, ho]
  simp only [hd]
  rfl

theorem not_dir {d : Disk} {p : Text} (h : isDir d p = false) : ∀ x ∈ d, x.1 ≠ p := by
  intro x hx e
  have := List.any_eq_false.1 h x hx
  simp [e] at this

theorem change_new {d : Disk} {p : Text} (h : ∀ x ∈ d, x.1 ≠ p) (f : Repo → Repo) (r : Repo) : change p f (d ++ [(p, r)]) = some (d ++ [(p, f r)]) := by
  unfold change
  rw [if_pos (by simp)]
  congr 1
  rw [List.map_append]
  congr 1
  · conv => rhs; rw [← List.map_id d]
    refine List.map_congr_left fun x hx => ?_
    rw [if_neg (h x hx)]; rfl
  · simp

theorem fetch_same {d d' : Disk} {p : Text} (h : fetch p d = some d') : d' = d := by
  unfold fetch change at h
  split at h
  · rw [← Option.some.inj h]
    conv => rhs; rw [← List.map_id d]
    refine List.map_congr_left fun x _ => ?_
    simp
  · cases h

theorem again_disk (p : Text) (s : St) (h : s.alive = true) : (again p s).disk = s.disk := by
  unfold again
  rcases cmd_cases (fetch p) s h with ⟨h1, h2⟩ | ⟨d, h1, h2, h3⟩
  · rw [cmd_dead _ _ h1, h2]
  · have e := fetch_same h1
    rcases cmd_cases (fetch p) _ h2 with ⟨k1, k2⟩ | ⟨d', k1, k2, k3⟩
    · rw [k2, h3, e]
    · rw [k3, fetch_same k1, h3, e]

/-- What `fresh` leaves. -/
theorem fresh_spec (p url rw : Text) (s : St) (h : s.alive = true) (hd : isDir s.disk p = false) :
    ((fresh p url rw s).alive = false ∧ (fresh p url rw s).disk = s.disk) ∨
    ∃ r, (fresh p url rw s).disk = s.disk ++ [(p, r)] ∧
      ((fresh p url rw s).alive = true → r = ⟨false, false, url, if rw ≠ url then some rw else none⟩) := by
  have hn := not_dir hd
  unfold fresh
  rcases cmd_cases (clone p url) s h with ⟨h1, h2⟩ | ⟨d1, h1, h2, h3⟩
  · left
    simp only [cmd_dead _ _ h1]
    split <;> (try rw [cmd_dead _ _ h1]) <;> exact ⟨h1, h2⟩
  · obtain rfl := Option.some.inj h1
    right
    rcases cmd_cases (change p unmirror) _ h2 with ⟨k1, k2⟩ | ⟨d2, k1, k2, k3⟩
    · refine ⟨⟨true, true, url, none⟩, ?_⟩
      simp only [cmd_dead _ _ k1]
      split <;> (try rw [cmd_dead _ _ k1]) <;> exact ⟨k2.trans h3, fun e => absurd (k1.symm.trans e) (by decide)⟩
    · rw [h3, change_new hn] at k1
      obtain rfl := Option.some.inj k1
      rcases cmd_cases (change p unforce) _ k2 with ⟨l1, l2⟩ | ⟨d3, l1, l2, l3⟩
      · refine ⟨unmirror ⟨true, true, url, none⟩, ?_⟩
        · simp only []
          split <;> (try rw [cmd_dead _ _ l1]) <;> exact ⟨l2.trans k3, fun e => absurd (l1.symm.trans e) (by decide)⟩
      · rw [k3, change_new hn] at l1
        obtain rfl := Option.some.inj l1
        simp only []
        by_cases hrw : rw ≠ url
        · rw [if_pos hrw]
          rcases cmd_cases (change p (setPush rw)) _ l2 with ⟨m1, m2⟩ | ⟨d4, m1, m2, m3⟩
          · exact ⟨_, m2.trans l3, fun e => absurd (m1.symm.trans e) (by decide)⟩
          · rw [l3, change_new hn] at m1
            obtain rfl := Option.some.inj m1
            exact ⟨_, m3, fun _ => by simp [unforce, unmirror, setPush, hrw]⟩
        · rw [if_neg hrw]
          exact ⟨_, l3, fun _ => by simp [unforce, unmirror, hrw]⟩

theorem initOne_spec (dir server : Text) (s : St) (repo : Text) :
    (initOne dir server s repo).disk = s.disk ∨ ∃ p r, place (urls server repo).1 = some p ∧ isDir s.disk (dir ++ '/' :: p) = false ∧
      (initOne dir server s repo).disk = s.disk ++ [(dir ++ '/' :: p, r)] ∧
      ((initOne dir server s repo).alive = true →
        r = ⟨false, false, (urls server repo).1, if (urls server repo).2 ≠ (urls server repo).1 then some (urls server repo).2 else none⟩) := by
  unfold initOne
  by_cases h : s.alive = true
  · rw [if_pos h]
    cases hp : place (urls server repo).1 with
    | none => exact .inl rfl
    | some p =>
      simp only []
      by_cases hd : isDir s.disk (dir ++ '/' :: p) = true
      · rw [if_pos hd]; exact .inl (again_disk _ s h)
      · rw [if_neg hd]
        have hd' : isDir s.disk (dir ++ '/' :: p) = false := by simpa using hd
        rcases fresh_spec (dir ++ '/' :: p) (urls server repo).1 (urls server repo).2 s h hd' with ⟨_, h2⟩ | ⟨r, h1, h2⟩
        · exact .inl h2
        · exact .inr ⟨p, r, rfl, hd', h1, h2⟩
  · rw [if_neg h]; exact .inl rfl

theorem initOne_alive (dir server : Text) (s : St) (repo : Text) (h : (initOne dir server s repo).alive = true) : s.alive = true := by
  cases e : s.alive with
  | true => rfl
  | false =>
    unfold initOne at h
    rw [if_neg (by simp [e])] at h
    exact e.symm.trans h

/-! ## Theorems -/

/-- C228: whatever becomes of the commands, the repositories that were there keep their settings. -/
theorem gitinit_keeps (dir server : Text) : ∀ (repos : List Text) (s : St), s.disk <+: (init dir server repos s).disk
  | [], _ => List.prefix_rfl
  | repo :: repos, s => by
    refine List.IsPrefix.trans ?_ (gitinit_keeps dir server repos (initOne dir server s repo))
    rcases initOne_spec dir server s repo with h | ⟨p, r, _, _, h, _⟩
    · rw [h]; exact List.prefix_rfl
    · rw [h]; exact List.prefix_append _ _

/-- C228: if it does not die and all repositories were safe before, all are after. Missing: it may die in between, and start again (`gitinit_stopped_false`). -/
theorem gitinit_safe_partial (dir server : Text) : ∀ (repos : List Text) (s : St), Safe s.disk → (init dir server repos s).alive = true →
    Safe (init dir server repos s).disk
  | [], _, h, _ => h
  | repo :: repos, s, h, ha => by
    refine gitinit_safe_partial dir server repos (initOne dir server s repo) ?_ ha
    have alive : ∀ (rs : List Text) (s : St), (init dir server rs s).alive = true → s.alive = true := by
      intro rs
      induction rs with
      | nil => exact fun _ h => h
      | cons r rs ih => exact fun s h => initOne_alive dir server s r (ih _ h)
    have ha' := alive repos _ ha
    rcases initOne_spec dir server s repo with e | ⟨p, r, _, _, e, hr⟩
    · rw [e]; exact h
    · rw [e]
      intro x hx
      rcases List.mem_append.1 hx with hx | hx
      · exact h x hx
      · obtain rfl := List.mem_singleton.1 hx
        rw [hr ha']
        exact ⟨rfl, rfl⟩

theorem takeWhile_host {h : Text} (hh : '/' ∉ h) (r : Text) : (h ++ '/' :: r).takeWhile (· ≠ '/') = h ∧ (h ++ '/' :: r).dropWhile (· ≠ '/') = '/' :: r := by
  induction h with
  | nil => simp
  | cons c h ih =>
    have hc : c ≠ '/' := fun e => hh (by simp [e])
    obtain ⟨i1, i2⟩ := ih (fun e => hh (List.mem_cons_of_mem _ e))
    constructor
    · rw [List.cons_append, List.takeWhile_cons_of_pos (by simpa using hc), i1]
    · rw [List.cons_append, List.dropWhile_cons_of_pos (by simpa using hc), i2]

theorem scheme_git (t : Text) : scheme (tGit ++ t) = some t := by
  have h1 : (tGit ++ t).takeWhile isWord = ['g', 'i', 't'] := by
    simp only [tGit, List.cons_append, List.nil_append, List.takeWhile_cons]
    rfl
  have h2 : (tGit ++ t).dropWhile isWord = ':' :: '/' :: '/' :: t := by
    simp only [tGit, List.cons_append, List.nil_append, List.dropWhile_cons]
    rfl
  unfold scheme
  rw [h1, h2]
  rfl

theorem short_place {server repo : Text} (hs : Host server) (hr : Short repo) : place (urls server repo).1 = some repo ∧
    urls server repo = (tGit ++ server ++ '/' :: repo, tSsh ++ server ++ '/' :: repo) := by
  have e : urls server repo = (tGit ++ server ++ '/' :: repo, tSsh ++ server ++ '/' :: repo) := by simp [urls, hr.2]
  refine ⟨?_, e⟩
  rw [e]
  obtain ⟨h1, h2⟩ := takeWhile_host hs.2 repo
  unfold place
  rw [List.append_assoc, scheme_git]
  simp only [h1, h2]
  obtain ⟨c, cs, rfl⟩ := List.exists_cons_of_ne_nil hs.1
  obtain ⟨d, ds, rfl⟩ := List.exists_cons_of_ne_nil hr.1
  rfl

theorem isDir_apart {d : Disk} {p : Text} (h : Apart (p :: d.map (·.1))) : isDir d p = true ↔ p ∈ d.map (·.1) := by
  unfold isDir
  rw [List.any_eq_true]
  constructor
  · rintro ⟨x, hx, hp⟩
    rw [Bool.or_eq_true, decide_eq_true_eq] at hp
    rcases hp with hp | hp
    · exact List.mem_map.2 ⟨x, hx, hp⟩
    · exact absurd (List.isPrefixOf_iff_prefix.1 hp) (h p (by simp) x.1 (List.mem_cons_of_mem _ (List.mem_map.2 ⟨x, hx, rfl⟩)))
  · intro hp
    obtain ⟨x, hx, e⟩ := List.mem_map.1 hp
    exact ⟨x, hx, by simp [e]⟩

/-- What is on the disk in the end when nothing fails: each short name has its repository, and those that were not there before are read from the server without a password, written over ssh, and safe. -/
theorem gitinit_works (dir server : Text) (hs : Host server) : ∀ (repos : List Text) (d : Disk), (∀ r ∈ repos, Short r) →
    Apart (repos.map (dir ++ '/' :: ·) ++ d.map (·.1)) → ∃ d', init dir server repos ⟨d, [], true⟩ = ⟨d ++ d', [], true⟩ ∧
      (∀ x ∈ d', ∃ r ∈ repos, x = (dir ++ '/' :: r, ⟨false, false, tGit ++ server ++ '/' :: r, some (tSsh ++ server ++ '/' :: r)⟩)) ∧
      (∀ r ∈ repos, dir ++ '/' :: r ∈ (d ++ d').map (·.1)) ∧ ∀ x ∈ d', x.1 ∉ d.map (·.1)
  | [], d, _, _ => ⟨[], by simp [init], by simp, by simp, by simp⟩
  | repo :: repos, d, hr, ha => by
    obtain ⟨hp, hu⟩ := short_place hs (hr repo (by simp))
    have hdir : isDir d (dir ++ '/' :: repo) = true ↔ dir ++ '/' :: repo ∈ d.map (·.1) := by
      refine isDir_apart fun a h1 b h2 => ha a ?_ b ?_ <;>
      · simp only [List.map_cons, List.cons_append, List.mem_cons, List.mem_append] at *
        first
        | (rcases h1 with h | h; exact .inl h; exact .inr (.inr h))
        | (rcases h2 with h | h; exact .inl h; exact .inr (.inr h))
    by_cases hm : dir ++ '/' :: repo ∈ d.map (·.1)
    · have e : initOne dir server ⟨d, [], true⟩ repo = ⟨d, [], true⟩ := by
        unfold initOne
        rw [if_pos rfl, hp]
        simp only [hdir.2 hm, if_true]
        have hf : fetch (dir ++ '/' :: repo) d = some d := by
          unfold fetch change
          rw [if_pos]
          · congr 1
            conv => rhs; rw [← List.map_id d]
            refine List.map_congr_left fun x _ => ?_
            simp
          · obtain ⟨x, hx, hxe⟩ := List.mem_map.1 hm
            exact List.any_eq_true.2 ⟨x, hx, by simp [hxe]⟩
        unfold again
        have hc := cmd_runs (fetch (dir ++ '/' :: repo)) ⟨d, [], true⟩ rfl rfl d hf
        rw [hc, hc]
      obtain ⟨d', i1, i2, i3, i4⟩ := gitinit_works dir server hs repos d (fun r h => hr r (List.mem_cons_of_mem _ h))
        (fun a h1 b h2 => ha a (List.mem_cons_of_mem _ h1) b (List.mem_cons_of_mem _ h2))
      refine ⟨d', ?_, fun x hx => ?_, fun r h => ?_, i4⟩
      · rw [init, List.foldl_cons, e]; exact i1
      · obtain ⟨r, h1, h2⟩ := i2 x hx; exact ⟨r, List.mem_cons_of_mem _ h1, h2⟩
      · rcases List.mem_cons.1 h with rfl | h
        · rw [List.map_append]; exact List.mem_append_left _ hm
        · exact i3 r h
    · have hd : isDir d (dir ++ '/' :: repo) = false := by
        cases hb : isDir d (dir ++ '/' :: repo) with
        | false => rfl
        | true => exact absurd (hdir.1 hb) hm
      have hn := not_dir hd
      have hne : tSsh ++ server ++ '/' :: repo ≠ tGit ++ server ++ '/' :: repo := by
        intro e
        have := congrArg List.head? e
        simp [tSsh, tGit] at this
      have e : initOne dir server ⟨d, [], true⟩ repo =
          ⟨d ++ [(dir ++ '/' :: repo, ⟨false, false, tGit ++ server ++ '/' :: repo, some (tSsh ++ server ++ '/' :: repo)⟩)], [], true⟩ := by
        unfold initOne
        rw [if_pos rfl, hp]
        simp only [hd]
        rw [if_neg (by decide), hu]
        unfold fresh
        rw [cmd_runs (clone _ _) _ rfl rfl _ rfl]
        rw [cmd_runs (change _ unmirror) _ rfl rfl _ (change_new hn _ _)]
        rw [cmd_runs (change _ unforce) _ rfl rfl _ (change_new hn _ _)]
        simp only []
        rw [if_pos hne, cmd_runs (change _ (setPush _)) _ rfl rfl _ (change_new hn _ _)]
        rfl
      obtain ⟨d', i1, i2, i3, i4⟩ := gitinit_works dir server hs repos
        (d ++ [(dir ++ '/' :: repo, ⟨false, false, tGit ++ server ++ '/' :: repo, some (tSsh ++ server ++ '/' :: repo)⟩)])
        (fun r h => hr r (List.mem_cons_of_mem _ h))
        (fun a h1 b h2 => ha a (by simp at h1 ⊢; grind) b (by simp at h2 ⊢; grind))
      refine ⟨(dir ++ '/' :: repo, ⟨false, false, tGit ++ server ++ '/' :: repo, some (tSsh ++ server ++ '/' :: repo)⟩) :: d', ?_, fun x hx => ?_, fun r h => ?_, fun x hx => ?_⟩
      · rw [init, List.foldl_cons, e]
        exact i1.trans (by simp)
      · rcases List.mem_cons.1 hx with rfl | hx
        · exact ⟨repo, by simp, rfl⟩
        · obtain ⟨r, h1, h2⟩ := i2 x hx; exact ⟨r, List.mem_cons_of_mem _ h1, h2⟩
      · rcases List.mem_cons.1 h with rfl | h
        · simp
        · have := i3 r h
          simpa using this
      · rcases List.mem_cons.1 hx with rfl | hx
        · exact hm
        · intro h'
          exact i4 x hx (by rw [List.map_append]; exact List.mem_append_left _ h')

/-- C228 is false when it is stopped: after a failure behind `clone` the repository pushes and fetches by force, and running again, with everything going well, leaves it so. -/
theorem gitinit_stopped_false :
    let s := init ['g'] ['h'] [['a']] ⟨[], [true, false], true⟩
    s.alive = false ∧ init ['g'] ['h'] [['a']] ⟨s.disk, [], true⟩ = ⟨[(['g', '/', 'a'], ⟨true, true, tGit ++ ['h', '/', 'a'], none⟩)], [], true⟩ := by
  decide

/-- C228 is false of the same name on two hosts: the second is never copied, and nothing is said about it. -/
theorem gitinit_hosts_false :
    init ['g'] ['h'] [tGit ++ ['x', '/', 'a'], tGit ++ ['y', '/', 'a']] ⟨[], [], true⟩ = ⟨[(['g', '/', 'a'], ⟨false, false, tGit ++ ['x', '/', 'a'], none⟩)], [], true⟩ := by
  decide

example : init ['g'] ['h'] [['a'], ['b']] ⟨[(['g', '/', 'a'], ⟨false, false, ['u'], none⟩)], [], true⟩ =
    ⟨[(['g', '/', 'a'], ⟨false, false, ['u'], none⟩), (['g', '/', 'b'], ⟨false, false, tGit ++ ['h', '/', 'b'], some (tSsh ++ ['h', '/', 'b'])⟩)], [], true⟩ := by decide

example : Host ['h'] ∧ Short ['a'] ∧ Apart [['g', '/', 'a'], ['g', '/', 'b']] := by
  refine ⟨⟨by decide, by decide⟩, ⟨by decide, by decide⟩, ?_⟩
  unfold Apart
  decide

end Verif.DepVC.GitRepo
