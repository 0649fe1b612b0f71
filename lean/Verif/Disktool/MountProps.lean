import Verif.Disktool.MountLemmas
import Verif.Disktool.FormatProps

/-!
# `lintel-disktool mount` (C174)
-/

namespace Verif.Disktool

/-- What `mount` is made for: the drives with labels have different ones, without slashes and spaces; the directory of a label is the one of this name; below the mount path only partitions of drives are mounted. -/
structure Usual (c : Config) (s : Sys) (w : World) : Prop where
  path : ∀ d, Allowed c s d → Ready w d → c.labelToPath (w.disk d).label d = some (c.mountPath ++ '/' :: (w.disk d).label)
  plain : ∀ d, Allowed c s d → Ready w d → Plain (w.disk d).label
  distinct : ∀ d e, Allowed c s d → Allowed c s e → Ready w d → Ready w e → (w.disk d).label = (w.disk e).label → d = e
  ours : Ours c.mountPath w

theorem mount_eq {c : Config} {s : Sys} {env : Env} {dirs : List Text} {w : World} {r : Out} (h : mount c s env dirs w = some r) :
    ∃ ds m, findDrives c s = some ds ∧ getMounted c.mountPath w = some m ∧
      (r = ⟨(cleanDirs c env m dirs).1, w, false⟩ ∨
        r = ⟨(cleanDirs c env m dirs).1 ++ (mountLoop c env m ds w).acts, (mountLoop c env m ds w).world, (mountLoop c env m ds w).ok⟩) := by
  unfold mount at h
  split at h
  · rename_i ds m h1 h2
    refine ⟨ds, m, h1, h2, ?_⟩
    simp only [] at h
    split at h
    · cases h; exact .inr rfl
    · cases h; exact .inl rfl
  · cases h

theorem findDrives_nodup' {c : Config} {s : Sys} {ds : List Text} (hs : Sane c s) (hn : s.devices.Nodup) (h : findDrives c s = some ds) : ds.Nodup := by
  have := ((drives_partial c s hs hn).2 ds h).2
  refine this.imp ?_
  rintro a b (h | h) rfl
  · omega
  · exact h.2.1 rfl

/-- C174: if `mount` ends well, then on the directory of the label of each usable drive that drive is mounted and nothing else; whatever happens, no other directory and no drive changes, nothing is done to a partition that is mounted in its place, and only empty directories are removed on which nothing is mounted. -/
theorem mount_visible_partial (c : Config) (s : Sys) (env : Env) (dirs : List Text) (w : World) (hs : Sane c s) (hn : s.devices.Nodup) (hu : Usual c s w) (r : Out)
    (h : mount c s env dirs w = some r) :
    (r.ok = true → ∀ d, Allowed c s d → Ready w d → ∃ p, partOf d = some p ∧
      ∀ q, (q, c.mountPath ++ '/' :: (w.disk d).label) ∈ r.world.mounts ↔ q = p) ∧
    (∀ q dir, (∀ d, Allowed c s d → Ready w d → dir ≠ c.mountPath ++ '/' :: (w.disk d).label) → ((q, dir) ∈ r.world.mounts ↔ (q, dir) ∈ w.mounts)) ∧
    r.world.disk = w.disk ∧
    (∀ d p, Allowed c s d → partOf d = some p → (w.disk d).label ≠ ['0'] → (p, c.mountPath ++ '/' :: (w.disk d).label) ∈ w.mounts → Ready w d →
      .umount (c.mountPath ++ '/' :: (w.disk d).label) ∉ r.acts) ∧
    (∀ x, Plain x → .rmdir (c.mountPath ++ '/' :: x) ∈ r.acts → ∀ q, (q, c.mountPath ++ '/' :: x) ∉ w.mounts) := by
  obtain ⟨ds, m, hf, hm, hr⟩ := mount_eq h
  have hall := ((drives_partial c s hs hn).2 ds hf).1
  have hd := findDrives_nodup' hs hn hf
  obtain ⟨l1, l2, l3, l4⟩ := mountLoop_spec c env m ds hd w (fun d hd => hu.path d ((hall d).mp hd))
    (fun d hd e he => hu.distinct d e ((hall d).mp hd) ((hall e).mp he))
  obtain ⟨-, n1, n2⟩ := getMounted_nodup hm
  have hclean : ∀ x, Plain x → Act.rmdir (c.mountPath ++ '/' :: x) ∈ (cleanDirs c env m dirs).1 → ∀ q, (q, c.mountPath ++ '/' :: x) ∉ w.mounts := by
    intro x hx ha q hq
    obtain ⟨y, _, he, hnone, _⟩ := cleanDirs_acts c env m dirs _ ha
    have : x = y := by simpa using he
    subst this
    have := (mountedAt_iff n1 x q).mpr ((getMounted_mem hm x q).mpr ⟨hq, hu.ours q x hx hq, hx⟩)
    rw [hnone] at this; cases this
  have hcu : ∀ dir, Act.umount dir ∉ (cleanDirs c env m dirs).1 := by
    intro dir ha
    obtain ⟨y, _, he, _⟩ := cleanDirs_acts c env m dirs _ ha
    cases he
  have hlr : ∀ dir, Act.rmdir dir ∉ (mountLoop c env m ds w).acts := by
    intro dir ha
    obtain ⟨_, _, _, _, _, _, he | he⟩ := l4 _ ha
    · cases he.1
    · cases he
  rcases hr with rfl | rfl
  · exact ⟨fun h => (by cases h), fun _ _ _ => Iff.rfl, rfl, fun d p _ _ _ _ _ => hcu _, hclean⟩
  · refine ⟨?_, ?_, l1, ?_, ?_⟩
    · intro ho d hal hrd
      obtain ⟨p, hp, hi⟩ := l3 ho d ((hall d).mpr hal) hrd
      have hpl := hu.plain d hal hrd
      have hat := mountedAt_on hm hu.ours hpl
      refine ⟨p, hp, fun q => ?_⟩
      rw [← mem_on]
      show q ∈ on (mountLoop c env m ds w).world _ ↔ _
      split at hi
      · obtain ⟨h1, h2⟩ := hi
        rw [h2, hat, (mountedAt_iff n1 _ _).mpr ((mountedOn_iff n2 _ _).mp h1)]
        simp
      · rw [hi, hat]
        cases mountedAt m (w.disk d).label <;> simp
    · intro q dir hdir
      rw [← mem_on, ← mem_on]
      show q ∈ on (mountLoop c env m ds w).world _ ↔ _
      rw [l2 dir fun d hd => hdir d ((hall d).mp hd)]
    · intro d p hal hp h0 hin hrd ha
      rcases List.mem_append.mp ha with ha | ha
      · exact hcu _ ha
      · obtain ⟨e, he, hre, q, hq, hf, h4⟩ := l4 _ ha
        have hpl := hu.plain d hal hrd
        rcases h4 with ⟨h4, _⟩ | h4
        · have h5 : (w.disk d).label = (w.disk e).label := by simpa using h4
          have := hu.distinct d e hal ((hall e).mp he) hrd hre h5
          subst this
          rw [hp] at hq; cases hq
          have : isTrue (mountedOn m p) = true := by
            rw [isTrue_iff]
            exact ⟨_, (mountedOn_iff n2 _ _).mpr ((getMounted_mem hm _ _).mpr ⟨hin, partOf_part1 hp, hpl⟩), hpl.1, h0⟩
          rw [hf] at this; cases this
        · cases h4
    · intro x hx ha
      rcases List.mem_append.mp ha with ha | ha
      · exact hclean x hx ha
      · exact absurd ha (hlr _)

/-- C174: after `mount` ended well, it can be run again, and then mounts and unmounts nothing; if the directories can be removed it ends well again. (No label and no directory is `0`.) -/
theorem mount_again_partial (c : Config) (s : Sys) (env env2 : Env) (dirs dirs2 : List Text) (w : World) (hs : Sane c s) (hn : s.devices.Nodup) (hu : Usual c s w)
    (hz : ∀ d, Allowed c s d → Ready w d → (w.disk d).label ≠ ['0']) (hz2 : ∀ q, (q, c.mountPath ++ ['/', '0']) ∉ w.mounts) (r : Out)
    (h : mount c s env dirs w = some r) (ho : r.ok = true) :
    ∃ r2, mount c s env2 dirs2 r.world = some r2 ∧ r2.world = r.world ∧ (∀ a ∈ r2.acts, ∃ x, a = .rmdir x) ∧
      ((∀ dir, env2.works (.rmdir dir) = true) → r2.ok = true) := by
  obtain ⟨v1, v2, v3, _, _⟩ := mount_visible_partial c s env dirs w hs hn hu r h
  have v1 := v1 ho
  obtain ⟨ds, m, hf, hm, hr⟩ := mount_eq h
  have hall := ((drives_partial c s hs hn).2 ds hf).1
  have hd := findDrives_nodup' hs hn hf
  obtain ⟨-, n1, n2⟩ := getMounted_nodup hm
  -- what is mounted now, with its place
  have hmem : ∀ x q, Plain x → (q, c.mountPath ++ '/' :: x) ∈ r.world.mounts →
      (∃ d, Allowed c s d ∧ Ready w d ∧ partOf d = some q ∧ x = (w.disk d).label) ∨
      ((∀ d, Allowed c s d → Ready w d → x ≠ (w.disk d).label) ∧ (q, c.mountPath ++ '/' :: x) ∈ w.mounts) := by
    intro x q hx hq
    by_cases hd : ∃ d, Allowed c s d ∧ Ready w d ∧ x = (w.disk d).label
    · obtain ⟨d, hal, hrd, rfl⟩ := hd
      obtain ⟨p, hp, hpq⟩ := v1 d hal hrd
      exact .inl ⟨d, hal, hrd, by rw [(hpq q).mp hq]; exact hp, rfl⟩
    · have hd' : ∀ d, Allowed c s d → Ready w d → x ≠ (w.disk d).label := fun d h1 h2 h3 => hd ⟨d, h1, h2, h3⟩
      exact .inr ⟨hd', (v2 q _ fun d h1 h2 h3 => hd' d h1 h2 (by simpa using h3)).mp hq⟩
  have hR : ∀ d, Ready r.world d ↔ Ready w d := by intro d; unfold Ready; rw [v3]
  have ours : Ours c.mountPath r.world := by
    intro q x hx hq
    rcases hmem x q hx hq with ⟨d, _, _, hp, _⟩ | ⟨_, hq⟩
    · exact partOf_part1 hp
    · exact hu.ours q x hx hq
  -- the loop has left its mark
  have hloop : r.world = (mountLoop c env m ds w).world ∧ (mountLoop c env m ds w).ok = true := by
    rcases hr with rfl | rfl
    · cases ho
    · exact ⟨rfl, ho⟩
  obtain ⟨l1, l2, l3, l4⟩ := mountLoop_spec c env m ds hd w (fun d hd => hu.path d ((hall d).mp hd))
    (fun d hd e he => hu.distinct d e ((hall d).mp hd) ((hall e).mp he))
  have hlen : ∀ x, Plain x → (on r.world (c.mountPath ++ '/' :: x)).length ≤ 1 := by
    intro x hx
    have hat := mountedAt_on hm hu.ours hx
    have h1 : (on w (c.mountPath ++ '/' :: x)).length ≤ 1 := by rw [hat]; cases mountedAt m x <;> simp
    rw [hloop.1]
    by_cases hd : ∃ d, Allowed c s d ∧ Ready w d ∧ x = (w.disk d).label
    · obtain ⟨d, hal, hrd, rfl⟩ := hd
      obtain ⟨p, hp, hi⟩ := l3 hloop.2 d ((hall d).mpr hal) hrd
      split at hi
      · rw [hi.2]; exact h1
      · rw [hi, hat]; cases mountedAt m (w.disk d).label <;> simp
    · rw [l2 _ fun d h1 h2 h3 => hd ⟨d, (hall d).mp h1, h2, by simpa using h3⟩]
      exact h1
  -- a partition that has a place of its own is not mounted elsewhere
  have hold : ∀ d p, Allowed c s d → Ready w d → partOf d = some p → ∀ y, Plain y → (p, c.mountPath ++ '/' :: y) ∈ w.mounts → y = (w.disk d).label := by
    intro d p hal hrd hp y hy hin
    obtain ⟨p', hp', hi⟩ := l3 hloop.2 d ((hall d).mpr hal) hrd
    rw [hp] at hp'; cases hp'
    have hy0 : y ≠ ['0'] := by rintro rfl; exact hz2 _ hin
    have h1 := (mountedOn_iff n2 _ _).mpr ((getMounted_mem hm _ _).mpr ⟨hin, partOf_part1 hp, hy⟩)
    have : isTrue (mountedOn m p) = true := (isTrue_iff _).mpr ⟨_, h1, hy.1, hy0⟩
    rw [if_pos this, h1] at hi
    exact Option.some.inj hi.1
  obtain ⟨m2, hm2⟩ := getMounted_some ours hlen (by
    intro x y p hx hy h1 h2
    rcases hmem x p hx h1 with ⟨d, hal, hrd, hp, rfl⟩ | ⟨g1, h1⟩
    · rcases hmem y p hy h2 with ⟨e, hal', hrd', hp', rfl⟩ | ⟨g2, h2⟩
      · rw [partOf_inj hp hp']
      · exact (hold d p hal hrd hp y hy h2).symm
    · rcases hmem y p hy h2 with ⟨e, hal', hrd', hp', rfl⟩ | ⟨g2, h2⟩
      · exact hold e p hal' hrd' hp' x hx h1
      · have a1 := (mountedOn_iff n2 _ _).mpr ((getMounted_mem hm _ _).mpr ⟨h1, hu.ours _ _ hx h1, hx⟩)
        have a2 := (mountedOn_iff n2 _ _).mpr ((getMounted_mem hm _ _).mpr ⟨h2, hu.ours _ _ hy h2, hy⟩)
        rw [a1] at a2
        exact Option.some.inj a2)
  obtain ⟨-, k1, k2⟩ := getMounted_nodup hm2
  have hskip : ∀ es : List Text, (∀ d ∈ es, d ∈ ds) → mountLoop c env2 m2 es r.world = ⟨[], r.world, true⟩ := by
    intro es
    induction es with
    | nil => intro _; rfl
    | cons d es ih =>
      intro hes
      have ih := ih fun e he => hes e (List.mem_cons_of_mem _ he)
      rw [mountLoop]
      have hal := (hall d).mp (hes d (List.mem_cons_self ..))
      by_cases hk : (r.world.disk d).tableOk = true
      · rw [if_pos hk]
        have hpp : ∃ p, partOf d = some p := by
          have hgo : ∀ fs : List Text, d ∈ fs → ∀ v : World, v.disk = w.disk → (mountLoop c env m fs v).ok = true → ∃ p, partOf d = some p := by
            intro fs
            induction fs with
            | nil => intro h; cases h
            | cons e fs ih2 =>
              intro hm v hv hok
              rw [mountLoop] at hok
              rcases List.mem_cons.mp hm with rfl | hm
              · rw [hv, ← v3, if_pos hk] at hok
                cases hpd : partOf d with
                | some p => exact ⟨p, rfl⟩
                | none => rw [hpd] at hok; cases hok
              · split at hok
                · split at hok
                  · cases hok
                  · split at hok
                    · exact ih2 hm v hv hok
                    · split at hok
                      · split at hok
                        · exact ih2 hm v hv hok
                        · cases hok
                      · simp only [] at hok
                        split at hok
                        · refine ih2 hm _ ?_ hok
                          rw [← hv]
                          unfold mountOne
                          split
                          · rfl
                          · simp only []
                            split
                            · split
                              · simp only [mountPart_disk, umountDir_disk]
                              · rfl
                            · simp only [mountPart_disk]
                        · rename_i hno
                          exact absurd hok hno
                · exact ih2 hm v hv hok
          exact hgo ds (hes d (List.mem_cons_self ..)) w rfl hloop.2
        obtain ⟨p, hp⟩ := hpp
        rw [hp]
        simp only []
        by_cases hl : (r.world.disk d).label = []
        · rw [if_pos hl]; exact ih
        · rw [if_neg hl]
          have hrd : Ready w d := (hR d).mp ⟨hk, hl⟩
          obtain ⟨p', hp', hpq⟩ := v1 d hal hrd
          rw [hp] at hp'; cases hp'
          have hpl := hu.plain d hal hrd
          have h1 := (mountedOn_iff k2 _ _).mpr ((getMounted_mem hm2 _ _).mpr ⟨(hpq p).mpr rfl, partOf_part1 hp, hpl⟩)
          have h2 : isTrue (mountedOn m2 p) = true := (isTrue_iff _).mpr ⟨_, h1, hpl.1, hz d hal hrd⟩
          rw [if_pos h2, h1, v3, if_pos rfl]
          exact ih
      · rw [if_neg hk]; exact ih
  have hs2 := hskip ds fun _ h => h
  cases hk : (cleanDirs c env2 m2 dirs2).2 with
  | true =>
    refine ⟨⟨(cleanDirs c env2 m2 dirs2).1 ++ [], r.world, true⟩, ?_, rfl, ?_, fun _ => rfl⟩
    · unfold mount
      rw [hf, hm2]
      simp only [hk, if_true, hs2]
    · intro a ha
      rw [List.append_nil] at ha
      obtain ⟨x, _, rfl, _⟩ := cleanDirs_acts c env2 m2 dirs2 a ha
      exact ⟨_, rfl⟩
  | false =>
    refine ⟨⟨(cleanDirs c env2 m2 dirs2).1, r.world, false⟩, ?_, rfl, ?_, fun hw => ?_⟩
    · unfold mount
      rw [hf, hm2]
      simp only [hk, Bool.false_eq_true, if_false]
    · intro a ha
      obtain ⟨x, _, rfl, _⟩ := cleanDirs_acts c env2 m2 dirs2 a ha
      exact ⟨_, rfl⟩
    · rw [cleanDirs_ok c env2 m2 dirs2 hw] at hk; cases hk

/-- Two drives with the labels `1` and `2`; on the directory of the second another drive is mounted, which makes way. -/
def sdd1 : Text := ['/', 'd', 'e', 'v', '/', 's', 'd', 'd', '1']

def worldM : World where
  disk := fun d => if d = sdb then ⟨true, ['1']⟩ else ⟨true, ['2']⟩
  mounts := [(sdd1, ['/', 'k', '/', '2']), (sdb1, ['/', 'k', '/', '1'])]

example : Usual cfgF sysF worldM ∧ (mount cfgF sysF envEx [] worldM).map (fun r => (r.acts, r.world.mounts, r.ok)) =
    some ([.umount ['/', 'k', '/', '2'], .mount sdc1 ['/', 'k', '/', '2']], [(sdc1, ['/', 'k', '/', '2']), (sdb1, ['/', 'k', '/', '1'])], true) ∧
    (∀ d, Allowed cfgF sysF d → Ready worldM d → (worldM.disk d).label ≠ ['0']) ∧ (∀ q, (q, cfgF.mountPath ++ ['/', '0']) ∉ worldM.mounts) := by
  have hlab : ∀ d, (worldM.disk d).label = ['1'] ∨ (worldM.disk d).label = ['2'] := by
    intro d; unfold worldM; simp only []; split <;> simp
  refine ⟨⟨fun _ _ _ => rfl, ?_, ?_, ?_⟩, by decide +kernel, ?_, ?_⟩
  · intro d _ _
    rcases hlab d with h | h <;> rw [h] <;> exact ⟨by decide, by decide, by decide⟩
  · intro d e hd he _ _ h
    have h1 : d = sdc ∨ d = sdb := by simpa [sysF] using hd.1
    have h2 : e = sdc ∨ e = sdb := by simpa [sysF] using he.1
    rcases h1 with rfl | rfl <;> rcases h2 with rfl | rfl <;> first | rfl | (exact absurd h (by decide))
  · intro p x _ h
    simp only [worldM, List.mem_cons, Prod.mk.injEq, List.not_mem_nil, or_false] at h
    rcases h with ⟨rfl, _⟩ | ⟨rfl, _⟩ <;> decide
  · intro d _ _
    rcases hlab d with h | h <;> rw [h] <;> decide
  · intro q h
    simp [worldM, cfgF] at h

/-- Two drives with the same label: `mount` ends well, but only one of them can be seen. -/
theorem mount_same_label_false : ∃ (c : Config) (s : Sys) (env : Env) (w : World) (r : Out) (d p : Text), Sane c s ∧ s.devices.Nodup ∧ mount c s env [] w = some r ∧ r.ok = true ∧
    Allowed c s d ∧ Ready w d ∧ partOf d = some p ∧ visible r.world (c.mountPath ++ '/' :: (w.disk d).label) ≠ some p :=
  ⟨cfgF, sysF, envEx, { disk := fun _ => ⟨true, ['1']⟩, mounts := [] }, _, sdb, sdb1, saneF, by decide, rfl, by decide, ⟨by decide, rfl, .inl ⟨['K'], rfl, rfl⟩, rfl⟩, ⟨rfl, by decide⟩, by decide, by decide⟩

/-- With directories outside the mount path, `mount` works once; run again it fails at the first drive, which is mounted. -/
theorem mount_custom_false : ∃ (c : Config) (s : Sys) (env : Env) (w : World) (r r2 : Out), Sane c s ∧ s.devices.Nodup ∧ mount c s env [] w = some r ∧ r.ok = true ∧
    (∀ a, env.works a = true) ∧ mount c s env [] r.world = some r2 ∧ r2.ok = false :=
  ⟨{ cfgF with labelToPath := fun l _ => some (['/', 'p', '/'] ++ l) }, sysF, envEx, { worldM with mounts := [] }, _, _, ⟨rfl, rfl, fun _ => by simp [sysF], fun _ => by simp [sysF]⟩, by decide, rfl, by decide, fun _ => rfl, rfl, by decide⟩

/-- A drive with the label `0` is unmounted and mounted again at each run. -/
theorem mount_zero_false : ∃ (c : Config) (s : Sys) (env : Env) (w : World) (r : Out), Sane c s ∧ s.devices.Nodup ∧ Usual c s w ∧
    w.mounts = [(sdb1, ['/', 'k', '/', '0'])] ∧ (w.disk sdb).label = ['0'] ∧ mount c s env [] w = some r ∧ r.acts = [.umount ['/', 'k', '/', '0'], .mount sdb1 ['/', 'k', '/', '0']] :=
  ⟨cfgF, { sysF with devices := [sdb] }, envEx, { disk := fun _ => ⟨true, ['0']⟩, mounts := [(sdb1, ['/', 'k', '/', '0'])] }, _,
    ⟨rfl, rfl, fun _ => by simp [sysF], fun _ => by simp [sysF]⟩, by decide,
    ⟨fun _ _ _ => rfl, fun _ _ _ => (⟨by decide, by decide, by decide⟩ : Plain ['0']), fun d e hd he _ _ _ => by
      have h1 : d = sdb := by simpa using hd.1
      have h2 : e = sdb := by simpa using he.1
      rw [h1, h2], fun p x _ h => by
      simp only [List.mem_cons, Prod.mk.injEq, List.not_mem_nil, or_false] at h
      rw [h.1]; decide⟩, rfl, rfl, rfl, by decide⟩

end Verif.Disktool
