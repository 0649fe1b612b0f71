import Verif.Disktool.Lemmas
import Verif.Disktool.Spec

/-!
# `lintel-disktool`: which drives are used, and partitioning (C170, C171)
-/

namespace Verif.Disktool

theorem used_iff {c : Config} {s : Sys} (h : Sane c s) (d : Text) :
    used c s d = true ↔ Listed c s d ∧ c.reserved ((s.serial d).getD []) ((s.sysfs d).getD []) = false := by
  have e1 : orEmpty (s.serial d) = (s.serial d).getD [] := by
    cases g : s.serial d with
    | none => rfl
    | some t =>
      have : t ≠ ['0'] := fun e => h.noZeroSerial d (by rw [g, e])
      simp [orEmpty, this]
  have e2 : orEmpty (s.sysfs d) = (s.sysfs d).getD [] := by
    cases g : s.sysfs d with
    | none => rfl
    | some t =>
      have : t ≠ ['0'] := fun e => h.noZeroId d (by rw [g, e])
      simp [orEmpty, this]
  unfold used Listed
  rw [e1, e2, Bool.and_eq_true, Bool.not_eq_true', Bool.or_eq_true, and_comm]
  refine and_congr ?_ Iff.rfl
  have h1 := h.noEmptySerial
  have h2 := h.noEmptyId
  cases s.serial d <;> cases s.sysfs d <;> simp [h1, h2]

theorem findDrives_mem {c : Config} {s : Sys} {ds : List Text} (h : findDrives c s = some ds) (d : Text) :
    d ∈ ds ↔ d ∈ s.devices ∧ c.pattern d = true ∧ used c s d = true := by
  unfold findDrives at h
  simp only [] at h
  split at h
  · cases h
    rw [List.mem_filter, (sortDrives_perm _).mem_iff, List.mem_filter, and_assoc]
  · cases h

/-- C170: the drives that all commands work on are exactly those of the configuration that are not reserved, each once, in order; the program dies if and only if a pattern also matches a partition. -/
theorem drives_partial (c : Config) (s : Sys) (hs : Sane c s) (hn : s.devices.Nodup) :
    (findDrives c s = none ↔ ∃ d ∈ s.devices, c.pattern d = true ∧ s.minor d % 16 ≠ 0) ∧
    ∀ ds, findDrives c s = some ds → (∀ d, d ∈ ds ↔ Allowed c s d) ∧ ds.Pairwise Before := by
  constructor
  · unfold findDrives
    simp only []
    constructor
    · intro h
      split at h
      · cases h
      · rename_i g
        simp only [List.all_eq_true, decide_eq_true_eq, Classical.not_forall] at g
        obtain ⟨d, hd, g⟩ := g
        rw [(sortDrives_perm _).mem_iff, List.mem_filter] at hd
        exact ⟨d, hd.1, hd.2, g⟩
    · rintro ⟨d, h1, h2, h3⟩
      rw [if_neg]
      simp only [List.all_eq_true, decide_eq_true_eq, Classical.not_forall]
      exact ⟨d, by rw [(sortDrives_perm _).mem_iff, List.mem_filter]; exact ⟨h1, h2⟩, h3⟩
  · intro ds h
    refine ⟨fun d => ?_, ?_⟩
    · rw [findDrives_mem h, used_iff hs]; rfl
    · unfold findDrives at h
      simp only [] at h
      split at h
      · cases h
        have hp := sortDrives_sorted (s.devices.filter c.pattern)
        have hd : (sortDrives (s.devices.filter c.pattern)).Nodup := (sortDrives_perm _).nodup_iff.mpr (hn.sublist List.filter_sublist)
        have hb : (sortDrives (s.devices.filter c.pattern)).Pairwise Before := by
          refine (hp.and hd).imp ?_
          rintro a b ⟨h1, h2⟩
          simp only [driveLe, Bool.or_eq_true, Bool.and_eq_true, decide_eq_true_eq] at h1
          rcases h1 with h1 | ⟨h1, h3⟩
          · exact .inl h1
          · exact .inr ⟨h1, h2, h3⟩
        exact hb.sublist List.filter_sublist
      · cases h

/-- The drives of two letters come after those of one. -/
def sysEx : Sys where
  devices := [['s', 'd', 'a', 'a'], ['s', 'd', 'c'], ['s', 'd', 'b'], ['s', 'd', 'a']]
  minor := fun _ => 16
  serial := fun d => if d = ['s', 'd', 'a'] then some ['R'] else if d = ['s', 'd', 'c'] then none else some ['K']
  sysfs := fun _ => none

def cfgEx : Config where
  pattern := fun _ => true
  serials := fun t => t == ['K'] || t == ['R']
  sysfsIds := fun _ => false
  reserved := fun t _ => t == ['R']
  mountPath := ['/', 'k']
  labelToPath := fun l _ => some (['/', 'k', '/'] ++ l)

example : Sane cfgEx sysEx ∧ sysEx.devices.Nodup ∧ findDrives cfgEx sysEx = some [['s', 'd', 'b'], ['s', 'd', 'a', 'a']] := by
  refine ⟨⟨rfl, rfl, ?_, ?_⟩, by decide, by decide +kernel⟩
  · intro d; unfold sysEx; simp only []; split
    · decide
    · split <;> decide
  · intro d; unfold sysEx; simp

/-- A drive whose serial number is `0` is not found, although it is listed. -/
theorem drives_zero_false : ∃ (c : Config) (s : Sys) (d : Text), Allowed c s d ∧ findDrives c s = some [] :=
  ⟨{ cfgEx with serials := fun t => t == ['0'] }, { sysEx with devices := [['s', 'd', 'a']], serial := fun _ => some ['0'] }, ['s', 'd', 'a'],
    ⟨by decide, rfl, .inl ⟨['0'], rfl, rfl⟩, rfl⟩, by decide +kernel⟩

/-! ## partition -/

/-- The actions and the world after the loop, for drives that are all different. -/
theorem partitionLoop_spec (env : Env) (ok : Text → Bool) (ds : List Text) (hd : ds.Nodup) (w : World) :
    (∀ a ∈ (partitionLoop env ok ds w).acts, ∃ d ∈ ds, ok d = false ∧ (a = .wipe d ∨ a = .table d)) ∧
    (∀ d, (d ∉ ds ∨ ok d = true) → (partitionLoop env ok ds w).world.disk d = w.disk d) ∧
    (partitionLoop env ok ds w).world.mounts = w.mounts ∧
    ((partitionLoop env ok ds w).ok = true → ((partitionLoop env ok ds w).acts = [] ↔ ∀ d ∈ ds, ok d = true)) := by
  induction ds generalizing w with
  | nil => exact ⟨by intro a ha; simp [partitionLoop] at ha, fun _ _ => rfl, rfl, by intro _; simp [partitionLoop]⟩
  | cons d ds ih =>
    simp only [List.nodup_cons] at hd
    unfold partitionLoop
    by_cases hk : ok d = true
    · rw [if_pos hk]
      obtain ⟨i1, i2, i3, i4⟩ := ih hd.2 w
      refine ⟨?_, ?_, i3, ?_⟩
      · intro a ha
        obtain ⟨e, he, r⟩ := i1 a ha
        exact ⟨e, List.mem_cons_of_mem _ he, r⟩
      · intro e he
        refine i2 e ?_
        rcases he with he | he
        · exact .inl fun hm => he (List.mem_cons_of_mem _ hm)
        · exact .inr he
      · intro ho
        rw [i4 ho]
        simp [hk]
    · rw [if_neg hk]
      have hkf : ok d = false := by simpa using hk
      have hsd : ∀ (w : World) (x : Disk) (e : Text), (e ∉ d :: ds ∨ ok e = true) → (setDisk w d x).disk e = w.disk e := by
        intro w x e he
        have : e ≠ d := by
          rintro rfl
          rcases he with he | he
          · exact he (List.mem_cons_self ..)
          · exact hk he
        simp [setDisk, this]
      simp only []
      by_cases h1 : env.works (.wipe d) = true
      · rw [if_pos h1]
        by_cases h2 : env.works (.table d) = true
        · rw [if_pos h2]
          obtain ⟨i1, i2, i3, i4⟩ := ih hd.2 (setDisk w d (env.after d))
          refine ⟨?_, ?_, ?_, ?_⟩
          · intro a ha
            simp only [List.mem_cons] at ha
            rcases ha with rfl | rfl | ha
            · exact ⟨d, List.mem_cons_self .., hkf, .inl rfl⟩
            · exact ⟨d, List.mem_cons_self .., hkf, .inr rfl⟩
            · obtain ⟨e, he, r⟩ := i1 a ha
              exact ⟨e, List.mem_cons_of_mem _ he, r⟩
          · intro e he
            have he' : e ∉ ds ∨ ok e = true := by
              rcases he with he | he
              · exact .inl fun hm => he (List.mem_cons_of_mem _ hm)
              · exact .inr he
            show (partitionLoop env ok ds (setDisk w d (env.after d))).world.disk e = _
            rw [i2 e he', hsd w _ e he]
          · exact i3
          · intro _
            simp [hkf]
        · rw [if_neg h2]
          refine ⟨?_, fun e he => hsd w _ e he, rfl, by intro h; cases h⟩
          intro a ha
          simp only [List.mem_cons, List.not_mem_nil, or_false] at ha
          exact ⟨d, List.mem_cons_self .., hkf, ha⟩
      · rw [if_neg h1]
        refine ⟨?_, fun e he => hsd w _ e he, rfl, by intro h; cases h⟩
        intro a ha
        simp only [List.mem_cons, List.not_mem_nil, or_false] at ha
        exact ⟨d, List.mem_cons_self .., hkf, .inl ha⟩

theorem findDrives_nodup {c : Config} {s : Sys} {ds : List Text} (hn : s.devices.Nodup) (h : findDrives c s = some ds) : ds.Nodup := by
  unfold findDrives at h
  simp only [] at h
  split at h
  · cases h
    exact ((sortDrives_perm _).nodup_iff.mpr (hn.sublist List.filter_sublist)).sublist List.filter_sublist
  · cases h

/-- What `partition` does in terms of its loop. -/
theorem partition_eq {c : Config} {s : Sys} {env : Env} {w : World} {r : Out} (h : partition c s env w = some r) :
    ∃ ds, findDrives c s = some ds ∧ r.acts = (partitionLoop env (fun d => (w.disk d).tableOk) ds w).acts ∧
      r.world = (partitionLoop env (fun d => (w.disk d).tableOk) ds w).world ∧
      (r.ok = true → (partitionLoop env (fun d => (w.disk d).tableOk) ds w).ok = true ∧ (r.acts = [] ∨ ∀ d ∈ ds, (r.world.disk d).tableOk = true)) := by
  unfold partition at h
  obtain ⟨ds, hf, h⟩ := Option.map_eq_some_iff.mp h
  refine ⟨ds, hf, ?_⟩
  simp only [] at h
  generalize partitionLoop env (fun d => (w.disk d).tableOk) ds w = o at h
  split at h
  · rename_i ho
    split at h
    · rename_i ha
      subst h
      exact ⟨rfl, rfl, fun _ => ⟨ho, .inl ha⟩⟩
    · subst h
      refine ⟨rfl, rfl, fun hk => ⟨ho, .inr ?_⟩⟩
      simpa using hk
  · rename_i ho
    subst h
    exact ⟨rfl, rfl, fun hk => absurd hk ho⟩

/-- C171: only drives of the configuration whose table is not correct are written to. Nothing else changes. When it ends well every drive's table is correct. -/
theorem partition_writes (c : Config) (s : Sys) (env : Env) (w : World) (hs : Sane c s) (hn : s.devices.Nodup) (r : Out) (h : partition c s env w = some r) :
    (∀ a ∈ r.acts, ∃ d, Allowed c s d ∧ (w.disk d).tableOk = false ∧ a.target = some (dev ++ d)) ∧
    (∀ d, (¬ Allowed c s d ∨ (w.disk d).tableOk = true) → r.world.disk d = w.disk d) ∧ r.world.mounts = w.mounts ∧
    (r.ok = true → ∀ d, Allowed c s d → (r.world.disk d).tableOk = true) := by
  obtain ⟨ds, hf, h1, h2, h3⟩ := partition_eq h
  obtain ⟨i1, i2, i3, i4⟩ := partitionLoop_spec env (fun d => (w.disk d).tableOk) ds (findDrives_nodup hn hf) w
  have hm := ((drives_partial c s hs hn).2 ds hf).1
  refine ⟨?_, ?_, ?_, ?_⟩
  · intro a ha
    rw [h1] at ha
    obtain ⟨d, hd, hk, he⟩ := i1 a ha
    refine ⟨d, (hm d).mp hd, hk, ?_⟩
    rcases he with rfl | rfl <;> rfl
  · intro d hd
    rw [h2]
    refine i2 d ?_
    rcases hd with hd | hd
    · exact .inl fun hmm => hd ((hm d).mp hmm)
    · exact .inr hd
  · rw [h2, i3]
  · intro ho d hd
    obtain ⟨g1, g2⟩ := h3 ho
    have hd' := (hm d).mpr hd
    rcases g2 with g2 | g2
    · rw [h1] at g2
      have := (i4 g1).mp g2 d hd'
      rw [h2, i2 d (.inr this)]
      exact this
    · exact g2 d hd'

/-- C171: after a run that ended well, another one writes nothing and ends well. -/
theorem partition_again (c : Config) (s : Sys) (env env' : Env) (w : World) (hs : Sane c s) (hn : s.devices.Nodup) (r : Out) (h : partition c s env w = some r) (ho : r.ok = true) :
    partition c s env' r.world = some ⟨[], r.world, true⟩ := by
  obtain ⟨ds, hf, _⟩ := partition_eq h
  have hm := ((drives_partial c s hs hn).2 ds hf).1
  have ht := (partition_writes c s env w hs hn r h).2.2.2 ho
  have key : ∀ l : List Text, (∀ d ∈ l, (r.world.disk d).tableOk = true) → partitionLoop env' (fun d => (r.world.disk d).tableOk) l r.world = ⟨[], r.world, true⟩ := by
    intro l hl
    induction l with
    | nil => rfl
    | cons d l ih =>
      unfold partitionLoop
      rw [if_pos (hl d (List.mem_cons_self ..))]
      exact ih fun e he => hl e (List.mem_cons_of_mem _ he)
  unfold partition
  rw [hf]
  simp only [Option.map_some, Option.some.injEq]
  rw [key ds fun d hd => ht d ((hm d).mp hd)]
  rfl

/-- A drive without a correct table gets one; the other is left alone. -/
def worldEx : World where
  disk := fun d => if d = ['s', 'd', 'b'] then ⟨true, ['x']⟩ else ⟨false, []⟩
  mounts := []

def envEx : Env where
  works := fun _ => true
  after := fun _ => ⟨true, []⟩

example : (partition cfgEx sysEx envEx worldEx).map (fun r => (r.acts, r.ok)) = some ([.wipe ['s', 'd', 'a', 'a'], .table ['s', 'd', 'a', 'a']], true) := by decide +kernel

/-- A drive that is in use is written to if its only fault is a table of another kind. -/
theorem partition_mounted_false : ∃ (c : Config) (s : Sys) (env : Env) (w : World) (r : Out) (d p : Text), Sane c s ∧ s.devices.Nodup ∧ partition c s env w = some r ∧
    partOf d = some p ∧ visible w (c.mountPath ++ ['/', 'x']) = some p ∧ .wipe d ∈ r.acts := by
  refine ⟨{ cfgEx with reserved := fun _ _ => false }, { sysEx with devices := [['s', 'd', 'b']], serial := fun _ => some ['K'] }, envEx,
    { disk := fun _ => ⟨false, ['x']⟩, mounts := [(['/', 'd', 'e', 'v', '/', 's', 'd', 'b', '1'], ['/', 'k', '/', 'x'])] }, _, ['s', 'd', 'b'],
    ['/', 'd', 'e', 'v', '/', 's', 'd', 'b', '1'], ⟨rfl, rfl, fun _ => by simp, fun _ => by simp [sysEx]⟩, by decide, rfl, by decide, by decide, List.mem_cons_self ..⟩

end Verif.Disktool
