import Verif.Disktool.Listing
import Verif.Disktool.DriveProps

/-! # lintel-disktool list (C251) -/

namespace Verif.Disktool

theorem orEmpty_sane (o : Option Text) (h : o ≠ some ['0']) : orEmpty o = o.getD [] := by
  cases o with
  | none => rfl
  | some t =>
    have : t ≠ ['0'] := fun e => h (by rw [e])
    simp [orEmpty, this]

theorem serial_iff (o : Option Text) (h : o ≠ some ['0']) (t : Text) (ht : t ≠ []) : orEmpty o = t ↔ o = some t := by
  rw [orEmpty_sane o h]
  cases o with
  | none => simp [Ne.symm ht]
  | some u => simp

/-- The fields of the listing. -/
theorem list_eq {c : Config} {s : Sys} {known : Option (List Text)} {args : List Text} {r : Listing} (h : list c s known args = some r) :
    r = { used := (sortDrives (s.devices.filter c.pattern)).filter (used c s)
          unused := (sortDrives (s.devices.filter c.pattern)).filter fun d => !isReserved c s d && !used c s d
          unusedSerials := ((sortDrives (s.devices.filter c.pattern)).filter fun d => !isReserved c s d && !used c s d).map fun d => orEmpty (s.serial d)
          unusedIds := ((sortDrives (s.devices.filter c.pattern)).filter fun d => !isReserved c s d && !used c s d).map fun d => orEmpty (s.sysfs d)
          reserved := (sortDrives (s.devices.filter c.pattern)).filter (isReserved c s)
          lost := known.map fun k => k.filter fun t => !((sortDrives (s.devices.filter c.pattern)).map fun d => orEmpty (s.serial d)).contains t
          unknown := known.map fun k =>
            (((sortDrives (s.devices.filter c.pattern)).filter fun d => !isReserved c s d && !used c s d).map fun d => orEmpty (s.serial d)).filter fun t => !k.contains t
          info := args.map (infoOf s (sortDrives (s.devices.filter c.pattern))) } ∧
    ∀ d ∈ s.devices, c.pattern d = true → s.minor d % 16 = 0 := by
  unfold list at h
  simp only [] at h
  split at h
  · rename_i hall
    cases h
    refine ⟨rfl, fun d hd hp => ?_⟩
    simp only [List.all_eq_true, decide_eq_true_eq] at hall
    exact hall d (by rw [(sortDrives_perm _).mem_iff, List.mem_filter]; exact ⟨hd, hp⟩)
  · cases h

theorem cand_mem (c : Config) (s : Sys) (d : Text) : d ∈ sortDrives (s.devices.filter c.pattern) ↔ d ∈ s.devices ∧ c.pattern d = true := by
  rw [(sortDrives_perm _).mem_iff, List.mem_filter]

theorem cand_before (c : Config) (s : Sys) (hn : s.devices.Nodup) : (sortDrives (s.devices.filter c.pattern)).Pairwise Before := by
  have hp := sortDrives_sorted (s.devices.filter c.pattern)
  have hd : (sortDrives (s.devices.filter c.pattern)).Nodup := (sortDrives_perm _).nodup_iff.mpr (hn.sublist List.filter_sublist)
  refine (hp.and hd).imp ?_
  rintro a b ⟨h1, h2⟩
  simp only [driveLe, Bool.or_eq_true, Bool.and_eq_true, decide_eq_true_eq] at h1
  rcases h1 with h1 | ⟨h1, h3⟩
  · exact .inl h1
  · exact .inr ⟨h1, h2, h3⟩

/-! ## C251 -/

/-- It fails exactly if a pattern also matches a partition. -/
theorem list_dies (c : Config) (s : Sys) (known : Option (List Text)) (args : List Text) :
    list c s known args = none ↔ ∃ d ∈ s.devices, c.pattern d = true ∧ s.minor d % 16 ≠ 0 := by
  constructor
  · intro h
    unfold list at h
    simp only [] at h
    split at h
    · cases h
    · rename_i g
      simp only [List.all_eq_true, decide_eq_true_eq, Classical.not_forall] at g
      obtain ⟨d, hd, g⟩ := g
      rw [cand_mem] at hd
      exact ⟨d, hd.1, hd.2, g⟩
  · rintro ⟨d, h1, h2, h3⟩
    cases h : list c s known args with
    | none => rfl
    | some r => exact absurd ((list_eq h).2 d h1 h2) h3

/-- Every drive that matches a pattern is in exactly one of the three lists; nothing else is; each list is in drive order. -/
theorem list_sorts (c : Config) (s : Sys) (hs : Sane c s) (hn : s.devices.Nodup) (known : Option (List Text)) (args : List Text) (r : Listing)
    (h : list c s known args = some r) :
    (∀ d, d ∈ r.used ↔ Allowed c s d) ∧
    (∀ d, d ∈ r.reserved ↔ d ∈ s.devices ∧ c.pattern d = true ∧ c.reserved ((s.serial d).getD []) ((s.sysfs d).getD []) = true) ∧
    (∀ d, d ∈ r.unused ↔ d ∈ s.devices ∧ c.pattern d = true ∧ d ∉ r.used ∧ d ∉ r.reserved) ∧
    (∀ d, d ∈ r.used → d ∉ r.reserved) ∧
    r.used.Pairwise Before ∧ r.unused.Pairwise Before ∧ r.reserved.Pairwise Before := by
  obtain ⟨rfl, -⟩ := list_eq h
  have hb := cand_before c s hn
  have hres : ∀ d, isReserved c s d = c.reserved ((s.serial d).getD []) ((s.sysfs d).getD []) := by
    intro d
    unfold isReserved
    rw [orEmpty_sane _ (hs.noZeroSerial d), orEmpty_sane _ (hs.noZeroId d)]
  refine ⟨fun d => ?_, fun d => ?_, fun d => ?_, fun d hd hr => ?_, hb.sublist List.filter_sublist, hb.sublist List.filter_sublist, hb.sublist List.filter_sublist⟩
  · simp only [List.mem_filter, cand_mem, used_iff hs, and_assoc]
    rfl
  · simp only [List.mem_filter, cand_mem, hres, and_assoc]
  · simp only [List.mem_filter, cand_mem, and_assoc, Bool.and_eq_true, Bool.not_eq_true', ← Bool.not_eq_true]
    constructor
    · rintro ⟨h1, h2, h3, h4⟩
      exact ⟨h1, h2, fun h => h4 h.2.2, fun h => h3 h.2.2⟩
    · rintro ⟨h1, h2, h3, h4⟩
      exact ⟨h1, h2, fun h => h4 ⟨h1, h2, h⟩, fun h => h3 ⟨h1, h2, h⟩⟩
  · simp only [List.mem_filter, used_iff hs] at hd
    simp only [List.mem_filter, hres] at hr
    rw [hd.2.2] at hr
    cases hr.2

/-- The serial numbers and ids printed are those of the unused drives, in the same order; empty where a drive has none. -/
theorem list_ids (c : Config) (s : Sys) (hs : Sane c s) (known : Option (List Text)) (args : List Text) (r : Listing) (h : list c s known args = some r) :
    r.unusedSerials = r.unused.map (fun d => (s.serial d).getD []) ∧ r.unusedIds = r.unused.map (fun d => (s.sysfs d).getD []) := by
  obtain ⟨rfl, -⟩ := list_eq h
  exact ⟨List.map_congr_left fun d _ => orEmpty_sane _ (hs.noZeroSerial d), List.map_congr_left fun d _ => orEmpty_sane _ (hs.noZeroId d)⟩

/-- The known serial numbers reported as not present are exactly those that no drive matching a pattern has, in the order of the configuration. -/
theorem list_lost (c : Config) (s : Sys) (hs : Sane c s) (known : List Text) (args : List Text) (r : Listing) (h : list c s (some known) args = some r) :
    ∃ l, r.lost = some l ∧ l.Sublist known ∧
      ∀ t, t ≠ [] → (t ∈ l ↔ t ∈ known ∧ ¬ ∃ d ∈ s.devices, c.pattern d = true ∧ s.serial d = some t) := by
  obtain ⟨rfl, -⟩ := list_eq h
  refine ⟨_, rfl, List.filter_sublist, fun t ht => ?_⟩
  simp only [List.mem_filter, Bool.not_eq_true', ← Bool.not_eq_true, List.contains_iff_mem, List.mem_map, cand_mem]
  refine and_congr Iff.rfl (not_congr ?_)
  constructor
  · rintro ⟨d, ⟨h1, h2⟩, h3⟩
    exact ⟨d, h1, h2, (serial_iff _ (hs.noZeroSerial d) t ht).mp h3⟩
  · rintro ⟨d, h1, h2, h3⟩
    exact ⟨d, ⟨h1, h2⟩, (serial_iff _ (hs.noZeroSerial d) t ht).mpr h3⟩

/-- The serial numbers reported as not listed are exactly those of unused drives that are not known. Without known serials nothing is reported. -/
theorem list_unknown (c : Config) (s : Sys) (hs : Sane c s) (known : Option (List Text)) (args : List Text) (r : Listing) (h : list c s known args = some r) :
    (known = none → r.unknown = none ∧ r.lost = none) ∧
    ∀ k, known = some k → ∃ l, r.unknown = some l ∧ ∀ t, t ≠ [] → (t ∈ l ↔ t ∉ k ∧ ∃ d ∈ r.unused, s.serial d = some t) := by
  obtain ⟨rfl, -⟩ := list_eq h
  refine ⟨?_, ?_⟩
  · rintro rfl
    exact ⟨rfl, rfl⟩
  · rintro k rfl
    refine ⟨_, rfl, fun t ht => ?_⟩
    simp only [List.mem_filter (p := fun t => !k.contains t), Bool.not_eq_true', ← Bool.not_eq_true, List.contains_iff_mem, List.mem_map]
    rw [and_comm]
    refine and_congr Iff.rfl ?_
    constructor
    · rintro ⟨d, h1, h3⟩
      exact ⟨d, h1, (serial_iff _ (hs.noZeroSerial d) t ht).mp h3⟩
    · rintro ⟨d, h1, h3⟩
      exact ⟨d, h1, (serial_iff _ (hs.noZeroSerial d) t ht).mpr h3⟩

/-- Asked about a drive, by its name or its path, it prints its serial number if the drive matches a pattern. -/
theorem list_info (c : Config) (s : Sys) (hs : Sane c s) (known : Option (List Text)) (args : List Text) (r : Listing) (h : list c s known args = some r) :
    r.info.length = args.length ∧
    ∀ (i : Nat) (d : Text), (args[i]? = some (['/', 'd', 'e', 'v', '/'] ++ d) ∨ (args[i]? = some d ∧ ¬ ['/', 'd', 'e', 'v', '/'] <+: d)) →
      (d ∈ s.devices ∧ c.pattern d = true → r.info[i]? = some (d, some ((s.serial d).getD []))) ∧
      (¬ (d ∈ s.devices ∧ c.pattern d = true) → r.info[i]? = some (d, none)) := by
  obtain ⟨rfl, -⟩ := list_eq h
  refine ⟨by simp, fun i d hd => ?_⟩
  have hstrip : ∃ a, args[i]? = some a ∧ stripDev a = d := by
    rcases hd with hd | ⟨hd, hp⟩
    · exact ⟨_, hd, by simp [stripDev, dev]⟩
    · refine ⟨_, hd, ?_⟩
      unfold stripDev
      rw [if_neg]
      intro he
      exact hp (List.isPrefixOf_iff_prefix.mp he)
  obtain ⟨a, ha, hst⟩ := hstrip
  have hi : (args.map (infoOf s (sortDrives (s.devices.filter c.pattern))))[i]? = some (infoOf s (sortDrives (s.devices.filter c.pattern)) a) := by
    rw [List.getElem?_map, ha]
    rfl
  constructor
  · intro hm
    simp only [hi, infoOf, hst]
    rw [if_pos (List.contains_iff_mem.mpr ((cand_mem c s d).mpr hm)), orEmpty_sane _ (hs.noZeroSerial d)]
  · intro hm
    simp only [hi, infoOf, hst]
    rw [if_neg (fun he => hm ((cand_mem c s d).mp (List.contains_iff_mem.mp he)))]

/-- False: that a drive reported as not present is absent. One that no pattern matches is reported as well. -/
theorem list_present_false : ∃ (c : Config) (s : Sys) (d : Text), Sane c s ∧ d ∈ s.devices ∧ s.serial d = some ['K'] ∧
    (list c s (some [['K']]) []).map Listing.lost = some (some [['K']]) := by
  refine ⟨{ cfgEx with pattern := fun _ => false }, { sysEx with devices := [['s', 'd', 'b']], serial := fun _ => some ['K'] }, ['s', 'd', 'b'],
    ⟨rfl, rfl, fun d => by simp, fun d => by simp [sysEx]⟩, by decide, rfl, by decide +kernel⟩

/-- False: that every drive with a serial number that is not known is reported: a reserved one is not. -/
theorem list_unknown_false : ∃ (c : Config) (s : Sys) (d : Text), Sane c s ∧ d ∈ s.devices ∧ c.pattern d = true ∧ s.serial d = some ['R'] ∧
    (list c s (some [['K']]) []).map Listing.unknown = some (some []) := by
  refine ⟨cfgEx, { sysEx with devices := [['s', 'd', 'a']], serial := fun _ => some ['R'] }, ['s', 'd', 'a'],
    ⟨rfl, rfl, fun d => by simp, fun d => by simp [sysEx]⟩, by decide, rfl, rfl, by decide +kernel⟩

/-! ### The hypotheses are met -/

example : ((list cfgEx sysEx (some [['K'], ['M']]) [['/', 'd', 'e', 'v', '/', 's', 'd', 'b'], ['s', 'd', 'x']]).map fun r =>
    (r.used, r.unused, r.reserved, r.lost, r.unknown, r.info)) =
    some ([['s', 'd', 'b'], ['s', 'd', 'a', 'a']], [['s', 'd', 'c']], [['s', 'd', 'a']], some [['M']], some [[]],
      [(['s', 'd', 'b'], some ['K']), (['s', 'd', 'x'], none)]) := by
  rfl

end Verif.Disktool
