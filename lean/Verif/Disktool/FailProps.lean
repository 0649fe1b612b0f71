import Verif.Disktool.UmountProps

/-!
# `lintel-disktool fail` (C176)
-/

namespace Verif.Disktool

/-- What is mounted below the mount path is the first partition of a drive. -/
def Drives (mp : Text) (w : World) : Prop := ∀ p x, Plain x → (p, mp ++ '/' :: x) ∈ w.mounts → ∃ d, partOf d = some p

theorem Drives.ours {mp : Text} {w : World} (h : Drives mp w) : Ours mp w := fun p x hx hp => (h p x hx hp).elim fun _ hd => partOf_part1 hd

theorem sdDrive_partOf {d p : Text} (h : partOf d = some p) : sdDrive p = if isSd d then some d else none := by
  rcases partOf_cases h with ⟨h1, rfl⟩ | ⟨h1, rfl⟩
  · obtain ⟨r, rfl⟩ := isCciss_head h1
    have hs : isSd ('c' :: r) = false := rfl
    rw [hs]
    unfold sdDrive
    rw [if_neg]
    · simp
    · have : ((dev ++ 'c' :: r ++ ['p', '1']).drop 5).dropLast = 'c' :: (r ++ ['p']) := by
        have e : dev ++ 'c' :: r ++ ['p', '1'] = dev ++ (('c' :: (r ++ ['p'])) ++ ['1']) := by simp
        rw [e, show (5 : Nat) = dev.length from rfl, List.drop_left, List.dropLast_concat]
      rw [this]
      simp [isSd]
  · unfold sdDrive
    have e : ((dev ++ d ++ ['1']).drop 5).dropLast = d := by
      rw [List.append_assoc, show (5 : Nat) = dev.length from rfl, List.drop_left, List.dropLast_concat]
    rw [e, h1, if_pos, if_pos rfl]
    have : dev.isPrefixOf (dev ++ d ++ ['1']) = true := by simp [dev]
    rw [this]
    simp

theorem ccissDrive_partOf {d p : Text} (h : partOf d = some p) (hs : isSd d = false) : ccissDrive p = d := by
  rcases partOf_cases h with ⟨h1, rfl⟩ | ⟨h1, rfl⟩
  · unfold ccissDrive
    have e : ((dev ++ d ++ ['p', '1']).drop 5).take ((dev ++ d ++ ['p', '1']).length - 7) = d := by
      rw [List.append_assoc, show (5 : Nat) = dev.length from rfl, List.drop_left]
      have : (dev ++ (d ++ ['p', '1'])).length - 7 = d.length := by simp [dev]
      rw [this, List.take_left]
    rw [e, h1, if_pos]
    have h2 : dev.isPrefixOf (dev ++ d ++ ['p', '1']) = true := by simp [dev]
    have h3 : ['p', '1'].isSuffixOf (dev ++ d ++ ['p', '1']) = true := by
      rw [List.isSuffixOf_iff_suffix]
      exact List.suffix_append _ _
    rw [h2, h3]; rfl
  · rw [h1] at hs; cases hs

theorem victim_spec (link : Text → Option Text) (mangle : Bool) {d p : Text} (h : partOf d = some p) (v : Victim) (hv : victim link mangle p = some v) :
    v.device = dev ++ d ∧ (mangle = false → ∃ a, link d = some a ∧ v.scsi = some a) := by
  unfold victim at hv
  rw [sdDrive_partOf h] at hv
  cases hs : isSd d with
  | true =>
    rw [hs] at hv
    simp only [if_true] at hv
    obtain ⟨a, ha, rfl⟩ := Option.map_eq_some_iff.mp hv
    exact ⟨rfl, fun _ => ⟨a, ha, rfl⟩⟩
  | false =>
    rw [hs] at hv
    simp only [Bool.false_eq_true, if_false] at hv
    split at hv
    · rename_i hmt
      cases hv
      rw [ccissDrive_partOf h hs]
      exact ⟨rfl, fun hm => (by rw [hmt] at hm; cases hm)⟩
    · cases hv

theorem victims_spec (link : Text → Option Text) (m : List (Text × Text)) (mangle : Bool) (xs seen : List Text) (vs : List Victim) (h : victims link m mangle xs seen = some vs) :
    vs.map some = xs.map fun x => (mountedAt m x).bind (victim link mangle) := by
  induction xs generalizing seen vs with
  | nil => cases h; rfl
  | cons x xs ih =>
    rw [victims] at h
    cases hv : (mountedAt m x).bind (victim link mangle) with
    | none => rw [hv] at h; cases h
    | some v =>
      rw [hv] at h
      simp only [] at h
      split at h
      · cases h
      · obtain ⟨us, hus, rfl⟩ := Option.map_eq_some_iff.mp h
        rw [List.map_cons, List.map_cons, ih _ _ hus, hv]

theorem failLoop_acts (env : Env) (destroy mangle : Bool) (vs : List Victim) :
    (∀ a ∈ (failLoop env destroy mangle vs).1, ∃ v ∈ vs, (a = .overwrite v.device ∧ (destroy = true ∨ mangle = true)) ∨ (a = .remove (v.scsi.getD []) ∧ mangle = false)) ∧
    ((failLoop env destroy mangle vs).2 = true → ∀ v ∈ vs, ((destroy = true ∨ mangle = true) → .overwrite v.device ∈ (failLoop env destroy mangle vs).1) ∧
      (mangle = false → .remove (v.scsi.getD []) ∈ (failLoop env destroy mangle vs).1)) ∧
    (∀ a ∈ (failLoop env destroy mangle vs).1.dropLast, env.works a = true) := by
  induction vs with
  | nil => exact ⟨fun _ h => (by cases h), fun _ _ h => (by cases h), fun _ h => (by cases h)⟩
  | cons v vs ih =>
    obtain ⟨i1, i2, i3⟩ := ih
    have g1 : ∀ a ∈ (failLoop env destroy mangle vs).1, ∃ u ∈ v :: vs, (a = .overwrite u.device ∧ (destroy = true ∨ mangle = true)) ∨ (a = .remove (u.scsi.getD []) ∧ mangle = false) := by
      intro a ha
      obtain ⟨u, hu, r⟩ := i1 a ha
      exact ⟨u, List.mem_cons_of_mem _ hu, r⟩
    have drop : ∀ (l k : List Act), (∀ a ∈ l, env.works a = true) → (∀ a ∈ k.dropLast, env.works a = true) → ∀ a ∈ (l ++ k).dropLast, env.works a = true := by
      intro l k hl hk a ha
      cases k with
      | nil => rw [List.append_nil] at ha; exact hl a ((List.dropLast_sublist l).subset ha)
      | cons b k =>
        rw [List.dropLast_append_of_ne_nil (by simp)] at ha
        rcases List.mem_append.mp ha with ha | ha
        · exact hl a ha
        · exact hk a ha
    have last : ∀ (a b : List Act), (∀ x ∈ a, env.works x = true) → b.length ≤ 1 → ∀ x ∈ (a ++ b).dropLast, env.works x = true := by
      intro a b ha hb
      refine drop a b ha ?_
      match b, hb with
      | [], _ => intro x hx; cases hx
      | [y], _ => intro x hx; cases hx
    rw [failLoop]
    have ha1 : ∀ x ∈ (if (destroy || mangle) = true then [Act.overwrite v.device] else []), x = .overwrite v.device ∧ (destroy = true ∨ mangle = true) := by
      intro x hx
      split at hx
      · rename_i hdm
        rw [Bool.or_eq_true] at hdm
        exact ⟨List.mem_singleton.mp hx, hdm⟩
      · cases hx
    have ha2 : (destroy = true ∨ mangle = true) → Act.overwrite v.device ∈ (if (destroy || mangle) = true then [Act.overwrite v.device] else []) := by
      intro h
      rw [if_pos (by rw [Bool.or_eq_true]; exact h)]
      exact List.mem_cons_self ..
    have ha3 : (if (destroy || mangle) = true then [Act.overwrite v.device] else []).length ≤ 1 := by split <;> simp
    have hb1 : ∀ x ∈ (if mangle = true then [] else [Act.remove (v.scsi.getD [])]), x = .remove (v.scsi.getD []) ∧ mangle = false := by
      intro x hx
      split at hx
      · cases hx
      · rename_i hm
        exact ⟨List.mem_singleton.mp hx, by simpa using hm⟩
    have hb2 : mangle = false → Act.remove (v.scsi.getD []) ∈ (if mangle = true then [] else [Act.remove (v.scsi.getD [])]) := by
      intro h
      rw [if_neg (by rw [h]; simp)]
      exact List.mem_cons_self ..
    have hb3 : (if mangle = true then [] else [Act.remove (v.scsi.getD [])]).length ≤ 1 := by split <;> simp
    generalize (if (destroy || mangle) = true then [Act.overwrite v.device] else []) = A at *
    generalize (if mangle = true then [] else [Act.remove (v.scsi.getD [])]) = B at *
    have hA : ∀ x ∈ A, ∃ u ∈ v :: vs, (x = .overwrite u.device ∧ (destroy = true ∨ mangle = true)) ∨ (x = .remove (u.scsi.getD []) ∧ mangle = false) :=
      fun x hx => ⟨v, List.mem_cons_self .., .inl (ha1 x hx)⟩
    have hB : ∀ x ∈ B, ∃ u ∈ v :: vs, (x = .overwrite u.device ∧ (destroy = true ∨ mangle = true)) ∨ (x = .remove (u.scsi.getD []) ∧ mangle = false) :=
      fun x hx => ⟨v, List.mem_cons_self .., .inr (hb1 x hx)⟩
    by_cases hwa : A.all env.works = true
    · rw [if_pos hwa]
      rw [List.all_eq_true] at hwa
      by_cases hwb : B.all env.works = true
      · rw [if_pos hwb]
        rw [List.all_eq_true] at hwb
        refine ⟨?_, ?_, ?_⟩
        · intro x hx
          rcases List.mem_append.mp hx with hx | hx
          · rcases List.mem_append.mp hx with hx | hx
            · exact hA x hx
            · exact hB x hx
          · exact g1 x hx
        · intro hok u hu
          rcases List.mem_cons.mp hu with rfl | hu
          · exact ⟨fun h => List.mem_append_left _ (List.mem_append_left _ (ha2 h)), fun h => List.mem_append_left _ (List.mem_append_right _ (hb2 h))⟩
          · exact ⟨fun h => List.mem_append_right _ ((i2 hok u hu).1 h), fun h => List.mem_append_right _ ((i2 hok u hu).2 h)⟩
        · refine drop _ _ ?_ i3
          intro x hx
          rcases List.mem_append.mp hx with hx | hx
          · exact hwa x hx
          · exact hwb x hx
      · rw [if_neg hwb]
        refine ⟨?_, fun h => (by cases h), last A B hwa hb3⟩
        intro x hx
        rcases List.mem_append.mp hx with hx | hx
        · exact hA x hx
        · exact hB x hx
    · rw [if_neg hwa]
      refine ⟨hA, fun h => (by cases h), ?_⟩
      have := last [] A (fun _ h => (by cases h)) ha3
      exact this

theorem fail_eq {c : Config} {env : Env} {link : Text → Option Text} {destroy mangle : Bool} {paths : List Text} {w : World} {r : List Act × Bool}
    (h : fail c env link destroy mangle paths w = some r) :
    ∃ m vs, getMounted c.mountPath w = some m ∧ victims link m mangle (paths.map (stripPath c.mountPath)) [] = some vs ∧ r = failLoop env destroy mangle vs := by
  unfold fail at h
  split at h
  · cases h
  · split at h
    · cases h
    · rename_i m hm
      simp only [] at h
      split at h
      · obtain ⟨vs, hv, rfl⟩ := Option.map_eq_some_iff.mp h
        exact ⟨m, vs, hm, hv, rfl⟩
      · cases h

/-- The path names a drive by the directory where it is mounted: the whole path, or the last part of it. -/
def Names (c : Config) (w : World) (path d : Text) : Prop :=
  ∃ x p, Plain x ∧ (path = c.mountPath ++ '/' :: x ∨ path = x) ∧ partOf d = some p ∧ (p, c.mountPath ++ '/' :: x) ∈ w.mounts

theorem stripPath_plain (mp path : Text) : (path = mp ++ '/' :: stripPath mp path) ∨ path = stripPath mp path := by
  unfold stripPath
  split
  · rename_i h
    left
    rw [List.isPrefixOf_iff_prefix] at h
    obtain ⟨t, rfl⟩ := h
    rw [List.append_assoc]
    congr 1
    rw [List.drop_append]
    have : List.drop (mp.length + 1) mp = [] := List.drop_eq_nil_of_le (by omega)
    rw [this]
    simp
  · exact .inr rfl

/-- C176: as long as only first partitions of drives are mounted below the mount path: `fail` does nothing at all unless each of the paths names a mounted drive; it overwrites nothing but these drives, and only if asked to; it removes nothing but these drives, and none with `mangle`; it goes on only while everything works; and if it ends well,
all of them are overwritten or removed as asked. -/
theorem fail_partial (c : Config) (env : Env) (link : Text → Option Text) (destroy mangle : Bool) (paths : List Text) (w : World) (hd : Drives c.mountPath w) (r : List Act × Bool)
    (h : fail c env link destroy mangle paths w = some r) :
    (∀ path ∈ paths, ∃ d, Names c w path d) ∧
    (∀ a ∈ r.1, ∃ path ∈ paths, ∃ d, Names c w path d ∧
      ((a = .overwrite (dev ++ d) ∧ (destroy = true ∨ mangle = true)) ∨ (mangle = false ∧ ∃ t, link d = some t ∧ a = .remove t))) ∧
    (∀ a ∈ r.1.dropLast, env.works a = true) ∧
    (r.2 = true → ∀ path ∈ paths, ∃ d, Names c w path d ∧
      ((destroy = true ∨ mangle = true) → .overwrite (dev ++ d) ∈ r.1) ∧ (mangle = false → ∃ t, link d = some t ∧ .remove t ∈ r.1)) := by
  obtain ⟨m, vs, hm, hv, rfl⟩ := fail_eq h
  obtain ⟨-, n1, n2⟩ := getMounted_nodup hm
  have hvs := victims_spec link m mangle _ _ vs hv
  have hname : ∀ path v, (mountedAt m (stripPath c.mountPath path)).bind (victim link mangle) = some v →
      ∃ d, Names c w path d ∧ v.device = dev ++ d ∧ (mangle = false → ∃ a, link d = some a ∧ v.scsi = some a) := by
    intro path v hb
    obtain ⟨p, hp, hb⟩ := Option.bind_eq_some_iff.mp hb
    obtain ⟨g1, g2, g3⟩ := (getMounted_mem hm _ _).mp ((mountedAt_iff n1 _ _).mp hp)
    obtain ⟨d, hpd⟩ := hd p _ g3 g1
    obtain ⟨k1, k2⟩ := victim_spec link mangle hpd v hb
    exact ⟨d, ⟨_, p, g3, stripPath_plain .., hpd, g1⟩, k1, k2⟩
  rw [List.map_map] at hvs
  have hto : ∀ v ∈ vs, ∃ path ∈ paths, (mountedAt m (stripPath c.mountPath path)).bind (victim link mangle) = some v := by
    intro v hvm
    have : some v ∈ vs.map some := List.mem_map.mpr ⟨v, hvm, rfl⟩
    rw [hvs] at this
    obtain ⟨path, hp, he⟩ := List.mem_map.mp this
    exact ⟨path, hp, he⟩
  have hfrom : ∀ path ∈ paths, ∃ v ∈ vs, (mountedAt m (stripPath c.mountPath path)).bind (victim link mangle) = some v := by
    intro path hp
    have : ((fun x => (mountedAt m x).bind (victim link mangle)) ∘ stripPath c.mountPath) path ∈ vs.map some := by
      rw [hvs]
      exact List.mem_map.mpr ⟨path, hp, rfl⟩
    obtain ⟨v, hvm, he⟩ := List.mem_map.mp this
    exact ⟨v, hvm, he.symm⟩
  obtain ⟨f1, f2, f3⟩ := failLoop_acts env destroy mangle vs
  refine ⟨?_, ?_, f3, ?_⟩
  · intro path hp
    obtain ⟨v, _, hb⟩ := hfrom path hp
    obtain ⟨d, hn, _⟩ := hname path v hb
    exact ⟨d, hn⟩
  · intro a ha
    obtain ⟨v, hvm, hor⟩ := f1 a ha
    obtain ⟨path, hp, hb⟩ := hto v hvm
    obtain ⟨d, hn, k1, k2⟩ := hname path v hb
    refine ⟨path, hp, d, hn, ?_⟩
    rcases hor with ⟨rfl, h2⟩ | ⟨rfl, h2⟩
    · exact .inl ⟨by rw [k1], h2⟩
    · obtain ⟨t, ht, hs⟩ := k2 h2
      exact .inr ⟨h2, t, ht, by rw [hs]; rfl⟩
  · intro hok path hp
    obtain ⟨v, hvm, hb⟩ := hfrom path hp
    obtain ⟨d, hn, k1, k2⟩ := hname path v hb
    obtain ⟨q1, q2⟩ := f2 hok v hvm
    refine ⟨d, hn, ?_, ?_⟩
    · intro h1
      rw [← k1]; exact q1 h1
    · intro h1
      obtain ⟨t, ht, hs⟩ := k2 h1
      refine ⟨t, ht, ?_⟩
      have := q2 h1
      rw [hs] at this
      exact this

def cc1 : Text := ['/', 'd', 'e', 'v', '/', 'c', 'c', 'i', 's', 's', '/', 'c', '0', 'd', '1', 'p', '1']

/-- A SCSI disk and a disk of a Smart Array controller. -/
def worldX : World where
  disk := fun _ => ⟨true, []⟩
  mounts := [(sdb1, ['/', 'k', '/', '1']), (cc1, ['/', 'k', '/', '2'])]

example : Drives cfgF.mountPath worldX ∧
    fail cfgF envEx (fun _ => some ['0', ' ', '0', ' ', '1', ' ', '0']) true false [['1']] worldX = some ([.overwrite ['/', 'd', 'e', 'v', '/', 's', 'd', 'b'], .remove ['0', ' ', '0', ' ', '1', ' ', '0']], true) ∧
    fail cfgF envEx (fun _ => some []) false true [['/', 'k', '/', '2'], ['1']] worldX =
      some ([.overwrite ['/', 'd', 'e', 'v', '/', 'c', 'c', 'i', 's', 's', '/', 'c', '0', 'd', '1'], .overwrite ['/', 'd', 'e', 'v', '/', 's', 'd', 'b']], true) ∧
    fail cfgF envEx (fun _ => some []) false true [['1'], ['3']] worldX = none := by
  refine ⟨?_, by decide +kernel, by decide +kernel, by decide +kernel⟩
  intro p x _ h
  simp only [worldX, List.mem_cons, Prod.mk.injEq, List.not_mem_nil, or_false] at h
  rcases h with ⟨rfl, _⟩ | ⟨rfl, _⟩
  · exact ⟨sdb, by decide⟩
  · exact ⟨['c', 'c', 'i', 's', 's', '/', 'c', '0', 'd', '1'], by decide⟩

/-- The eleventh partition of a drive passes the check, which has no `$`: the drive named before it is overwritten, and then a file below `/dev//dev` that is no drive. -/
theorem fail_eleventh_false : ∃ (c : Config) (env : Env) (w : World) (r : List Act × Bool),
    fail c env (fun _ => none) false true [['2'], ['1']] w = some r ∧ r.1 = [.overwrite (dev ++ ['c', 'c', 'i', 's', 's', '/', 'c', '0', 'd', '1']), .overwrite (dev ++ sdb1 ++ ['1'])] :=
  ⟨cfgF, envEx, { worldX with mounts := [(sdb1 ++ ['1'], ['/', 'k', '/', '1']), (cc1, ['/', 'k', '/', '2'])] }, _, rfl, by decide +kernel⟩

end Verif.Disktool
