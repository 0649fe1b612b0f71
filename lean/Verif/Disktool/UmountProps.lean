import Verif.Disktool.MountProps

/-!
# `lintel-disktool umount` (C175)
-/

namespace Verif.Disktool

theorem umountLoop_spec (c : Config) (env : Env) (xs : List Text) (hn : xs.Nodup) (w : World) :
    (umountLoop c env xs w).world.disk = w.disk ∧
    (∀ dir, (∀ x ∈ xs, dir ≠ c.mountPath ++ '/' :: x) → on (umountLoop c env xs w).world dir = on w dir) ∧
    ((umountLoop c env xs w).ok = true → ∀ x ∈ xs, on (umountLoop c env xs w).world (c.mountPath ++ '/' :: x) = (on w (c.mountPath ++ '/' :: x)).tail) ∧
    (∀ a ∈ (umountLoop c env xs w).acts, ∃ x ∈ xs, a = .umount (c.mountPath ++ '/' :: x) ∨ (a = .rmdir (c.mountPath ++ '/' :: x) ∧ ∃ f, c.clean = some f ∧ f x = true)) ∧
    ((umountLoop c env xs w).ok = true → (umountLoop c env xs w).acts.filterMap (fun a => match a with | .umount dir => some dir | _ => none) = xs.map fun x => c.mountPath ++ '/' :: x) := by
  induction xs generalizing w with
  | nil => exact ⟨rfl, fun _ _ => rfl, fun _ _ h => (by cases h), fun _ h => (by cases h), fun _ => rfl⟩
  | cons x xs ih =>
    have hn1 := (List.nodup_cons.mp hn).1
    have hn2 := (List.nodup_cons.mp hn).2
    rw [umountLoop]
    simp only []
    have hu := umountDir_on env (c.mountPath ++ '/' :: x) w
    have hk := umountDir_disk env (c.mountPath ++ '/' :: x) w
    cases hok : (umountDir env (c.mountPath ++ '/' :: x) w).1 with
    | false =>
      simp only [Bool.false_eq_true, if_false]
      exact ⟨trivial, fun _ _ => trivial, fun h => (by cases h), by simp, fun h => (by cases h)⟩
    | true =>
      simp only [if_true]
      simp only [hok, and_true] at hu
      generalize (umountDir env (c.mountPath ++ '/' :: x) w).2 = v at *
      obtain ⟨i1, i2, i3, i4, i5⟩ := ih hn2 v
      have hself : on (umountLoop c env xs v).world (c.mountPath ++ '/' :: x) = (on w (c.mountPath ++ '/' :: x)).tail := by
        rw [i2 _ ?_, hu, if_pos rfl]
        intro y hy he
        have : x = y := by simpa using he
        subst this
        exact hn1 hy
      have hother : ∀ dir, (∀ y ∈ x :: xs, dir ≠ c.mountPath ++ '/' :: y) → on (umountLoop c env xs v).world dir = on w dir := by
        intro dir hdir
        rw [i2 dir fun y hy => hdir y (List.mem_cons_of_mem _ hy), hu, if_neg (hdir x (List.mem_cons_self ..))]
      have hoks : (umountLoop c env xs v).ok = true → ∀ y ∈ x :: xs, on (umountLoop c env xs v).world (c.mountPath ++ '/' :: y) = (on w (c.mountPath ++ '/' :: y)).tail := by
        intro ho y hy
        rcases List.mem_cons.mp hy with rfl | hys
        · exact hself
        · rw [i3 ho y hys, hu, if_neg]
          intro he
          have : y = x := by simpa using he
          subst this
          exact hn1 hys
      have hacts : ∀ a ∈ (umountLoop c env xs v).acts, ∃ y ∈ x :: xs, a = .umount (c.mountPath ++ '/' :: y) ∨ (a = .rmdir (c.mountPath ++ '/' :: y) ∧ ∃ f, c.clean = some f ∧ f y = true) := by
        intro a ha
        obtain ⟨y, hy, r⟩ := i4 a ha
        exact ⟨y, List.mem_cons_of_mem _ hy, r⟩
      cases hc : c.clean with
      | none =>
        simp only [Bool.false_eq_true, if_false]
        rw [hc] at hacts
        refine ⟨by rw [i1, hk], hother, hoks, ?_, ?_⟩
        · intro a ha
          rcases List.mem_cons.mp ha with rfl | ha
          · exact ⟨x, List.mem_cons_self .., .inl rfl⟩
          · exact hacts a ha
        · intro ho
          rw [List.filterMap_cons]
          simp only [i5 ho, List.map_cons]
      | some f =>
        rw [hc] at hacts
        cases hf : f x with
        | false =>
          simp only [hf, Bool.false_eq_true, if_false]
          refine ⟨by rw [i1, hk], hother, hoks, ?_, ?_⟩
          · intro a ha
            rcases List.mem_cons.mp ha with rfl | ha
            · exact ⟨x, List.mem_cons_self .., .inl rfl⟩
            · exact hacts a ha
          · intro ho
            rw [List.filterMap_cons]
            simp only [i5 ho, List.map_cons]
        | true =>
          simp only [hf, if_true]
          cases hw : env.works (.rmdir (c.mountPath ++ '/' :: x)) with
          | true =>
            simp only [if_true]
            refine ⟨by rw [i1, hk], hother, hoks, ?_, ?_⟩
            · intro a ha
              rcases List.mem_cons.mp ha with rfl | ha
              · exact ⟨x, List.mem_cons_self .., .inl rfl⟩
              · rcases List.mem_cons.mp ha with rfl | ha
                · exact ⟨x, List.mem_cons_self .., .inr ⟨rfl, f, rfl, hf⟩⟩
                · exact hacts a ha
            · intro ho
              rw [List.filterMap_cons]
              simp only []
              rw [List.filterMap_cons]
              simp only [i5 ho, List.map_cons]
          | false =>
            simp only [Bool.false_eq_true, if_false]
            refine ⟨hk, ?_, fun h => (by cases h), ?_, fun h => (by cases h)⟩
            · intro dir hdir
              rw [hu, if_neg (hdir x (List.mem_cons_self ..))]
            · intro a ha
              rcases List.mem_cons.mp ha with rfl | ha
              · exact ⟨x, List.mem_cons_self .., .inl rfl⟩
              · rcases List.mem_singleton.mp ha with rfl
                exact ⟨x, List.mem_cons_self .., .inr ⟨rfl, f, rfl, hf⟩⟩

/-- The directory was asked for: it matches one of the arguments, or there are none. -/
def Asked (wanted : List (Text → Bool)) (x : Text) : Prop := wanted = [] ∨ ∃ f ∈ wanted, f x = true

/-- C175: if below the mount path only partitions of drives are mounted and `umount` ends well, then those asked for are unmounted, one after the other in the order of the drives, and everything else is mounted as before; also if it fails, nothing else is unmounted, and only directories that match the pattern are removed. -/
theorem umount_partial (c : Config) (env : Env) (wanted : List (Text → Bool)) (w : World) (ho : Ours c.mountPath w) (r : Out) (h : umount c env wanted w = some r) :
    (r.ok = true → ∀ q dir, (q, dir) ∈ r.world.mounts ↔ (q, dir) ∈ w.mounts ∧ ¬ ∃ x, Plain x ∧ dir = c.mountPath ++ '/' :: x ∧ Asked wanted x) ∧
    (∀ q dir, (¬ ∃ x, Plain x ∧ dir = c.mountPath ++ '/' :: x ∧ Asked wanted x) → ((q, dir) ∈ r.world.mounts ↔ (q, dir) ∈ w.mounts)) ∧
    r.world.disk = w.disk ∧
    (∀ a ∈ r.acts, ∃ x q, Plain x ∧ Asked wanted x ∧ (q, c.mountPath ++ '/' :: x) ∈ w.mounts ∧
      (a = .umount (c.mountPath ++ '/' :: x) ∨ (a = .rmdir (c.mountPath ++ '/' :: x) ∧ ∃ f, c.clean = some f ∧ f x = true))) ∧
    (r.ok = true → ∃ xs : List Text, xs.Pairwise Before ∧ r.acts.filterMap (fun a => match a with | .umount dir => some dir | _ => none) = xs.map fun x => c.mountPath ++ '/' :: x) := by
  unfold umount at h
  cases hm : getMounted c.mountPath w with
  | none => rw [hm] at h; cases h
  | some m =>
    rw [hm] at h
    simp only [Option.map_some, Option.some.injEq] at h
    obtain ⟨-, n1, n2⟩ := getMounted_nodup hm
    have hsn : (sortDrives (m.map (·.1))).Nodup := (sortDrives_perm _).nodup_iff.mpr n1
    have hbf : (sortDrives (m.map (·.1))).Pairwise Before := by
      refine ((sortDrives_sorted _).and hsn).imp ?_
      rintro a b ⟨h1, h2⟩
      simp only [driveLe, Bool.or_eq_true, Bool.and_eq_true, decide_eq_true_eq] at h1
      rcases h1 with h1 | ⟨h1, h3⟩
      · exact .inl h1
      · exact .inr ⟨h1, h2, h3⟩
    have hmem : ∀ x, x ∈ (sortDrives (m.map (·.1))).filter (fun x => wanted.isEmpty || wanted.any fun f => f x) ↔
        Plain x ∧ Asked wanted x ∧ ∃ q, (q, c.mountPath ++ '/' :: x) ∈ w.mounts := by
      intro x
      rw [List.mem_filter, (sortDrives_perm _).mem_iff, List.mem_map, Bool.or_eq_true, List.isEmpty_iff, List.any_eq_true]
      constructor
      · rintro ⟨⟨⟨y, p⟩, he, rfl⟩, ha⟩
        obtain ⟨g1, g2, g3⟩ := (getMounted_mem hm y p).mp he
        exact ⟨g3, ha, p, g1⟩
      · rintro ⟨h1, h2, q, hq⟩
        exact ⟨⟨(x, q), (getMounted_mem hm x q).mpr ⟨hq, ho q x h1 hq, h1⟩, rfl⟩, h2⟩
    have hfb : ((sortDrives (m.map (·.1))).filter (fun x => wanted.isEmpty || wanted.any fun f => f x)).Pairwise Before := hbf.sublist List.filter_sublist
    have hfn : ((sortDrives (m.map (·.1))).filter (fun x => wanted.isEmpty || wanted.any fun f => f x)).Nodup := hsn.sublist List.filter_sublist
    generalize (sortDrives (m.map (·.1))).filter (fun x => wanted.isEmpty || wanted.any fun f => f x) = xs at *
    obtain ⟨i1, i2, i3, i4, i5⟩ := umountLoop_spec c env xs hfn w
    subst h
    have hrest : ∀ q dir, (¬ ∃ x, Plain x ∧ dir = c.mountPath ++ '/' :: x ∧ Asked wanted x) → ((q, dir) ∈ (umountLoop c env xs w).world.mounts ↔ (q, dir) ∈ w.mounts) := by
      intro q dir hno
      rw [← mem_on, ← mem_on, i2 dir]
      intro x hx he
      obtain ⟨g1, g2, _⟩ := (hmem x).mp hx
      exact hno ⟨x, g1, he, g2⟩
    refine ⟨?_, hrest, i1, ?_, ?_⟩
    · intro hk q dir
      by_cases hex : ∃ x, Plain x ∧ dir = c.mountPath ++ '/' :: x ∧ Asked wanted x
      · obtain ⟨x, g1, rfl, g2⟩ := hex
        refine ⟨fun hq => ?_, fun hq => absurd ⟨x, g1, rfl, g2⟩ hq.2⟩
        exfalso
        have hat := mountedAt_on hm ho g1
        rw [← mem_on] at hq
        by_cases hx : x ∈ xs
        · rw [i3 hk x hx, hat] at hq
          cases hmx : mountedAt m x with
          | none => rw [hmx] at hq; cases hq
          | some p => rw [hmx] at hq; cases hq
        · rw [i2 _ ?_, mem_on] at hq
          · exact hx ((hmem x).mpr ⟨g1, g2, q, hq⟩)
          · intro y hy he
            have : x = y := by simpa using he
            subst this
            exact hx hy
      · rw [hrest q dir hex]
        exact ⟨fun h => ⟨h, hex⟩, fun h => h.1⟩
    · intro a ha
      obtain ⟨x, hx, r⟩ := i4 a ha
      obtain ⟨g1, g2, q, g3⟩ := (hmem x).mp hx
      exact ⟨x, q, g1, g2, g3, r⟩
    · intro hk
      exact ⟨xs, hfb, i5 hk⟩

/-- Two of three drives match the argument. -/
def worldU : World where
  disk := fun _ => ⟨true, []⟩
  mounts := [(sdb1, ['/', 'k', '/', '1', '0']), (sdc1, ['/', 'k', '/', '2']), (sdd1, ['/', 'k', '/', '1'])]

example : Ours cfgF.mountPath worldU ∧ (umount cfgF envEx [fun x => x.head? == some '1'] worldU).map (fun r => (r.acts, r.world.mounts, r.ok)) =
    some ([.umount ['/', 'k', '/', '1'], .umount ['/', 'k', '/', '1', '0']], [(sdc1, ['/', 'k', '/', '2'])], true) := by
  refine ⟨?_, by decide +kernel⟩
  intro p x _ h
  simp only [worldU, List.mem_cons, Prod.mk.injEq, List.not_mem_nil, or_false] at h
  rcases h with ⟨rfl, _⟩ | ⟨rfl, _⟩ | ⟨rfl, _⟩ <;> decide

/-- If something else is mounted over a drive, that is unmounted instead, and `umount` ends well with the drive still mounted. -/
theorem umount_covered_false : ∃ (c : Config) (env : Env) (w : World) (r : Out), umount c env [] w = some r ∧ r.ok = true ∧
    (sdb1, c.mountPath ++ ['/', '1']) ∈ r.world.mounts :=
  ⟨cfgF, envEx, { worldU with mounts := [(['t', 'm', 'p', 'f', 's'], ['/', 'k', '/', '1']), (sdb1, ['/', 'k', '/', '1'])] }, _, rfl, by decide, by decide⟩

/-- `umount` does not look at the configured drives: a reserved drive that is mounted below the mount path is unmounted too. -/
theorem umount_reserved_false : ∃ (c : Config) (s : Sys) (env : Env) (w : World) (r : Out) (d p : Text), Sane c s ∧ Ours c.mountPath w ∧ umount c env [] w = some r ∧ r.ok = true ∧
    partOf d = some p ∧ ¬ Allowed c s d ∧ InUse w p ∧ ¬ InUse r.world p :=
  ⟨{ cfgF with reserved := fun _ _ => true }, sysF, envEx, { worldU with mounts := [(sdb1, ['/', 'k', '/', '1'])] }, _, sdb, sdb1,
    ⟨rfl, rfl, fun _ => by simp [sysF], fun _ => by simp [sysF]⟩, fun p x _ h => by
      simp only [List.mem_cons, Prod.mk.injEq, List.not_mem_nil, or_false] at h
      rw [h.1]; decide, rfl, by decide, by decide, fun h => (by have := h.2.2.2; cases this), ⟨['/', 'k', '/', '1'], List.mem_cons_self ..⟩, by
      rintro ⟨dir, hd⟩
      cases hd⟩

end Verif.Disktool
