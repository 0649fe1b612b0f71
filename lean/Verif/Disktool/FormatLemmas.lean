import Verif.Disktool.DriveProps

/-!
# Lemmas about formatting
-/

namespace Verif.Disktool

theorem lookup_cons (l p k : Text) (m : List (Text × Text)) : lookup ((l, p) :: m) k = if l = k then some p else lookup m k := by
  unfold lookup
  rw [List.find?_cons]
  by_cases h : l = k <;> simp [h]

/-- One step of the second loop. -/
theorem assign_cons {c : Config} {w : World} {d : Text} {ds : List Text} {m : List (Text × Text)} {xs : List (Text × Text × Text)} (h : assign c w (d :: ds) m = some xs) :
    ∃ p l ys, partOf d = some p ∧ newLabel c w d p m = some l ∧ validLabel l = true ∧ (∀ q, lookup m l = some q → q = p) ∧ assign c w ds ((l, p) :: m) = some ys ∧ xs = (d, p, l) :: ys := by
  unfold assign at h
  cases hp : partOf d with
  | none => rw [hp] at h; cases h
  | some p =>
    rw [hp] at h
    simp only [] at h
    cases hl : newLabel c w d p m with
    | none => rw [hl] at h; cases h
    | some l =>
      rw [hl] at h
      simp only [] at h
      split at h
      · rename_i g
        obtain ⟨ys, hy, rfl⟩ := Option.map_eq_some_iff.mp h
        rw [Bool.and_eq_true] at g
        refine ⟨p, l, ys, rfl, hl, g.1, ?_, hy, rfl⟩
        intro q hq
        have g2 := g.2
        unfold free at g2
        rw [hq] at g2
        simpa using g2
      · cases h

theorem assign_drives {c : Config} {w : World} (ds : List Text) (m : List (Text × Text)) (xs : List (Text × Text × Text)) (h : assign c w ds m = some xs) :
    xs.map (·.1) = ds ∧ ∀ x ∈ xs, partOf x.1 = some x.2.1 ∧ validLabel x.2.2 = true ∧ ((w.disk x.1).label ≠ [] → x.2.2 = (w.disk x.1).label) := by
  induction ds generalizing m xs with
  | nil => unfold assign at h; cases h; exact ⟨rfl, by simp⟩
  | cons d ds ih =>
    obtain ⟨p, l, ys, hp, hl, hv, _, hy, rfl⟩ := assign_cons h
    obtain ⟨i1, i2⟩ := ih _ _ hy
    refine ⟨by simp [i1], ?_⟩
    intro x hx
    rcases List.mem_cons.mp hx with rfl | hx
    · refine ⟨hp, hv, ?_⟩
      intro hne
      unfold newLabel at hl
      rw [if_neg hne] at hl
      exact (Option.some.inj hl).symm
    · exact i2 x hx

theorem assign_taken {c : Config} {w : World} (ds : List Text) (m : List (Text × Text)) (xs : List (Text × Text × Text)) (h : assign c w ds m = some xs) (l q : Text) (hq : lookup m l = some q) :
    ∀ x ∈ xs, x.2.2 = l → x.2.1 = q := by
  induction ds generalizing m xs with
  | nil => unfold assign at h; cases h; simp
  | cons d ds ih =>
    obtain ⟨p, k, ys, hp, hk, hv, hu, hy, rfl⟩ := assign_cons h
    intro x hx hxl
    have hlk : lookup ((k, p) :: m) l = some q := by
      rw [lookup_cons]
      split
      · rename_i e; subst e; rw [hu q hq]
      · exact hq
    rcases List.mem_cons.mp hx with rfl | hx
    · simp only [] at hxl
      subst hxl
      exact (hu q hq).symm
    · exact ih _ _ hy hlk x hx hxl

/-- The labels of different drives differ. -/
theorem assign_distinct {c : Config} {w : World} (ds : List Text) (m : List (Text × Text)) (xs : List (Text × Text × Text)) (h : assign c w ds m = some xs) (hn : ds.Nodup) :
    (xs.map (·.2.2)).Nodup := by
  induction ds generalizing m xs with
  | nil => unfold assign at h; cases h; simp
  | cons d ds ih =>
    obtain ⟨p, k, ys, hp, hk, hv, hu, hy, rfl⟩ := assign_cons h
    simp only [List.nodup_cons] at hn
    simp only [List.map_cons, List.nodup_cons]
    refine ⟨?_, ih _ _ hy hn.2⟩
    intro hm
    obtain ⟨x, hx, hxl⟩ := List.mem_map.mp hm
    have h1 := assign_taken _ _ _ hy k p (by rw [lookup_cons, if_pos rfl]) x hx hxl
    obtain ⟨i1, i2⟩ := assign_drives _ _ _ hy
    have h2 := (i2 x hx).1
    rw [h1] at h2
    have := partOf_inj hp h2
    subst this
    exact hn.1 (i1 ▸ List.mem_map.mpr ⟨x, hx, rfl⟩)

/-! ## The third loop -/

theorem formatOne_acts (c : Config) (env : Env) (d p l : Text) (w : World) :
    ∀ a ∈ (formatOne c env d p l w).acts, (a = .zero p ∨ a = .mkfs p l) ∧ c.fs d l ∈ fsNames := by
  unfold formatOne
  intro a ha
  split at ha
  · cases ha
  · split at ha
    · rename_i hf
      split at ha
      · split at ha <;> simp only [List.mem_cons, List.not_mem_nil, or_false] at ha <;> exact ⟨ha, hf⟩
      · simp only [List.mem_cons, List.not_mem_nil, or_false] at ha
        exact ⟨.inl ha, hf⟩
    · cases ha

theorem formatOne_other (c : Config) (env : Env) (d p l : Text) (w : World) :
    (∀ e, e ≠ d → (formatOne c env d p l w).world.disk e = w.disk e) ∧ (formatOne c env d p l w).world.mounts = w.mounts := by
  have hs : ∀ x e, e ≠ d → (setDisk w d x).disk e = w.disk e := by intro x e he; simp [setDisk, he]
  unfold formatOne
  constructor
  · intro e he
    repeat' split
    all_goals first | rfl | exact hs _ e he
  · repeat' split
    all_goals rfl

theorem formatOne_ok (c : Config) (env : Env) (d p l : Text) (w : World) (h : (formatOne c env d p l w).ok = true) :
    c.fs d l = fsReserved ∨ ((formatOne c env d p l w).acts = [.zero p, .mkfs p l] ∧ ((formatOne c env d p l w).world.disk d).label = l ∧ ((formatOne c env d p l w).world.disk d).tableOk = (w.disk d).tableOk) := by
  unfold formatOne at h ⊢
  split
  · rename_i g; exact .inl g
  · rename_i g
    rw [if_neg g] at h
    right
    split
    · rename_i g1
      rw [if_pos g1] at h
      split
      · rename_i g2
        rw [if_pos g2] at h
        split
        · exact ⟨rfl, by simp [setDisk], by simp [setDisk]⟩
        · rename_i g3
          rw [if_neg g3] at h; cases h
      · rename_i g2
        rw [if_neg g2] at h; cases h
    · rename_i g1
      rw [if_neg g1] at h; cases h

theorem formatLoop_acts (c : Config) (env : Env) (m : List (Text × Text)) (xs : List (Text × Text × Text)) (w : World) :
    ∀ a ∈ (formatLoop c env m xs w).acts, ∃ x ∈ xs, isTrue (mountedOn m x.2.1) = false ∧ (a = .zero x.2.1 ∨ a = .mkfs x.2.1 x.2.2) ∧ c.fs x.1 x.2.2 ∈ fsNames := by
  induction xs generalizing w with
  | nil => intro a ha; cases ha
  | cons x xs ih =>
    obtain ⟨d, p, l⟩ := x
    unfold formatLoop
    intro a ha
    split at ha
    · obtain ⟨y, hy, r⟩ := ih w a ha
      exact ⟨y, List.mem_cons_of_mem _ hy, r⟩
    · rename_i hm
      simp only [] at ha
      rcases List.mem_append.mp ha with ha | ha
      · obtain ⟨h1, h2⟩ := formatOne_acts c env d p l w a ha
        exact ⟨_, List.mem_cons_self .., by simpa using hm, h1, h2⟩
      · obtain ⟨y, hy, r⟩ := ih _ a ha
        exact ⟨y, List.mem_cons_of_mem _ hy, r⟩

theorem formatLoop_other (c : Config) (env : Env) (m : List (Text × Text)) (xs : List (Text × Text × Text)) (w : World) :
    (∀ e, (∀ x ∈ xs, x.1 = e → isTrue (mountedOn m x.2.1) = true) → (formatLoop c env m xs w).world.disk e = w.disk e) ∧ (formatLoop c env m xs w).world.mounts = w.mounts := by
  induction xs generalizing w with
  | nil => exact ⟨fun _ _ => rfl, rfl⟩
  | cons x xs ih =>
    obtain ⟨d, p, l⟩ := x
    unfold formatLoop
    split
    · obtain ⟨i1, i2⟩ := ih w
      exact ⟨fun e he => i1 e fun y hy => he y (List.mem_cons_of_mem _ hy), i2⟩
    · rename_i hm
      simp only []
      obtain ⟨i1, i2⟩ := ih (formatOne c env d p l w).world
      obtain ⟨o1, o2⟩ := formatOne_other c env d p l w
      refine ⟨fun e he => ?_, by rw [i2, o2]⟩
      rw [i1 e fun y hy => he y (List.mem_cons_of_mem _ hy)]
      refine o1 e ?_
      rintro rfl
      exact hm (he (e, p, l) (List.mem_cons_self ..) rfl)

theorem formatLoop_ok (c : Config) (env : Env) (m : List (Text × Text)) (xs : List (Text × Text × Text)) (hn : (xs.map (·.1)).Nodup) (w : World) (h : (formatLoop c env m xs w).ok = true) :
    ∀ x ∈ xs, isTrue (mountedOn m x.2.1) = false → c.fs x.1 x.2.2 ≠ fsReserved →
      ((formatLoop c env m xs w).world.disk x.1).label = x.2.2 ∧ ((formatLoop c env m xs w).world.disk x.1).tableOk = (w.disk x.1).tableOk ∧
      Act.zero x.2.1 ∈ (formatLoop c env m xs w).acts ∧ Act.mkfs x.2.1 x.2.2 ∈ (formatLoop c env m xs w).acts := by
  induction xs generalizing w with
  | nil => intro x hx; cases hx
  | cons x xs ih =>
    obtain ⟨d, p, l⟩ := x
    simp only [List.map_cons, List.nodup_cons] at hn
    unfold formatLoop at h ⊢
    intro x hx h1 h2
    split
    · rename_i hm
      rw [if_pos hm] at h
      rcases List.mem_cons.mp hx with rfl | hx
      · rw [hm] at h1; cases h1
      · exact ih hn.2 w h x hx h1 h2
    · rename_i hm
      rw [if_neg hm] at h
      simp only [Bool.and_eq_true] at h ⊢
      obtain ⟨o1, o2⟩ := formatOne_other c env d p l w
      rcases List.mem_cons.mp hx with rfl | hxs
      · have hd : ∀ y ∈ xs, y.1 = d → isTrue (mountedOn m y.2.1) = true := fun y hy he => absurd (List.mem_map.mpr ⟨y, hy, he⟩) hn.1
        rw [(formatLoop_other c env m xs _).1 d hd]
        rcases formatOne_ok c env d p l w h.1 with g | ⟨g1, g2, g3⟩
        · exact absurd g h2
        · refine ⟨g2, g3, ?_, ?_⟩ <;> rw [g1] <;> simp
      · obtain ⟨k1, k2, k3, k4⟩ := ih hn.2 _ h.2 x hxs h1 h2
        refine ⟨k1, ?_, List.mem_append_right _ k3, List.mem_append_right _ k4⟩
        rw [k2, o1]
        intro e
        exact hn.1 (List.mem_map.mpr ⟨x, hxs, e⟩)

/-- What `format` does in terms of its loops. -/
theorem format_eq {c : Config} {s : Sys} {env : Env} {w : World} {r : Out} (h : format c s env w = some r) :
    ∃ ds m l2p xs, findDrives c s = some ds ∧ getMounted c.mountPath w = some m ∧ checkDrives c w ds [] = some l2p ∧ assign c w ds l2p = some xs ∧ r = formatLoop c env m xs w := by
  unfold format at h
  split at h
  · rename_i ds m hd hm
    split at h
    · cases h
    · rename_i l2p hl
      split at h
      · cases h
      · rename_i xs hx
        cases h
        exact ⟨ds, m, l2p, xs, hd, hm, hl, hx, rfl⟩
  · cases h

theorem checkDrives_ok {c : Config} {w : World} (ds : List Text) (m l2p : List (Text × Text)) (h : checkDrives c w ds m = some l2p) : ∀ d ∈ ds, (w.disk d).tableOk = true := by
  induction ds generalizing m with
  | nil => simp
  | cons d ds ih =>
    unfold checkDrives at h
    split at h
    · rename_i ht
      split at h
      · cases h
      · intro e he
        rcases List.mem_cons.mp he with rfl | he
        · exact ht
        · split at h
          · exact ih _ h e he
          · split at h
            · cases h
            · exact ih _ h e he
    · cases h

end Verif.Disktool
