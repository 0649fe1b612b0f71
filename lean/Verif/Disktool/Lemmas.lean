import Verif.Disktool.Model

/-!
# Lemmas about the model of `lintel-disktool`
-/

namespace Verif.Disktool

theorem leText_refl (a : Text) : leText a a = true := by
  induction a with
  | nil => rfl
  | cons x xs ih => simp [leText, ih]

theorem leText_total (a b : Text) : leText a b = true ∨ leText b a = true := by
  induction a generalizing b with
  | nil => exact .inl rfl
  | cons x xs ih =>
    cases b with
    | nil => exact .inr rfl
    | cons y ys =>
      simp only [leText, Bool.or_eq_true, Bool.and_eq_true, decide_eq_true_eq]
      rcases Nat.lt_trichotomy x.toNat y.toNat with h | h | h
      · exact .inl (.inl h)
      · rcases ih ys with g | g
        · exact .inl (.inr ⟨h, g⟩)
        · exact .inr (.inr ⟨h.symm, g⟩)
      · exact .inr (.inl h)

theorem leText_trans (a b c : Text) (h1 : leText a b = true) (h2 : leText b c = true) : leText a c = true := by
  induction a generalizing b c with
  | nil => rfl
  | cons x xs ih =>
    cases b with
    | nil => cases h1
    | cons y ys =>
      cases c with
      | nil => cases h2
      | cons z zs =>
        simp only [leText, Bool.or_eq_true, Bool.and_eq_true, decide_eq_true_eq] at *
        rcases h1 with h1 | ⟨h1, g1⟩
        · rcases h2 with h2 | ⟨h2, g2⟩
          · exact .inl (by omega)
          · exact .inl (by omega)
        · rcases h2 with h2 | ⟨h2, g2⟩
          · exact .inl (by omega)
          · exact .inr ⟨by omega, ih _ _ g1 g2⟩

theorem leText_antisymm (a b : Text) (h1 : leText a b = true) (h2 : leText b a = true) : a = b := by
  induction a generalizing b with
  | nil => cases b with
    | nil => rfl
    | cons => cases h2
  | cons x xs ih =>
    cases b with
    | nil => cases h1
    | cons y ys =>
      simp only [leText, Bool.or_eq_true, Bool.and_eq_true, decide_eq_true_eq] at *
      rcases h1 with h1 | ⟨h1, g1⟩
      · rcases h2 with h2 | ⟨h2, g2⟩ <;> omega
      · rcases h2 with h2 | ⟨h2, g2⟩
        · omega
        · rw [ih _ g1 g2, Char.toNat_inj.mp h1]

theorem driveLe_total (a b : Text) : driveLe a b = true ∨ driveLe b a = true := by
  simp only [driveLe, Bool.or_eq_true, Bool.and_eq_true, decide_eq_true_eq]
  have := leText_total a b
  rcases Nat.lt_trichotomy a.length b.length with h | h | h
  · exact .inl (.inl h)
  · rcases this with g | g
    · exact .inl (.inr ⟨h, g⟩)
    · exact .inr (.inr ⟨h.symm, g⟩)
  · exact .inr (.inl h)

theorem driveLe_trans (a b c : Text) (h1 : driveLe a b = true) (h2 : driveLe b c = true) : driveLe a c = true := by
  simp only [driveLe, Bool.or_eq_true, Bool.and_eq_true, decide_eq_true_eq] at *
  rcases h1 with h1 | ⟨h1, g1⟩
  · exact .inl (by omega)
  · rcases h2 with h2 | ⟨h2, g2⟩
    · exact .inl (by omega)
    · exact .inr ⟨by omega, leText_trans _ _ _ g1 g2⟩

theorem driveLe_antisymm (a b : Text) (h1 : driveLe a b = true) (h2 : driveLe b a = true) : a = b := by
  simp only [driveLe, Bool.or_eq_true, Bool.and_eq_true, decide_eq_true_eq] at *
  rcases h1 with h1 | ⟨h1, g1⟩
  · omega
  · rcases h2 with h2 | ⟨h2, g2⟩
    · omega
    · exact leText_antisymm _ _ g1 g2

theorem insertDrive_perm (a : Text) (l : List Text) : (insertDrive a l).Perm (a :: l) := by
  induction l with
  | nil => exact .refl _
  | cons b l ih =>
    unfold insertDrive
    split
    · exact .refl _
    · exact (ih.cons b).trans (.swap ..)

theorem sortDrives_perm (l : List Text) : (sortDrives l).Perm l := by
  induction l with
  | nil => exact .refl _
  | cons a l ih => exact (insertDrive_perm a _).trans (ih.cons a)

theorem insertDrive_sorted (a : Text) (l : List Text) (h : l.Pairwise fun x y => driveLe x y = true) : (insertDrive a l).Pairwise fun x y => driveLe x y = true := by
  induction l with
  | nil => simp [insertDrive]
  | cons b l ih =>
    unfold insertDrive
    have hb := List.pairwise_cons.mp h
    split
    · rename_i g
      refine List.pairwise_cons.mpr ⟨?_, h⟩
      intro y hy
      rcases List.mem_cons.mp hy with rfl | hy
      · exact g
      · exact driveLe_trans _ _ _ g (hb.1 y hy)
    · rename_i g
      refine List.pairwise_cons.mpr ⟨?_, ih hb.2⟩
      intro y hy
      rcases List.mem_cons.mp ((insertDrive_perm a l).mem_iff.mp hy) with rfl | hy
      · exact (driveLe_total b y).resolve_right g
      · exact hb.1 y hy

theorem sortDrives_sorted (l : List Text) : (sortDrives l).Pairwise fun x y => driveLe x y = true := by
  induction l with
  | nil => exact .nil
  | cons a l ih => exact insertDrive_sorted a _ ih

/-! ## Partitions -/

theorem partOf_cases {d p : Text} (h : partOf d = some p) :
    (isCciss d = true ∧ p = dev ++ d ++ ['p', '1']) ∨ (isSd d = true ∧ p = dev ++ d ++ ['1']) := by
  unfold partOf at h
  split at h
  · rename_i g; cases h; exact .inl ⟨g, rfl⟩
  · split at h
    · rename_i g; cases h; exact .inr ⟨g, rfl⟩
    · cases h

theorem isCciss_head {d : Text} (h : isCciss d = true) : ∃ r, d = 'c' :: r := by
  unfold isCciss at h
  split at h
  · exact ⟨_, rfl⟩
  · cases h

theorem isSd_head {d : Text} (h : isSd d = true) : ∃ r, d = 's' :: r := by
  unfold isSd at h
  split at h
  · exact ⟨_, rfl⟩
  · cases h

theorem partOf_inj {d e p : Text} (h : partOf d = some p) (g : partOf e = some p) : d = e := by
  rcases partOf_cases h with ⟨h1, h2⟩ | ⟨h1, h2⟩ <;> rcases partOf_cases g with ⟨g1, g2⟩ | ⟨g1, g2⟩
  · rw [h2] at g2; simpa using g2
  · rw [h2] at g2
    obtain ⟨r, rfl⟩ := isCciss_head h1
    obtain ⟨q, rfl⟩ := isSd_head g1
    simp [dev] at g2
  · rw [h2] at g2
    obtain ⟨r, rfl⟩ := isCciss_head g1
    obtain ⟨q, rfl⟩ := isSd_head h1
    simp [dev] at g2
  · rw [h2] at g2; simpa using g2

theorem partOf_part1 {d p : Text} (h : partOf d = some p) : isPart1 p = true := by
  have hp : ∀ t : Text, dev.isPrefixOf (dev ++ t) = true := by intro t; simp [dev]
  rcases partOf_cases h with ⟨h1, h2⟩ | ⟨h1, h2⟩
  · obtain ⟨r, rfl⟩ := isCciss_head h1
    subst h2
    unfold isPart1
    rw [List.append_assoc, hp]
    simp [dev]
    have : (r ++ ['p', '1']).getLast? = some '1' := by simp
    grind
  · obtain ⟨r, rfl⟩ := isSd_head h1
    subst h2
    unfold isPart1
    rw [List.append_assoc, hp]
    simp [dev]
    grind

/-! ## The mount table -/

/-- A name of a directory without slash and space. -/
def Plain (x : Text) : Prop := x ≠ [] ∧ '/' ∉ x ∧ ' ' ∉ x

theorem below_iff (mp dir x : Text) : below mp dir = some x ↔ dir = mp ++ '/' :: x ∧ Plain x := by
  unfold below Plain
  constructor
  · intro h
    split at h
    · rename_i hp
      obtain ⟨t, rfl⟩ := List.isPrefixOf_iff_prefix.mp hp
      simp only [] at h
      have e : List.drop (mp.length + 1) (mp ++ ['/'] ++ t) = t := by
        have : mp.length + 1 = (mp ++ ['/']).length := by simp
        rw [this, List.drop_left]
      rw [e] at h
      split at h
      · rename_i g
        cases h
        simp only [Bool.and_eq_true, Bool.not_eq_true', List.isEmpty_eq_false_iff, List.all_eq_true, bne_iff_ne] at g
        exact ⟨by simp, g.1, fun hm => (g.2 _ hm).1 rfl, fun hm => (g.2 _ hm).2 rfl⟩
      · cases h
    · cases h
  · rintro ⟨rfl, h1, h2, h3⟩
    have hp : (mp ++ ['/']).isPrefixOf (mp ++ '/' :: x) = true := by
      rw [List.isPrefixOf_iff_prefix]; exact ⟨x, by simp⟩
    rw [if_pos hp]
    have e : List.drop (mp.length + 1) (mp ++ '/' :: x) = x := by
      have : mp ++ '/' :: x = (mp ++ ['/']) ++ x := by simp
      have l : mp.length + 1 = (mp ++ ['/']).length := by simp
      rw [this, l, List.drop_left]
    simp only [e]
    rw [if_pos]
    simp only [Bool.and_eq_true, Bool.not_eq_true', List.isEmpty_eq_false_iff, List.all_eq_true, bne_iff_ne]
    exact ⟨h1, fun c hc => ⟨fun e => h2 (e ▸ hc), fun e => h3 (e ▸ hc)⟩⟩

theorem entry_iff (mp : Text) (e : Text × Text) (x p : Text) :
    entry mp e = some (x, p) ↔ e = (p, mp ++ '/' :: x) ∧ isPart1 p = true ∧ Plain x := by
  obtain ⟨a, b⟩ := e
  unfold entry
  constructor
  · intro h
    split at h
    · rename_i g
      cases hb : below mp b with
      | none => rw [hb] at h; cases h
      | some y =>
        rw [hb] at h
        simp only [Option.map_some, Option.some.injEq, Prod.mk.injEq] at h
        obtain ⟨rfl, rfl⟩ := h
        obtain ⟨h1, h2⟩ := (below_iff mp b y).mp hb
        exact ⟨by rw [h1], g, h2⟩
    · cases h
  · rintro ⟨h1, h2, h3⟩
    cases h1
    rw [if_pos h2, (below_iff mp _ x).mpr ⟨rfl, h3⟩]
    rfl

theorem getMounted_nodup {mp : Text} {w : World} {m : List (Text × Text)} (h : getMounted mp w = some m) :
    m = w.mounts.reverse.filterMap (entry mp) ∧ (m.map (·.1)).Nodup ∧ (m.map (·.2)).Nodup := by
  unfold getMounted at h
  simp only [] at h
  split at h
  · rename_i g; cases h; exact ⟨rfl, g⟩
  · cases h

theorem getMounted_mem {mp : Text} {w : World} {m : List (Text × Text)} (h : getMounted mp w = some m) (x p : Text) :
    (x, p) ∈ m ↔ (p, mp ++ '/' :: x) ∈ w.mounts ∧ isPart1 p = true ∧ Plain x := by
  rw [(getMounted_nodup h).1, List.mem_filterMap]
  constructor
  · rintro ⟨e, he, hx⟩
    obtain ⟨h1, h2, h3⟩ := (entry_iff mp e x p).mp hx
    subst h1
    exact ⟨by simpa using he, h2, h3⟩
  · rintro ⟨h1, h2, h3⟩
    exact ⟨_, by simpa using h1, (entry_iff mp _ x p).mpr ⟨rfl, h2, h3⟩⟩

theorem find_nodup {α β : Type} [DecidableEq β] (f : α → β) (l : List α) (hd : (l.map f).Nodup) (a : α) (ha : a ∈ l) :
    l.find? (fun x => decide (f x = f a)) = some a := by
  induction l with
  | nil => cases ha
  | cons b l ih =>
    simp only [List.map_cons, List.nodup_cons] at hd
    rw [List.find?_cons]
    by_cases he : f b = f a
    · rw [decide_eq_true he]
      rcases List.mem_cons.mp ha with rfl | hm
      · rfl
      · exact absurd (List.mem_map.mpr ⟨a, hm, he.symm⟩) hd.1
    · rw [decide_eq_false he]
      rcases List.mem_cons.mp ha with rfl | hm
      · exact absurd rfl he
      · exact ih hd.2 hm

theorem mountedOn_iff {m : List (Text × Text)} (hd : (m.map (·.2)).Nodup) (x p : Text) : mountedOn m p = some x ↔ (x, p) ∈ m := by
  unfold mountedOn
  constructor
  · intro h
    obtain ⟨⟨a, b⟩, ha, rfl⟩ := Option.map_eq_some_iff.mp h
    have h1 := List.find?_some ha
    simp only [decide_eq_true_eq] at h1
    subst h1
    exact List.mem_of_find?_eq_some ha
  · intro h
    rw [find_nodup (·.2) m hd (x, p) h]; rfl

theorem mountedAt_iff {m : List (Text × Text)} (hd : (m.map (·.1)).Nodup) (x p : Text) : mountedAt m x = some p ↔ (x, p) ∈ m := by
  unfold mountedAt
  constructor
  · intro h
    obtain ⟨⟨a, b⟩, ha, rfl⟩ := Option.map_eq_some_iff.mp h
    have h1 := List.find?_some ha
    simp only [decide_eq_true_eq] at h1
    subst h1
    exact List.mem_of_find?_eq_some ha
  · intro h
    rw [find_nodup (·.1) m hd (x, p) h]; rfl

theorem isTrue_iff (o : Option Text) : isTrue o = true ↔ ∃ x, o = some x ∧ x ≠ [] ∧ x ≠ ['0'] := by
  unfold isTrue orEmpty
  cases o with
  | none => simp
  | some t => by_cases h : t = ['0'] <;> simp [h]

end Verif.Disktool
