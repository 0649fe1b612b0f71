import Verif.Disktool.DriveProps

/-!
# Lemmas about mounting
-/

namespace Verif.Disktool

/-- The devices mounted on a directory, the newest first. -/
def on (w : World) (dir : Text) : List Text := (w.mounts.filter fun e => decide (e.2 = dir)).map (·.1)

theorem visible_on (w : World) (dir : Text) : visible w dir = (on w dir).head? := by
  unfold visible on
  induction w.mounts with
  | nil => rfl
  | cons e l ih =>
    by_cases h : e.2 = dir
    · simp [h]
    · simp only [List.find?_cons, h, decide_false, List.filter_cons, Bool.false_eq_true, if_false]
      exact ih

theorem mem_on (w : World) (p dir : Text) : p ∈ on w dir ↔ (p, dir) ∈ w.mounts := by
  unfold on
  rw [List.mem_map]
  constructor
  · rintro ⟨⟨a, b⟩, he, rfl⟩
    rw [List.mem_filter] at he
    have := he.2
    simp only [decide_eq_true_eq] at this
    subst this
    exact he.1
  · intro h
    exact ⟨_, List.mem_filter.mpr ⟨h, by simp⟩, rfl⟩

theorem on_eraseP (w : World) (path dir : Text) :
    on { w with mounts := w.mounts.eraseP fun e => decide (e.2 = path) } dir = if dir = path then (on w dir).tail else on w dir := by
  unfold on
  simp only []
  induction w.mounts with
  | nil => simp
  | cons e l ih =>
    rw [List.eraseP_cons]
    by_cases h : e.2 = path
    · simp only [h, decide_true, cond_true]
      by_cases hd : dir = path
      · subst hd; simp [h]
      · have : e.2 ≠ dir := by rw [h]; exact fun e => hd e.symm
        simp [this, hd]
    · simp only [h, decide_false, cond_false]
      by_cases hd : dir = path
      · subst hd
        simpa [h] using ih
      · simp only [if_neg hd] at ih ⊢
        rw [List.filter_cons, List.filter_cons]
        split <;> simp [ih]

theorem on_cons (w : World) (p path dir : Text) : on { w with mounts := (p, path) :: w.mounts } dir = if dir = path then p :: on w dir else on w dir := by
  unfold on
  simp only []
  by_cases h : dir = path
  · subst h; simp
  · have : path ≠ dir := fun e => h e.symm
    simp [this, h]

theorem umountDir_on (env : Env) (path : Text) (w : World) (dir : Text) :
    on (umountDir env path w).2 dir = if dir = path ∧ (umountDir env path w).1 = true then (on w dir).tail else on w dir := by
  unfold umountDir
  split
  · simp only [and_true]
    exact on_eraseP w path dir
  · simp

theorem mountPart_on (env : Env) (p path : Text) (w : World) (dir : Text) :
    on (mountPart env p path w).2 dir = if dir = path ∧ (mountPart env p path w).1 = true then p :: on w dir else on w dir := by
  unfold mountPart
  split
  · simp only [and_true]
    exact on_cons w p path dir
  · simp

theorem umountDir_disk (env : Env) (path : Text) (w : World) : (umountDir env path w).2.disk = w.disk := by
  unfold umountDir; split <;> rfl

theorem mountPart_disk (env : Env) (p path : Text) (w : World) : (mountPart env p path w).2.disk = w.disk := by
  unfold mountPart; split <;> rfl

/-- One drive: only its directory changes, and if it works the drive is what is mounted there last. -/
theorem mountOne_spec (c : Config) (env : Env) (m : List (Text × Text)) (d p l path : Text) (w : World) (hp : c.labelToPath l d = some path) :
    (mountOne c env m d p l w).world.disk = w.disk ∧
    (∀ dir, dir ≠ path → on (mountOne c env m d p l w).world dir = on w dir) ∧
    ((mountOne c env m d p l w).ok = true → on (mountOne c env m d p l w).world path = p :: if (mountedAt m l).isSome then (on w path).tail else on w path) ∧
    (∀ a ∈ (mountOne c env m d p l w).acts, a = .umount path ∨ a = .mount p path) ∧
    (.umount path ∈ (mountOne c env m d p l w).acts → (mountedAt m l).isSome = true) := by
  unfold mountOne
  rw [hp]
  simp only []
  split
  · rename_i hs
    cases hu : (umountDir env path w).1 with
    | true =>
      simp only [if_true]
      refine ⟨by rw [mountPart_disk, umountDir_disk], ?_, ?_, by simp, fun _ => hs⟩
      · intro dir hd
        rw [mountPart_on, umountDir_on]
        simp [hd]
      · intro ho
        rw [mountPart_on, umountDir_on, hu]
        simp [ho]
    | false =>
      simp only [Bool.false_eq_true, if_false]
      refine ⟨trivial, by simp, by simp, by simp, fun _ => hs⟩
  · rename_i hs
    refine ⟨mountPart_disk .., ?_, ?_, by simp, by simp⟩
    · intro dir hd
      rw [mountPart_on]
      simp [hd]
    · intro ho
      rw [mountPart_on]
      have ho' : (mountPart env p path w).1 = true := ho
      simp [ho']

/-- A drive that `mount` looks at: its table is correct and it has a label. -/
def Ready (w : World) (d : Text) : Prop := (w.disk d).tableOk = true ∧ (w.disk d).label ≠ []

/-- What the loop does to the directories. -/
theorem mountLoop_spec (c : Config) (env : Env) (m : List (Text × Text)) (ds : List Text) (hn : ds.Nodup) (w : World)
    (hpath : ∀ d ∈ ds, Ready w d → c.labelToPath (w.disk d).label d = some (c.mountPath ++ '/' :: (w.disk d).label))
    (hlab : ∀ d ∈ ds, ∀ e ∈ ds, Ready w d → Ready w e → (w.disk d).label = (w.disk e).label → d = e) :
    (mountLoop c env m ds w).world.disk = w.disk ∧
    (∀ dir, (∀ d ∈ ds, Ready w d → dir ≠ c.mountPath ++ '/' :: (w.disk d).label) → on (mountLoop c env m ds w).world dir = on w dir) ∧
    ((mountLoop c env m ds w).ok = true → ∀ d ∈ ds, Ready w d → ∃ p, partOf d = some p ∧
      (if isTrue (mountedOn m p) then
        mountedOn m p = some (w.disk d).label ∧ on (mountLoop c env m ds w).world (c.mountPath ++ '/' :: (w.disk d).label) = on w (c.mountPath ++ '/' :: (w.disk d).label)
      else on (mountLoop c env m ds w).world (c.mountPath ++ '/' :: (w.disk d).label) =
        p :: if (mountedAt m (w.disk d).label).isSome then (on w (c.mountPath ++ '/' :: (w.disk d).label)).tail else on w (c.mountPath ++ '/' :: (w.disk d).label))) ∧
    (∀ a ∈ (mountLoop c env m ds w).acts, ∃ d ∈ ds, Ready w d ∧ (∃ p, partOf d = some p ∧ isTrue (mountedOn m p) = false ∧
      ((a = .umount (c.mountPath ++ '/' :: (w.disk d).label) ∧ (mountedAt m (w.disk d).label).isSome = true) ∨ a = .mount p (c.mountPath ++ '/' :: (w.disk d).label)))) := by
  induction ds generalizing w with
  | nil => exact ⟨rfl, fun _ _ => rfl, fun _ _ h _ => (by cases h), fun _ h => (by cases h)⟩
  | cons d ds ih =>
    have hn2 := (List.nodup_cons.mp hn).2
    have hn1 := (List.nodup_cons.mp hn).1
    -- the loop over the rest in the same world
    have rest : ∀ (hskip : ¬ Ready w d ∨ ∃ p, partOf d = some p ∧ isTrue (mountedOn m p) = true ∧ mountedOn m p = some (w.disk d).label),
        (mountLoop c env m ds w).world.disk = w.disk ∧
        (∀ dir, (∀ e ∈ d :: ds, Ready w e → dir ≠ c.mountPath ++ '/' :: (w.disk e).label) → on (mountLoop c env m ds w).world dir = on w dir) ∧
        ((mountLoop c env m ds w).ok = true → ∀ e ∈ d :: ds, Ready w e → ∃ p, partOf e = some p ∧
          (if isTrue (mountedOn m p) then
            mountedOn m p = some (w.disk e).label ∧ on (mountLoop c env m ds w).world (c.mountPath ++ '/' :: (w.disk e).label) = on w (c.mountPath ++ '/' :: (w.disk e).label)
          else on (mountLoop c env m ds w).world (c.mountPath ++ '/' :: (w.disk e).label) =
            p :: if (mountedAt m (w.disk e).label).isSome then (on w (c.mountPath ++ '/' :: (w.disk e).label)).tail else on w (c.mountPath ++ '/' :: (w.disk e).label))) ∧
        (∀ a ∈ (mountLoop c env m ds w).acts, ∃ e ∈ d :: ds, Ready w e ∧ (∃ p, partOf e = some p ∧ isTrue (mountedOn m p) = false ∧
          ((a = .umount (c.mountPath ++ '/' :: (w.disk e).label) ∧ (mountedAt m (w.disk e).label).isSome = true) ∨ a = .mount p (c.mountPath ++ '/' :: (w.disk e).label)))) := by
      intro hskip
      obtain ⟨i1, i2, i3, i4⟩ := ih hn2 w (fun e he => hpath e (List.mem_cons_of_mem _ he))
        (fun e he f hf => hlab e (List.mem_cons_of_mem _ he) f (List.mem_cons_of_mem _ hf))
      refine ⟨i1, fun dir hdir => i2 dir fun e he => hdir e (List.mem_cons_of_mem _ he), ?_, ?_⟩
      · intro ho e he hr
        rcases List.mem_cons.mp he with rfl | he
        · rcases hskip with hskip | ⟨p, hp, ht, hm⟩
          · exact absurd hr hskip
          · refine ⟨p, hp, ?_⟩
            rw [if_pos ht]
            refine ⟨hm, i2 _ ?_⟩
            intro f hf hrf heq
            have : (w.disk e).label = (w.disk f).label := by simpa using heq
            have := hlab e (List.mem_cons_self ..) f (List.mem_cons_of_mem _ hf) hr hrf this
            subst this
            exact hn1 hf
        · exact i3 ho e he hr
      · intro a ha
        obtain ⟨e, he, r⟩ := i4 a ha
        exact ⟨e, List.mem_cons_of_mem _ he, r⟩
    by_cases hok : (w.disk d).tableOk = true
    · cases hp : partOf d with
      | none =>
        have he : mountLoop c env m (d :: ds) w = ⟨[], w, false⟩ := by
          rw [mountLoop, if_pos hok, hp]
        rw [he]
        exact ⟨rfl, fun _ _ => rfl, fun h => (by cases h), fun _ h => (by cases h)⟩
      | some p =>
        by_cases hl : (w.disk d).label = []
        · have he : mountLoop c env m (d :: ds) w = mountLoop c env m ds w := by
            rw [mountLoop, if_pos hok, hp]
            simp only [if_pos hl]
          rw [he]
          exact rest (.inl fun h => h.2 hl)
        · have hready : Ready w d := ⟨hok, hl⟩
          by_cases ht : isTrue (mountedOn m p) = true
          · by_cases hm : mountedOn m p = some (w.disk d).label
            · have he : mountLoop c env m (d :: ds) w = mountLoop c env m ds w := by
                rw [mountLoop, if_pos hok, hp]
                simp only [if_neg hl, if_pos ht, if_pos hm]
              rw [he]
              exact rest (.inr ⟨p, hp, ht, hm⟩)
            · have he : mountLoop c env m (d :: ds) w = ⟨[], w, false⟩ := by
                rw [mountLoop, if_pos hok, hp]
                simp only [if_neg hl, if_pos ht, if_neg hm]
              rw [he]
              exact ⟨rfl, fun _ _ => rfl, fun h => (by cases h), fun _ h => (by cases h)⟩
          · have htf : isTrue (mountedOn m p) = false := by simpa using ht
            obtain ⟨o1, o2, o3, o4, o5⟩ := mountOne_spec c env m d p (w.disk d).label _ w (hpath d (List.mem_cons_self ..) hready)
            have hacts : ∀ a ∈ (mountOne c env m d p (w.disk d).label w).acts, ∃ e ∈ d :: ds, Ready w e ∧ (∃ p, partOf e = some p ∧ isTrue (mountedOn m p) = false ∧
                ((a = .umount (c.mountPath ++ '/' :: (w.disk e).label) ∧ (mountedAt m (w.disk e).label).isSome = true) ∨ a = .mount p (c.mountPath ++ '/' :: (w.disk e).label))) := by
              intro a ha
              refine ⟨d, List.mem_cons_self .., hready, p, hp, htf, ?_⟩
              rcases o4 a ha with rfl | rfl
              · exact .inl ⟨rfl, o5 ha⟩
              · exact .inr rfl
            cases hk : (mountOne c env m d p (w.disk d).label w).ok with
            | false =>
              have he : mountLoop c env m (d :: ds) w = mountOne c env m d p (w.disk d).label w := by
                rw [mountLoop, if_pos hok, hp]
                simp only [if_neg hl, htf, Bool.false_eq_true, if_false, hk]
              rw [he]
              refine ⟨o1, fun dir hdir => o2 dir (hdir d (List.mem_cons_self ..) hready), fun h => ?_, hacts⟩
              rw [hk] at h; cases h
            | true =>
              have he : mountLoop c env m (d :: ds) w = ⟨(mountOne c env m d p (w.disk d).label w).acts ++ (mountLoop c env m ds (mountOne c env m d p (w.disk d).label w).world).acts,
                  (mountLoop c env m ds (mountOne c env m d p (w.disk d).label w).world).world, (mountLoop c env m ds (mountOne c env m d p (w.disk d).label w).world).ok⟩ := by
                rw [mountLoop, if_pos hok, hp]
                simp only [if_neg hl, htf, Bool.false_eq_true, if_false, hk, if_true]
              rw [he]
              have o3' := o3 hk
              generalize mountOne c env m d p (w.disk d).label w = M at *
              have hR : ∀ e, Ready M.world e ↔ Ready w e := by intro e; unfold Ready; rw [o1]
              obtain ⟨i1, i2, i3, i4⟩ := ih hn2 M.world
                (fun e he hr => by rw [o1]; exact hpath e (List.mem_cons_of_mem _ he) ((hR e).mp hr))
                (fun e he f hf hre hrf => by rw [o1]; exact hlab e (List.mem_cons_of_mem _ he) f (List.mem_cons_of_mem _ hf) ((hR e).mp hre) ((hR f).mp hrf))
              rw [o1] at i1 i2 i3 i4
              have hne : ∀ f ∈ ds, Ready w f → c.mountPath ++ '/' :: (w.disk d).label ≠ c.mountPath ++ '/' :: (w.disk f).label := by
                intro f hf hrf heq
                have : (w.disk d).label = (w.disk f).label := by simpa using heq
                have := hlab d (List.mem_cons_self ..) f (List.mem_cons_of_mem _ hf) hready hrf this
                subst this
                exact hn1 hf
              refine ⟨i1, ?_, ?_, ?_⟩
              · intro dir hdir
                show on (mountLoop c env m ds M.world).world dir = _
                rw [i2 dir fun e he hr => hdir e (List.mem_cons_of_mem _ he) ((hR e).mp hr), o2 dir (hdir d (List.mem_cons_self ..) hready)]
              · intro ho e he hr
                rcases List.mem_cons.mp he with rfl | he
                · refine ⟨p, hp, ?_⟩
                  rw [htf]
                  simp only [Bool.false_eq_true, if_false]
                  show on (mountLoop c env m ds M.world).world _ = _
                  rw [i2 _ fun f hf hr => hne f hf ((hR f).mp hr)]
                  exact o3'
                · obtain ⟨q, hq, hi⟩ := i3 ho e he ((hR e).mpr hr)
                  refine ⟨q, hq, ?_⟩
                  rw [o2 _ (hne e he hr).symm] at hi
                  exact hi
              · intro a ha
                rcases List.mem_append.mp ha with ha | ha
                · exact hacts a ha
                · obtain ⟨e, he, hr, r⟩ := i4 a ha
                  exact ⟨e, List.mem_cons_of_mem _ he, (hR e).mp hr, r⟩
    · have he : mountLoop c env m (d :: ds) w = mountLoop c env m ds w := by
        rw [mountLoop, if_neg hok]
      rw [he]
      exact rest (.inl fun h => hok h.1)

/-! ## The list of what is mounted -/

/-- Below the mount path only partitions of drives are mounted. -/
def Ours (mp : Text) (w : World) : Prop := ∀ p x, Plain x → (p, mp ++ '/' :: x) ∈ w.mounts → isPart1 p = true

theorem entries_on (mp : Text) (x : Text) (hx : Plain x) (l : List (Text × Text)) (ho : ∀ p, (p, mp ++ '/' :: x) ∈ l → isPart1 p = true) :
    ((l.filterMap (entry mp)).filter fun e => decide (e.1 = x)).map (·.2) = (l.filter fun e => decide (e.2 = mp ++ '/' :: x)).map (·.1) := by
  induction l with
  | nil => rfl
  | cons e l ih =>
    have ih := ih fun p hp => ho p (List.mem_cons_of_mem _ hp)
    obtain ⟨a, b⟩ := e
    by_cases hb : b = mp ++ '/' :: x
    · subst hb
      have h1 := ho a (List.mem_cons_self ..)
      have h2 : entry mp (a, mp ++ '/' :: x) = some (x, a) := (entry_iff ..).mpr ⟨rfl, h1, hx⟩
      rw [List.filterMap_cons_some h2]
      simp only [List.filter_cons, decide_true, if_true, List.map_cons, ih]
    · rw [List.filter_cons_of_neg (by simpa using hb)]
      cases h2 : entry mp (a, b) with
      | none => rw [List.filterMap_cons_none h2]; exact ih
      | some r =>
        obtain ⟨y, q⟩ := r
        have h3 := (entry_iff mp (a, b) y q).mp h2
        rw [List.filterMap_cons_some h2, List.filter_cons_of_neg]
        · exact ih
        · have h4 : b = mp ++ '/' :: y := (Prod.mk.inj h3.1).2
          simp only [decide_eq_true_eq]
          rintro rfl
          exact hb h4

theorem entries_on' (mp : Text) (x : Text) (hx : Plain x) (w : World) (ho : Ours mp w) :
    ((w.mounts.reverse.filterMap (entry mp)).filter fun e => decide (e.1 = x)).map (·.2) = (on w (mp ++ '/' :: x)).reverse := by
  rw [entries_on mp x hx _ fun p hp => ho p x hx (List.mem_reverse.mp hp)]
  unfold on
  rw [List.filter_reverse, List.map_reverse]

theorem nodup_filter_le {α β : Type} [DecidableEq β] (f : α → β) (l : List α) (hd : (l.map f).Nodup) (b : β) : (l.filter fun a => decide (f a = b)).length ≤ 1 := by
  induction l with
  | nil => simp
  | cons a l ih =>
    simp only [List.map_cons, List.nodup_cons] at hd
    by_cases h : f a = b
    · subst h
      have : (l.filter fun x => decide (f x = f a)) = [] := by
        rw [List.filter_eq_nil_iff]
        intro x hx hxx
        exact hd.1 (List.mem_map.mpr ⟨x, hx, by simpa using hxx⟩)
      simp [this]
    · simp only [List.filter_cons, h, decide_false, Bool.false_eq_true, if_false]
      exact ih hd.2

theorem le_nodup {α β : Type} [DecidableEq β] (f : α → β) (l : List α) (hd : ∀ b, (l.filter fun a => decide (f a = b)).length ≤ 1) : (l.map f).Nodup := by
  induction l with
  | nil => exact List.nodup_nil
  | cons a l ih =>
    simp only [List.map_cons, List.nodup_cons]
    constructor
    · intro h
      obtain ⟨x, hx, he⟩ := List.mem_map.mp h
      have h1 := hd (f a)
      simp only [List.filter_cons, decide_true, if_true, List.length_cons] at h1
      have h2 : x ∈ l.filter fun y => decide (f y = f a) := List.mem_filter.mpr ⟨hx, by simp [he]⟩
      have := List.length_pos_of_mem h2
      omega
    · apply ih
      intro b
      have := hd b
      rw [List.filter_cons] at this
      split at this
      · simp only [List.length_cons] at this; omega
      · exact this

theorem map_nodup {α β : Type} (f : α → β) (l : List α) (hd : l.Nodup) (hi : ∀ a ∈ l, ∀ b ∈ l, f a = f b → a = b) : (l.map f).Nodup := by
  induction l with
  | nil => exact List.nodup_nil
  | cons a l ih =>
    simp only [List.map_cons, List.nodup_cons] at hd ⊢
    constructor
    · intro h
      obtain ⟨x, hx, he⟩ := List.mem_map.mp h
      have := hi x (List.mem_cons_of_mem _ hx) a (List.mem_cons_self ..) he
      subst this
      exact hd.1 hx
    · exact ih hd.2 fun x hx y hy => hi x (List.mem_cons_of_mem _ hx) y (List.mem_cons_of_mem _ hy)

theorem nodup_of_map {α β : Type} (f : α → β) (l : List α) (hd : (l.map f).Nodup) : l.Nodup := by
  induction l with
  | nil => exact List.nodup_nil
  | cons a l ih =>
    simp only [List.map_cons, List.nodup_cons] at hd ⊢
    exact ⟨fun h => hd.1 (List.mem_map.mpr ⟨a, h, rfl⟩), ih hd.2⟩

/-- What is known of a directory, and what is mounted there. -/
theorem mountedAt_on {mp : Text} {w : World} {m : List (Text × Text)} (h : getMounted mp w = some m) (ho : Ours mp w) {x : Text} (hx : Plain x) :
    on w (mp ++ '/' :: x) = (mountedAt m x).toList := by
  obtain ⟨h1, h2, h3⟩ := getMounted_nodup h
  have h4 := nodup_filter_le (·.1) m h2 x
  have h5 := entries_on' mp x hx w ho
  rw [← h1] at h5
  have hl : (on w (mp ++ '/' :: x)).length ≤ 1 := by
    have := congrArg List.length h5
    rw [List.length_map, List.length_reverse] at this
    omega
  cases hm : mountedAt m x with
  | none =>
    cases hon : on w (mp ++ '/' :: x) with
    | nil => rfl
    | cons p r =>
      have hp : (p, mp ++ '/' :: x) ∈ w.mounts := (mem_on ..).mp (by rw [hon]; exact List.mem_cons_self ..)
      have := (mountedAt_iff h2 x p).mpr ((getMounted_mem h x p).mpr ⟨hp, ho p x hx hp, hx⟩)
      rw [hm] at this; cases this
  | some p =>
    have hp := (mem_on ..).mpr ((getMounted_mem h x p).mp ((mountedAt_iff h2 x p).mp hm)).1
    cases hon : on w (mp ++ '/' :: x) with
    | nil => rw [hon] at hp; cases hp
    | cons q r =>
      rw [hon] at hl hp
      cases r with
      | nil => simp only [List.mem_singleton] at hp; subst hp; rfl
      | cons _ _ => simp at hl

/-- When the list can be read. -/
theorem getMounted_some {mp : Text} {w : World} (ho : Ours mp w) (h1 : ∀ x, Plain x → (on w (mp ++ '/' :: x)).length ≤ 1)
    (h2 : ∀ x y p, Plain x → Plain y → (p, mp ++ '/' :: x) ∈ w.mounts → (p, mp ++ '/' :: y) ∈ w.mounts → x = y) :
    ∃ m, getMounted mp w = some m := by
  have hpl : ∀ e ∈ w.mounts.reverse.filterMap (entry mp), Plain e.1 ∧ (e.2, mp ++ '/' :: e.1) ∈ w.mounts := by
    rintro ⟨x, p⟩ he
    obtain ⟨e, he, hx⟩ := List.mem_filterMap.mp he
    obtain ⟨g1, g2, g3⟩ := (entry_iff mp e x p).mp hx
    rw [g1] at he
    exact ⟨g3, List.mem_reverse.mp he⟩
  have hn : ((w.mounts.reverse.filterMap (entry mp)).map (·.1)).Nodup := by
    apply le_nodup
    intro x
    by_cases hx : Plain x
    · have h5 := entries_on' mp x hx w ho
      have := congrArg List.length h5
      rw [List.length_map, List.length_reverse] at this
      have := h1 x hx
      omega
    · have : ((w.mounts.reverse.filterMap (entry mp)).filter fun e => decide (e.1 = x)) = [] := by
        rw [List.filter_eq_nil_iff]
        intro e he hee
        exact hx ((by simpa using hee : e.1 = x) ▸ (hpl e he).1)
      rw [this]
      exact Nat.zero_le _
  refine ⟨_, if_pos ⟨hn, map_nodup _ _ (nodup_of_map _ _ hn) ?_⟩⟩
  rintro ⟨x, p⟩ ha ⟨y, q⟩ hb (rfl : p = q)
  have := h2 x y p (hpl _ ha).1 (hpl _ hb).1 (hpl _ ha).2 (hpl _ hb).2
  subst this
  rfl

theorem cleanDirs_acts (c : Config) (env : Env) (m : List (Text × Text)) (dirs : List Text) :
    ∀ a ∈ (cleanDirs c env m dirs).1, ∃ x ∈ dirs, a = .rmdir (c.mountPath ++ '/' :: x) ∧ mountedAt m x = none ∧ ∃ f, c.clean = some f ∧ f x = true := by
  induction dirs with
  | nil => intro a ha; cases ha
  | cons x xs ih =>
    have tail : ∀ a ∈ (cleanDirs c env m xs).1, ∃ y ∈ x :: xs, a = .rmdir (c.mountPath ++ '/' :: y) ∧ mountedAt m y = none ∧ ∃ f, c.clean = some f ∧ f y = true := by
      intro a ha
      obtain ⟨y, hy, r⟩ := ih a ha
      exact ⟨y, List.mem_cons_of_mem _ hy, r⟩
    intro a ha
    rw [cleanDirs] at ha
    cases hc : c.clean with
    | none => rw [hc] at ha; simp only [Bool.false_and, Bool.false_eq_true, if_false] at ha; rw [hc] at tail; exact tail a ha
    | some f =>
      rw [hc] at ha tail
      simp only [] at ha
      by_cases hg : (f x && (mountedAt m x).isNone) = true
      · rw [if_pos hg] at ha
        rw [Bool.and_eq_true, Option.isNone_iff_eq_none] at hg
        split at ha
        · rcases List.mem_cons.mp ha with rfl | ha
          · exact ⟨x, List.mem_cons_self .., rfl, hg.2, f, rfl, hg.1⟩
          · exact tail a ha
        · rcases List.mem_singleton.mp ha with rfl
          exact ⟨x, List.mem_cons_self .., rfl, hg.2, f, rfl, hg.1⟩
      · rw [if_neg hg] at ha
        exact tail a ha

theorem cleanDirs_ok (c : Config) (env : Env) (m : List (Text × Text)) (dirs : List Text) (h : ∀ dir, env.works (.rmdir dir) = true) :
    (cleanDirs c env m dirs).2 = true := by
  induction dirs with
  | nil => rfl
  | cons x xs ih =>
    rw [cleanDirs]
    simp only [h, if_true]
    cases c.clean with
    | none => simpa using ih
    | some f =>
      by_cases hg : (f x && (mountedAt m x).isNone) = true
      · simp only [hg, if_true]; exact ih
      · simp only [hg]; exact ih

end Verif.Disktool
