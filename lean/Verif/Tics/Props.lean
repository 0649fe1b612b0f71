import Verif.Tics.Lemmas

/-!
# Properties of the ticks of plots (C140, C141, C142)
-/

namespace Verif.Tics

/-- What a label says of the time at which it stands: midnight of a day, or a time of the day. -/
def Says (z : Zone) : Label → Int → Prop
  | .date d, t => z.loc t = 86400 * d
  | .hm h m, t => z.loc t % 86400 = 3600 * h + 60 * m ∧ 0 ≤ h ∧ 0 ≤ m ∧ m < 60
  | .hms h m s, t => z.loc t % 86400 = 3600 * h + 60 * m + s ∧ 0 ≤ h ∧ 0 ≤ m ∧ m < 60 ∧ 0 ≤ s ∧ s < 60

/-- A zone that is always the same, whole hours from Greenwich. -/
def Fixed (z : Zone) : Prop := ∃ c : Int, c % 3600 = 0 ∧ ∀ t, z.off t = c

/-- Where the search for midnight begins. -/
def from0 (start : Int) : Int := 172800 * (start / 172800) - 86400

theorem tdiv_eq {a : Int} (h : 0 ≤ a) (b : Int) : a.tdiv b = a / b := Int.tdiv_eq_ediv_of_nonneg h

/-! ## C140: the places -/

/-- The parts of a result below twelve days. -/
theorem plottics_some {z : Zone} {fuel n : Nat} {start stop : Int} {rel : Bool} {step : Int} (hs : 0 ≤ start)
    (hstep : tickstep (stop - start) = some step) {ts : List (Label × Int)} (h : plottics z fuel n start stop rel = some ts) :
    ∃ lmin, seek (fun u => decide (z.hour u = 0)) fuel (from0 start) = some lmin ∧
      (times stop step (tickstep_pos hstep) (skip start step (tickstep_pos hstep) lmin)).mapM (tick z rel step) = some ts := by
  unfold plottics at h
  split at h
  · rename_i h'; rw [hstep] at h'; cases h'
  · rename_i step' h'
    have e : step' = step := by rw [hstep] at h'; cases h'; rfl
    subst e
    rw [tdiv_eq hs] at h
    have e : (48 * 3600 * (start / (48 * 3600)) - 24 * 3600 : Int) = from0 start := rfl
    rw [e] at h
    split at h
    · cases h
    · rename_i lmin hl
      exact ⟨lmin, hl, by rw [← ticks_eq]; exact h⟩

theorem tick_place {z : Zone} {step lmin : Int} {r : Label × Int} (h : tick z false step lmin = some r) : r.2 = lmin := by
  unfold tick at h
  simp only [Bool.false_eq_true, if_false] at h
  generalize (if step ≥ 24 * 3600 then if z.hour lmin = 1 then lmin - 3600 else if z.hour lmin = 23 then lmin + 3600 else lmin else lmin) = tmin at h
  split at h
  · split at h
    · cases h; rfl
    · cases h
  · split at h <;> (cases h; rfl)

/-- Below twelve days the ticks stand at equal distances from the start to the end, none is left out, and there are at most twenty of them, twelve from three hours on. (`hmid` says that within a day of where the search begins there is an hour of midnight.) -/
theorem places (z : Zone) (fuel n : Nat) (start stop step : Int) (hs : 0 ≤ start) (hstep : tickstep (stop - start) = some step)
    (hmid : ∃ k : Nat, k ≤ 24 ∧ k < fuel ∧ z.hour (from0 start + 3600 * k) = 0)
    (ts : List (Label × Int)) (h : plottics z fuel n start stop false = some ts) :
    ∃ (first : Int) (m : Nat), ts.map Prod.snd = (List.range m).map (fun k : Nat => first + step * (k : Int)) ∧
      start ≤ first ∧ first < start + step ∧ stop ≤ first + step * m ∧ (0 < m → first + step * ((m : Int) - 1) < stop) ∧
      m ≤ 20 ∧ (3 * 3600 < stop - start → m ≤ 12) := by
  obtain ⟨lmin, hl, hm⟩ := plottics_some hs hstep h
  obtain ⟨f1, -, -, -, -, f2, f3⟩ := tickstep_facts hstep
  have hle : lmin ≤ start := by
    obtain ⟨k, hk, hkf, hz⟩ := hmid
    obtain ⟨u, hu, hub⟩ := seek_some (fun u => decide (z.hour u = 0)) fuel (from0 start) k hkf (by simpa using hz)
    rw [hu] at hl; cases hl
    unfold from0 at hub
    omega
  generalize hfirst : skip start step (tickstep_pos hstep) lmin = first at hm
  have hsk := skip_spec start step (tickstep_pos hstep) lmin
  rw [hfirst] at hsk
  obtain ⟨m, ht, h1, h2⟩ := times_spec stop step (tickstep_pos hstep) first
  have hcount : ∀ c : Int, stop - start ≤ c * step → 0 ≤ c → (m : Int) ≤ c := by
    intro c hc hc0
    cases m with
    | zero => simpa using hc0
    | succ m =>
      have h2' := h2 (by omega)
      have e : ((m + 1 : Nat) : Int) - 1 = m := by omega
      rw [e] at h2'
      have h3 : step * (m : Int) < step * c := by rw [Int.mul_comm step c]; omega
      have := Int.lt_of_mul_lt_mul_left h3 (by omega)
      omega
  refine ⟨first, m, ?_, hsk.1, hsk.2.2 (by omega), h1, h2, ?_, ?_⟩
  · rw [← ht]
    obtain ⟨hlen, hall⟩ := mapM_some hm
    apply List.ext_getElem (by simp [hlen])
    intro i hi1 hi2
    simp only [List.getElem_map]
    exact tick_place (hall i hi2 (by simpa using hi1))
  · have := hcount 20 f2 (by omega); omega
  · intro hh; have := hcount 12 (f3 hh) (by omega); omega

theorem fixed_mid {z : Zone} (hz : Fixed z) (t : Int) (ht : t % 3600 = 0) : ∃ k : Nat, k < 24 ∧ z.loc (t + 3600 * k) % 86400 = 0 := by
  obtain ⟨c, hc, hz⟩ := hz
  refine ⟨((-(t + c) / 3600) % 24).toNat, by omega, ?_⟩
  unfold Zone.loc
  rw [hz]
  omega

theorem hour_zero {z : Zone} {t : Int} : z.hour t = 0 ↔ z.loc t % 86400 < 3600 := by
  unfold Zone.hour; omega

/-- Such an hour exists in a fixed zone. -/
theorem fixed_has_mid (z : Zone) (hz : Fixed z) (start : Int) (fuel : Nat) (hf : 24 ≤ fuel) :
    ∃ k : Nat, k ≤ 24 ∧ k < fuel ∧ z.hour (from0 start + 3600 * k) = 0 := by
  obtain ⟨k, h1, h2⟩ := fixed_mid hz (from0 start) (by unfold from0; omega)
  exact ⟨k, by omega, by omega, hour_zero.2 (by omega)⟩

/-- In a fixed zone the places are round local times: multiples of the step since midnight. -/
theorem places_round (z : Zone) (hz : Fixed z) (fuel n : Nat) (start stop step : Int) (hs : 0 ≤ start) (hf : 24 ≤ fuel)
    (hstep : tickstep (stop - start) = some step)
    (ts : List (Label × Int)) (h : plottics z fuel n start stop false = some ts) : ∀ t ∈ ts, z.loc t.2 % step = 0 := by
  obtain ⟨lmin, hl, hm⟩ := plottics_some hs hstep h
  obtain ⟨f1, f1', f2, -⟩ := tickstep_facts hstep
  have hloc : z.loc lmin % 86400 = 0 := by
    obtain ⟨hh, k, hk, -⟩ := seek_spec _ _ _ _ hl
    have hh : z.hour lmin = 0 := by simpa using hh
    have := hour_zero.1 hh
    obtain ⟨c, hc, hz⟩ := hz
    unfold Zone.loc at *
    rw [hz] at *
    unfold from0 at hk
    omega
  have hd : step ∣ z.loc lmin := Int.dvd_trans (Int.dvd_of_emod_eq_zero f2) (Int.dvd_of_emod_eq_zero hloc)
  obtain ⟨-, ⟨k, hk⟩, -⟩ := skip_spec start step (tickstep_pos hstep) lmin
  obtain ⟨m, ht, -⟩ := times_spec stop step (tickstep_pos hstep) (skip start step (tickstep_pos hstep) lmin)
  obtain ⟨hlen, hall⟩ := mapM_some hm
  intro t hmem
  obtain ⟨i, hi, rfl⟩ := List.getElem_of_mem hmem
  have hp := tick_place (hall i (by omega) hi)
  rw [hp]
  have hi' : (times stop step (tickstep_pos hstep) (skip start step (tickstep_pos hstep) lmin))[i]'(by omega) = lmin + step * (k : Int) + step * (i : Int) := by
    rw [List.getElem_of_eq ht]; simp only [List.getElem_map, List.getElem_range]; rw [hk]
  rw [hi']
  obtain ⟨c, hc, hz⟩ := hz
  unfold Zone.loc at *
  rw [hz] at *
  apply Int.emod_eq_zero_of_dvd
  have e : lmin + step * (k : Int) + step * (i : Int) + c = (lmin + c) + step * (k + i) := by rw [Int.mul_add]; omega
  rw [e]
  exact Int.dvd_add hd (Int.dvd_mul_right _ _)

/-! ## C141: the labels -/

theorem label_says {z : Zone} {t : Int} {l : Label}
    (h : (if z.hour t = 0 then if z.min t = 0 ∧ z.sec t = 0 then some (Label.date (z.day t)) else none
      else if z.sec t = 0 then some (.hm (z.hour t) (z.min t)) else some (.hms (z.hour t) (z.min t) (z.sec t))) = some l) :
    Says z l t := by
  unfold Zone.hour Zone.min Zone.sec Zone.day at h
  split at h
  · split at h
    · cases h
      simp only [Says]
      omega
    · cases h
  · split at h
    · cases h
      simp only [Says]
      omega
    · cases h
      simp only [Says]
      omega

/-- A tick: its label is true of a time that is its place, or an hour from it, and this only for steps of a day with absolute places. -/
theorem tick_says {z : Zone} {rel : Bool} {step lmin : Int} {r : Label × Int} (h : tick z rel step lmin = some r) :
    ∃ tm, Says z r.1 tm ∧ ((rel = true ∨ step < 86400) → tm = r.2) ∧ (tm - r.2 = 0 ∨ tm - r.2 = 3600 ∨ tm - r.2 = -3600) := by
  unfold tick at h
  simp only [] at h
  generalize htm : (if step ≥ 24 * 3600 then if z.hour lmin = 1 then lmin - 3600 else if z.hour lmin = 23 then lmin + 3600 else lmin else lmin) = tmin at h
  have hpl : r.2 = if rel then tmin else lmin := by
    split at h
    · split at h
      · cases h; rfl
      · cases h
    · split at h <;> (cases h; rfl)
  have hlab : Says z r.1 tmin := by
    apply label_says
    split at h
    · rename_i h1
      rw [if_pos h1]
      split at h
      · rename_i h2; rw [if_pos h2]; cases h; rfl
      · cases h
    · rename_i h1
      rw [if_neg h1]
      split at h
      · rename_i h2; rw [if_pos h2]; cases h; rfl
      · rename_i h2; rw [if_neg h2]; cases h; rfl
  refine ⟨tmin, hlab, ?_, ?_⟩
  · rintro (hr | hr)
    · rw [hpl, hr]; rfl
    · rw [if_neg (by omega)] at htm
      rw [hpl, ← htm]; simp
  · rw [hpl]
    cases rel
    · simp only [Bool.false_eq_true, if_false]
      split at htm
      · split at htm
        · omega
        · split at htm <;> omega
      · omega
    · simp

/-- Every label says the local time of the place where it stands, in any zone, for places relative to the start and for steps below a day. -/
theorem labels_true_partial (z : Zone) (fuel n : Nat) (start stop step : Int) (rel : Bool) (hs : 0 ≤ start)
    (hstep : tickstep (stop - start) = some step) (hr : rel = true ∨ step < 86400)
    (ts : List (Label × Int)) (h : plottics z fuel n start stop rel = some ts) : ∀ t ∈ ts, Says z t.1 t.2 := by
  obtain ⟨lmin, hl, hm⟩ := plottics_some hs hstep h
  obtain ⟨hlen, hall⟩ := mapM_some hm
  intro t hmem
  obtain ⟨i, hi, rfl⟩ := List.getElem_of_mem hmem
  obtain ⟨tm, h1, h2, -⟩ := tick_says (hall i (by omega) hi)
  rw [← h2 hr]; exact h1

/-- With steps of a day and absolute places it is true of a time at most an hour away. -/
theorem labels_near (z : Zone) (fuel n : Nat) (start stop step : Int) (rel : Bool) (hs : 0 ≤ start)
    (hstep : tickstep (stop - start) = some step)
    (ts : List (Label × Int)) (h : plottics z fuel n start stop rel = some ts) :
    ∀ t ∈ ts, ∃ tm, Says z t.1 tm ∧ t.2 - 3600 ≤ tm ∧ tm ≤ t.2 + 3600 := by
  obtain ⟨lmin, hl, hm⟩ := plottics_some hs hstep h
  obtain ⟨hlen, hall⟩ := mapM_some hm
  intro t hmem
  obtain ⟨i, hi, rfl⟩ := List.getElem_of_mem hmem
  obtain ⟨tm, h1, -, h2⟩ := tick_says (hall i (by omega) hi)
  exact ⟨tm, h1, by omega, by omega⟩

/-- In a fixed zone the ticks are made, if no time of the plot is between midnight and one o'clock, or the step is at least an hour; all labels are then true, relative or not. -/
theorem fixed_labels_partial (z : Zone) (hz : Fixed z) (fuel n : Nat) (start stop step : Int) (rel : Bool) (hs : 0 ≤ start)
    (hf : 24 ≤ fuel) (hstep : tickstep (stop - start) = some step)
    (hhour : step < 3600 → ∀ t, start ≤ t → t < stop → z.hour t = 0 → z.loc t % 86400 = 0) :
    ∃ ts, plottics z fuel n start stop rel = some ts ∧ ∀ t ∈ ts, Says z t.1 t.2 := by
  obtain ⟨f1, f1', f2, -, f3, -⟩ := tickstep_facts hstep
  obtain ⟨k, hk1, hk2, hk3⟩ := fixed_has_mid z hz start fuel hf
  obtain ⟨lmin, hl, -⟩ := seek_some (fun u => decide (z.hour u = 0)) fuel (from0 start) k hk2 (by simpa using hk3)
  have hloc : z.loc lmin % 86400 = 0 := by
    obtain ⟨hh, k, hk, -⟩ := seek_spec _ _ _ _ hl
    have hh : z.hour lmin = 0 := by simpa using hh
    have := hour_zero.1 hh
    obtain ⟨c, hc, hz⟩ := hz
    unfold Zone.loc at *
    rw [hz] at *
    unfold from0 at hk
    omega
  obtain ⟨hst, ⟨k, hk⟩, -⟩ := skip_spec start step (tickstep_pos hstep) lmin
  obtain ⟨m, ht, -, hlast⟩ := times_spec stop step (tickstep_pos hstep) (skip start step (tickstep_pos hstep) lmin)
  have hd : step ∣ z.loc lmin := Int.dvd_trans (Int.dvd_of_emod_eq_zero f2) (Int.dvd_of_emod_eq_zero hloc)
  have hmem : ∀ t ∈ times stop step (tickstep_pos hstep) (skip start step (tickstep_pos hstep) lmin),
      start ≤ t ∧ t < stop ∧ z.loc t % step = 0 := by
    intro t hmem
    rw [ht] at hmem
    obtain ⟨i, hi, rfl⟩ := List.mem_map.1 hmem
    have him : i < m := by simpa using hi
    have hpos : 0 ≤ step * (i : Int) := Int.mul_nonneg (by omega) (by omega)
    refine ⟨by omega, ?_, ?_⟩
    · have := hlast (by omega)
      have : step * (i : Int) ≤ step * ((m : Int) - 1) := Int.mul_le_mul_of_nonneg_left (by omega) (by omega)
      omega
    · obtain ⟨c, hc, hz⟩ := hz
      unfold Zone.loc at *
      rw [hz] at *
      rw [hk]
      apply Int.emod_eq_zero_of_dvd
      have e : lmin + step * (k : Int) + step * (i : Int) + c = (lmin + c) + step * (k + i) := by rw [Int.mul_add]; omega
      rw [e]
      exact Int.dvd_add hd (Int.dvd_mul_right _ _)
  have htick : ∀ t ∈ times stop step (tickstep_pos hstep) (skip start step (tickstep_pos hstep) lmin),
      ∃ r, tick z rel step t = some r ∧ Says z r.1 r.2 := by
    intro t hm
    obtain ⟨h1, h2, h3⟩ := hmem t hm
    have hzero : z.hour t = 0 → z.loc t % 86400 = 0 := by
      intro hh
      by_cases hlt : step < 3600
      · exact hhour hlt t h1 h2 hh
      · have h4 := f3 (by omega)
        have : (3600 : Int) ∣ z.loc t := Int.dvd_trans (Int.dvd_of_emod_eq_zero h4) (Int.dvd_of_emod_eq_zero h3)
        have := hour_zero.1 hh
        omega
    have htm : (if step ≥ 24 * 3600 then if z.hour t = 1 then t - 3600 else if z.hour t = 23 then t + 3600 else t else t) = t := by
      split
      · have : step = 86400 := by omega
        rw [this] at h3
        have : z.hour t = 0 := hour_zero.2 (by omega)
        rw [this]; rfl
      · rfl
    have hex : ∃ r, tick z rel step t = some r := by
      unfold tick
      simp only [htm]
      split
      · rename_i hh
        have := hzero hh
        rw [if_pos]
        · exact ⟨_, rfl⟩
        · unfold Zone.min Zone.sec; omega
      · split <;> exact ⟨_, rfl⟩
    obtain ⟨r, hr⟩ := hex
    refine ⟨r, hr, ?_⟩
    have hplace : r.2 = t := by
      unfold tick at hr
      simp only [htm] at hr
      split at hr
      · split at hr
        · cases hr; simp
        · cases hr
      · split at hr <;> (cases hr; simp)
    have hlab : Says z r.1 t := by
      apply label_says
      unfold tick at hr
      simp only [htm] at hr
      split at hr
      · rename_i h1
        rw [if_pos h1]
        split at hr
        · rename_i h2; rw [if_pos h2]; cases hr; rfl
        · cases hr
      · rename_i h1
        rw [if_neg h1]
        split at hr
        · rename_i h2; rw [if_pos h2]; cases hr; rfl
        · rename_i h2; rw [if_neg h2]; cases hr; rfl
    rw [hplace]; exact hlab
  obtain ⟨ts, hts⟩ := mapM_exists (f := tick z rel step) (fun t hm => (htick t hm).imp fun r hr => hr.1)
  refine ⟨ts, ?_, ?_⟩
  · unfold plottics
    split
    · rename_i h'; rw [hstep] at h'; cases h'
    · rename_i step' h'
      have e : step' = step := by rw [hstep] at h'; cases h'; rfl
      subst e
      rw [tdiv_eq hs]
      have e : (48 * 3600 * (start / (48 * 3600)) - 24 * 3600 : Int) = from0 start := rfl
      rw [e, hl]
      simp only []
      rw [ticks_eq]; exact hts
  · intro t hm
    obtain ⟨hlen, hall⟩ := mapM_some hts
    obtain ⟨i, hi, rfl⟩ := List.getElem_of_mem hm
    have hi' : i < (times stop step (tickstep_pos hstep) (skip start step (tickstep_pos hstep) lmin)).length := by omega
    obtain ⟨r, h1, h2⟩ := htick _ (List.getElem_mem hi')
    have := hall i hi' hi
    rw [h1] at this
    cases this
    exact h2

/-- Greenwich; India; a zone that puts its clocks forward by an hour at 950000000. -/
def utc : Zone := { off := fun _ => 0, mdayOf := fun d => (d % 30).toNat + 1 }
def india : Zone := { off := fun _ => 19800, mdayOf := fun d => (d % 30).toNat + 1 }
def summer : Zone := { off := fun t => if t < 950000000 then 0 else 3600, mdayOf := fun d => (d % 30).toNat + 1 }

/-- Five minutes after midnight cannot be plotted: the second tick, at 0:00:30, is taken for midnight and the program dies. -/
theorem after_midnight_false : ¬∀ (start stop : Int), 0 ≤ start → start < stop → stop - start < 12 * 86400 →
    plottics utc 100 100 start stop false ≠ none := by
  intro h
  exact h 864000000 864000300 (by decide) (by decide) (by decide) (by decide +kernel)

/-- In a zone that is not whole hours from Greenwich no day can be plotted. -/
theorem half_hour_false : plottics india 100 100 864000000 864086400 false = none := by decide +kernel

/-- When the clocks change, absolute places keep the uncorrected time: the label of a day stands at one o'clock. -/
theorem summer_false : ¬∀ (z : Zone) (start stop : Int) (ts : List (Label × Int)), 0 ≤ start → start < stop →
    plottics z 100 100 start stop false = some ts → ∀ t ∈ ts, Says z t.1 t.2 := by
  intro h
  have := h summer 949449600 950313600 [(.date 10989, 949449600), (.date 10990, 949536000), (.date 10991, 949622400), (.date 10992, 949708800), (.date 10993, 949795200),
    (.date 10994, 949881600), (.date 10995, 949968000), (.date 10996, 950054400), (.date 10997, 950140800), (.date 10998, 950227200)]
    (by decide) (by decide) (by decide +kernel) (.date 10998, 950227200) (by simp)
  simp only [Says, Zone.loc, summer] at this
  omega

/-! ## C142: twelve days and more -/

theorem weekly_spec (z : Zone) (fuel : Nat) (stop w : Int) : ∀ (n : Nat) (t : Int) (ts : List (Label × Int)), z.wday t = w →
    weekly z fuel stop w n t = some ts →
    (∀ x ∈ ts, t ≤ x.2 ∧ x.2 < stop ∧ z.wday x.2 = w ∧ x.1 = .date (z.day x.2)) ∧
      ts.Pairwise (fun x y => x.2 + 6 * 86400 ≤ y.2) ∧ (t < stop → ts.head? = some (.date (z.day t), t))
  | 0, t, ts, _, h => by simp [weekly] at h
  | n + 1, t, ts, hw, h => by
    unfold weekly at h
    split at h
    · rename_i hlt
      split at h
      · cases h
      · rename_i u hu
        obtain ⟨hp, k, hk, -⟩ := seek_spec _ _ _ _ hu
        have hp : z.wday u = w := by simpa using hp
        cases hr : weekly z fuel stop w n u with
        | none => rw [hr] at h; cases h
        | some rest =>
          rw [hr] at h
          simp only [Option.map_some, Option.some.injEq] at h
          subst h
          obtain ⟨i1, i2, -⟩ := weekly_spec z fuel stop w n u rest hp hr
          refine ⟨?_, ?_, fun _ => rfl⟩
          · intro x hx
            simp only [List.mem_cons] at hx
            rcases hx with rfl | hx
            · exact ⟨by simp, hlt, hw, rfl⟩
            · have := i1 x hx
              exact ⟨by omega, this.2⟩
          · refine List.pairwise_cons.2 ⟨?_, i2⟩
            intro x hx
            have := i1 x hx
            simp only []
            omega
    · cases h
      exact ⟨by simp, by simp, by omega⟩

theorem fixed_week {z : Zone} (hz : Fixed z) {t : Int} (ht : z.loc t % 86400 = 0) {fuel : Nat} (hf : 25 ≤ fuel) :
    seek (fun u => decide (z.wday u = z.wday t)) fuel (t + 86400 * 6) = some (t + 604800) := by
  obtain ⟨c, hc, hz⟩ := hz
  have hwd : ∀ u, z.wday u = ((u + c) / 86400 + 4) % 7 := by
    intro u; unfold Zone.wday Zone.day Zone.loc; rw [hz]
  unfold Zone.loc at ht
  rw [hz] at ht
  obtain ⟨u, hu, hub⟩ := seek_some (fun u => decide (z.wday u = z.wday t)) fuel (t + 86400 * 6) 24 (by omega) (by
    simp only [hwd, decide_eq_true_eq]; omega)
  obtain ⟨hp, k, hk, -, -⟩ := seek_spec _ _ _ _ hu
  simp only [hwd, decide_eq_true_eq] at hp
  rw [hu]
  congr 1
  omega

/-- In a fixed zone: all the midnights of the weekday, seven days apart. -/
theorem weekly_fixed (z : Zone) (hz : Fixed z) (fuel : Nat) (hf : 25 ≤ fuel) (stop : Int) (w : Int) : ∀ (n : Nat) (t : Int),
    z.loc t % 86400 = 0 → z.wday t = w → stop - t < 604800 * (n : Int) →
    weekly z fuel stop w (n + 1) t = some ((times stop 604800 (by decide) t).map fun u => (.date (z.day u), u))
  | 0, t, _, _, hn => by
    rw [times, if_neg (by omega)]
    simp only [weekly]
    rw [if_neg (by omega)]; rfl
  | n + 1, t, ht, hw, hn => by
    rw [times]
    unfold weekly
    split
    · have hs := fixed_week hz ht hf
      rw [← hw, hs]
      simp only []
      have hloc : z.loc (t + 604800) % 86400 = 0 ∧ z.wday (t + 604800) = z.wday t := by
        obtain ⟨c, hc, hz⟩ := hz
        unfold Zone.wday Zone.day Zone.loc at *
        rw [hz] at *
        rw [hz]
        omega
      rw [weekly_fixed z ⟨_, hz.choose_spec⟩ fuel hf stop (z.wday t) n (t + 604800) hloc.1 hloc.2 (by omega)]
      rfl
    · rfl

/-- From twelve days to twelve weeks: a tick each week. In any zone they are before the end and not more than an hour before the start, on the same day of the week, at least six days apart, each with the date of its day; in a fixed zone they are made, stand at midnight, seven days apart, the first within a day of the start. -/
theorem weekly_ticks (z : Zone) (fuel n : Nat) (start stop : Int) (hs : 0 ≤ start) (h12 : tickstep (stop - start) = none)
    (h84 : stop - start ≤ 84 * 86400) (rel : Bool) :
    (∀ ts, plottics z fuel n start stop rel = some ts →
      ∃ w, (∀ t ∈ ts, start - 3600 < t.2 ∧ t.2 < stop ∧ z.wday t.2 = w ∧ t.1 = .date (z.day t.2)) ∧
        ts.Pairwise (fun x y => x.2 + 6 * 86400 ≤ y.2)) ∧
    (Fixed z → 25 ≤ fuel → 14 ≤ n → ∃ ts, ∃ first : Int, plottics z fuel n start stop rel = some ts ∧
      start - 3600 < first ∧ first < start + 86400 ∧ ts.map Prod.snd = times stop 604800 (by decide) first ∧ ∀ t ∈ ts, Says z t.1 t.2) := by
  have hge := tickstep_none h12
  have hpl : plottics z fuel n start stop rel = large z fuel n start stop := by
    unfold plottics
    split
    · rfl
    · rename_i h'; rw [h12] at h'; cases h'
  rw [hpl]
  unfold large
  rw [tdiv_eq hs]
  constructor
  · intro ts h
    split at h
    · cases h
    · rename_i daymin hd
      rw [if_pos (by omega)] at h
      obtain ⟨-, k, hk, -⟩ := seek_spec _ _ _ _ hd
      obtain ⟨h1, h2, -⟩ := weekly_spec z fuel stop _ n daymin ts rfl h
      refine ⟨z.wday daymin, ?_, h2⟩
      intro t ht
      have := h1 t ht
      refine ⟨by omega, this.2⟩
  · intro hz hf hn
    obtain ⟨k, hk1, hk2⟩ := fixed_mid hz (3600 * (start / 3600)) (by omega)
    obtain ⟨daymin, hd, hdb⟩ := seek_some (fun u => decide (z.hour u = 0)) fuel (3600 * (start / 3600)) k (by omega)
      (by simp only [decide_eq_true_eq]; exact hour_zero.2 (by omega))
    obtain ⟨hp, j, hj, -⟩ := seek_spec _ _ _ _ hd
    have hloc : z.loc daymin % 86400 = 0 := by
      have hp : z.hour daymin = 0 := by simpa using hp
      have := hour_zero.1 hp
      obtain ⟨c, hc, hz⟩ := hz
      unfold Zone.loc at *
      rw [hz] at *
      omega
    rw [hd]
    simp only []
    rw [if_pos (by omega)]
    obtain ⟨n', rfl⟩ : ∃ n', n = n' + 1 := ⟨n - 1, by omega⟩
    refine ⟨_, daymin, weekly_fixed z hz fuel hf stop _ n' daymin hloc rfl (by omega), by omega, by omega, ?_, ?_⟩
    · rw [List.map_map]
      conv => rhs; rw [← List.map_id (times stop 604800 (by decide) daymin)]
      rfl
    · intro t ht
      obtain ⟨u, hu, rfl⟩ := List.mem_map.1 ht
      obtain ⟨m, htm, -⟩ := times_spec stop 604800 (by decide) daymin
      rw [htm] at hu
      obtain ⟨i, -, rfl⟩ := List.mem_map.1 hu
      simp only [Says]
      obtain ⟨c, hc, hz⟩ := hz
      unfold Zone.day Zone.loc at *
      rw [hz] at *
      omega

theorem monthly_spec (z : Zone) (fuel : Nat) (range stop : Int) (md : Nat) : ∀ (n : Nat) (t prev : Int) (ts : List (Label × Int)),
    z.mday t = md → monthly z fuel range stop md n t prev = some ts →
    (∀ x ∈ ts, t ≤ x.2 ∧ x.2 ≤ stop ∧ z.mday x.2 = md ∧ x.1 = .date (z.day x.2) ∧ range < (x.2 - prev) * 11) ∧
      ts.Pairwise (fun x y => range < (y.2 - x.2) * 11)
  | 0, t, prev, ts, _, h => by simp [monthly] at h
  | n + 1, t, prev, ts, hm, h => by
    unfold monthly at h
    split at h
    · rename_i hle
      split at h
      · cases h
      · rename_i u hu
        obtain ⟨hp, k, hk, -⟩ := seek_spec _ _ _ _ hu
        have hp : z.mday u = md := by simpa using hp
        split at h
        · rename_i hgap
          cases hr : monthly z fuel range stop md n u t with
          | none => rw [hr] at h; cases h
          | some rest =>
            rw [hr] at h
            simp only [Option.map_some, Option.some.injEq] at h
            subst h
            obtain ⟨i1, i2⟩ := monthly_spec z fuel range stop md n u t rest hp hr
            refine ⟨?_, List.pairwise_cons.2 ⟨fun x hx => (i1 x hx).2.2.2.2, i2⟩⟩
            intro x hx
            simp only [List.mem_cons] at hx
            rcases hx with rfl | hx
            · exact ⟨by simp, hle, hm, rfl, hgap⟩
            · have := i1 x hx
              refine ⟨by omega, this.2.1, this.2.2.1, this.2.2.2.1, by omega⟩
        · obtain ⟨i1, i2⟩ := monthly_spec z fuel range stop md n u prev ts hp h
          refine ⟨fun x hx => ?_, i2⟩
          have := i1 x hx
          exact ⟨by omega, this.2⟩
    · cases h
      simp

/-- Places more than an eleventh of the range apart. -/
theorem gap_count (range : Int) : ∀ (ps : List Int) (lo hi : Int), 0 ≤ range → (∀ x ∈ ps, lo ≤ x ∧ x ≤ hi) →
    ps.Pairwise (fun x y => range < (y - x) * 11) → ps = [] ∨ range * ((ps.length : Int) - 1) ≤ (hi - lo) * 11
  | [], _, _, _, _, _ => Or.inl rfl
  | [x], lo, hi, hr, hb, _ => by
    have := hb x (by simp)
    right
    simp
    omega
  | x :: y :: ps, lo, hi, hr, hb, hp => by
    right
    have hx := hb x (by simp)
    have hp' := List.pairwise_cons.1 hp
    have hxy := hp'.1 y (by simp)
    have := gap_count range (y :: ps) y hi hr (by
      intro u hu
      refine ⟨?_, (hb u (by simp [hu])).2⟩
      simp only [List.mem_cons] at hu
      rcases hu with rfl | hu
      · omega
      · have := (List.pairwise_cons.1 hp'.2).1 u hu
        omega) hp'.2
    rcases this with h | h
    · cases h
    · have e : range * (((x :: y :: ps).length : Int) - 1) = range * (((y :: ps).length : Int) - 1) + range := by
        simp only [List.length_cons]
        have : ((ps.length + 1 + 1 : Nat) : Int) - 1 = (((ps.length + 1 : Nat) : Int) - 1) + 1 := by omega
        rw [this, Int.mul_add]; omega
      rw [e]
      omega

/-- Above twelve weeks: the last tick is the end; the others are on one day of the month with its date, not more than an hour before the start; any two, the last included, are more than an eleventh of the range apart, so that there are at most twelve. -/
theorem monthly_ticks (z : Zone) (fuel n : Nat) (start stop : Int) (hs : 0 ≤ start) (h84 : 84 * 86400 < stop - start) (rel : Bool)
    (ts : List (Label × Int)) (h : plottics z fuel n start stop rel = some ts) :
    ∃ md body, ts = body ++ [(.date (z.day stop), stop)] ∧
      (∀ t ∈ body, start - 3600 < t.2 ∧ t.2 < stop ∧ z.mday t.2 = md ∧ t.1 = .date (z.day t.2)) ∧
      ts.Pairwise (fun x y => stop - start < (y.2 - x.2) * 11) ∧ ts.length ≤ 12 := by
  have hpl : plottics z fuel n start stop rel = large z fuel n start stop := by
    unfold plottics
    split
    · rfl
    · rename_i step h'
      obtain ⟨-, f1, -, -, -, -, f2⟩ := tickstep_facts h'
      have := f2 (by omega)
      omega
  rw [hpl] at h
  unfold large at h
  rw [tdiv_eq hs] at h
  split at h
  · cases h
  · rename_i daymin hd
    rw [if_neg (by omega)] at h
    obtain ⟨-, k, hk, -⟩ := seek_spec _ _ _ _ hd
    cases hr : monthly z fuel (stop - start) stop (z.mday daymin) n daymin (start - 1000000 * 3600) with
    | none => rw [hr] at h; cases h
    | some us =>
      rw [hr] at h
      simp only [Option.map_some, Option.some.injEq] at h
      obtain ⟨h1, h2⟩ := monthly_spec z fuel _ stop _ n daymin _ us rfl hr
      have hdl : us.dropLast.Pairwise (fun x y => stop - start < (y.2 - x.2) * 11) := h2.sublist (List.dropLast_sublist us)
      have hbefore : ∀ t ∈ us.dropLast, stop - start < (stop - t.2) * 11 := by
        intro t ht
        have hne : us ≠ [] := by rintro rfl; simp at ht
        have hsplit := List.dropLast_concat_getLast hne
        have hp := h2
        rw [← hsplit, List.pairwise_append] at hp
        have h3 := hp.2.2 t ht _ (List.mem_singleton.2 rfl)
        have h4 := (h1 _ (List.getLast_mem hne)).2.1
        omega
      have hpw : (us.dropLast ++ [(Label.date (z.day stop), stop)]).Pairwise (fun x y => stop - start < (y.2 - x.2) * 11) := by
        rw [List.pairwise_append]
        refine ⟨hdl, by simp, ?_⟩
        intro x hx y hy
        simp only [List.mem_singleton] at hy
        subst hy
        exact hbefore x hx
      refine ⟨z.mday daymin, us.dropLast, h.symm, ?_, by rw [← h]; exact hpw, ?_⟩
      · intro t ht
        have h5 := h1 t (List.dropLast_subset us ht)
        have := hbefore t ht
        exact ⟨by omega, by omega, h5.2.2.1, h5.2.2.2.1⟩
      · rw [← h]
        have hb : ∀ x ∈ (us.dropLast ++ [(Label.date (z.day stop), stop)]).map Prod.snd, start - 3600 ≤ x ∧ x ≤ stop := by
          intro x hx
          obtain ⟨t, ht, rfl⟩ := List.mem_map.1 hx
          rw [List.mem_append] at ht
          rcases ht with ht | ht
          · have := h1 t (List.dropLast_subset us ht)
            omega
          · simp only [List.mem_singleton] at ht
            subst ht
            simp only []
            omega
        have hg := gap_count (stop - start) ((us.dropLast ++ [(Label.date (z.day stop), stop)]).map Prod.snd) (start - 3600) stop (by omega) hb
          (List.pairwise_map.2 hpw)
        rcases hg with hg | hg
        · simp at hg
        · rw [List.length_map] at hg
          generalize (us.dropLast ++ [(Label.date (z.day stop), stop)]).length = m at hg ⊢
          by_cases hm : m ≤ 12
          · exact hm
          · exfalso
            have : (stop - start) * 12 ≤ (stop - start) * ((m : Int) - 1) := Int.mul_le_mul_of_nonneg_left (by omega) (by omega)
            omega

/-- The first tick may stand before the start, which the others never do. -/
theorem before_start_false : ¬∀ (start stop : Int) (ts : List (Label × Int)), 0 ≤ start → start < stop →
    plottics utc 1000 1000 start stop false = some ts → ∀ t ∈ ts, start ≤ t.2 := by
  intro h
  have := h 864001800 865209600 [(.date 10000, 864000000), (.date 10007, 864604800)] (by decide) (by decide) (by decide +kernel)
    (.date 10000, 864000000) (by simp)
  simp at this

/-! ### The hypotheses can be met -/

example : Fixed utc := ⟨0, by decide, fun _ => rfl⟩

example : tickstep (864043200 - 864000000) = some 3600 ∧ (plottics utc 100 100 864000000 864010000 false).isNone ∧
    plottics utc 100 100 864040000 864043600 false = some ((List.range 20).map fun k : Nat =>
      (Label.hm ((40140 + 180 * k : Nat) / 3600) ((40140 + 180 * k : Nat) % 3600 / 60), (864040140 + 180 * k : Int))) := by decide +kernel

example : plottics utc 100 100 864000000 864100000 false = some [(.date 10000, 864000000), (.hm 4 0, 864014400), (.hm 8 0, 864028800), (.hm 12 0, 864043200),
    (.hm 16 0, 864057600), (.hm 20 0, 864072000), (.date 10001, 864086400)] := by decide +kernel

example : tickstep (865209600 - 864000000) = none := by decide

example : ∃ ts, plottics utc 1000 1000 864000000 880000000 false = some ts ∧ ts.length = 7 := by
  refine ⟨_, rfl, ?_⟩
  decide +kernel

end Verif.Tics
