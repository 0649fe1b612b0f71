import Verif.Opt.Lemmas

/-! # Which lists of items are accepted: lemmas -/

namespace Verif.Opt
open Verif Verif.Str Spec

variable {α : Type}

theorem beforeComma_eq : ∀ n : Str, beforeComma n = longName n := by
  intro n
  induction n with
  | nil => rfl
  | cons c n ih =>
    by_cases hc : c = 44
    · subst hc; simp [beforeComma, longName]
    · simp only [beforeComma, hc, if_false, ih]
      unfold longName
      rw [List.takeWhile_cons_of_pos (by simp [hc])]

theorem unknown_append (a b : List Str) : ∀ items : List (Item α), unknown b (unknown a items) = unknown (a ++ b) items := by
  intro items
  induction items with
  | nil => rfl
  | cons i items ih =>
    cases i with
    | other t => simp [unknown, ih]
    | opt k v =>
      by_cases ha : k ∈ a
      · simp [unknown, ha, ih]
      · by_cases hb : k ∈ b <;> simp [unknown, ha, hb, ih]

theorem occurs_unknown (a : List Str) (n : Str) : ∀ items : List (Item α), occurs n (unknown a items) = if n ∈ a then 0 else occurs n items := by
  intro items
  induction items with
  | nil => simp [unknown, occurs]
  | cons i items ih =>
    cases i with
    | other t => simp [unknown, occurs, ih]
    | opt k v =>
      by_cases ha : k ∈ a
      · simp only [unknown, ha, if_true, ih, occurs]
        by_cases hn : n ∈ a
        · simp [hn]
        · have : k ≠ n := by rintro rfl; exact hn ha
          simp [hn, this]
      · simp only [unknown, ha, if_false, ih, occurs]
        by_cases hn : n ∈ a
        · have : k ≠ n := by rintro rfl; exact ha hn
          simp [hn, this]
        · simp [hn]

theorem valueOf_isSome (n : Str) : ∀ items : List (Item α), (valueOf n items).isSome = decide (occurs n items ≠ 0) := by
  intro items
  induction items with
  | nil => rfl
  | cons i items ih =>
    cases i with
    | other t => exact ih
    | opt k v =>
      by_cases h : k = n
      · simp [valueOf, occurs, h]
      · simp only [valueOf, occurs, h, if_false, Nat.zero_add]; exact ih

/-- One pass: when it is refused and what is left over. -/
theorem pass_spec (names : List Str) : ∀ (items : List (Item α)) (m : List (Str × α)),
    (pass names items m = .abort ∧ (∃ n ∈ names, occurs n items ≠ 0 ∧ (2 ≤ names.count n ∨ 2 ≤ occurs n items ∨ (m.lookup n).isSome))) ∨
    ((∃ m', pass names items m = .ok (m', unknown names items)) ∧
      ∀ n ∈ names, occurs n items ≠ 0 → names.count n = 1 ∧ occurs n items = 1 ∧ m.lookup n = none) := by
  intro items
  induction items with
  | nil => intro m; right; exact ⟨⟨m, rfl⟩, by simp [occurs]⟩
  | cons i items ih =>
    intro m
    cases i with
    | other t =>
      simp only [pass, occurs, unknown]
      rcases ih m with ⟨h, h'⟩ | ⟨⟨m', h⟩, h'⟩
      · left; rw [h]; exact ⟨rfl, h'⟩
      · right; rw [h]; exact ⟨⟨m', rfl⟩, h'⟩
    | opt k v =>
      simp only [pass, unknown]
      by_cases hk : names.count k = 0
      · rw [if_pos hk]
        have hk' : k ∉ names := List.count_eq_zero.1 hk
        rw [if_neg hk']
        have hocc : ∀ n ∈ names, occurs n (.opt k v :: items) = occurs n items := by
          intro n hn
          have : k ≠ n := by rintro rfl; exact hk' hn
          simp [occurs, this]
        rcases ih m with ⟨h, n, hn, h'⟩ | ⟨⟨m', h⟩, h'⟩
        · left; rw [h]; exact ⟨rfl, n, hn, by rw [hocc n hn]; exact h'⟩
        · right; rw [h]; exact ⟨⟨m', rfl⟩, fun n hn => by rw [hocc n hn]; exact h' n hn⟩
      · rw [if_neg hk]
        have hk' : k ∈ names := by
          by_cases h : k ∈ names
          · exact h
          · exact absurd (List.count_eq_zero.2 h) hk
        rw [if_pos hk']
        by_cases h1 : names.count k = 1
        · rw [if_neg (by simp [h1])]
          by_cases h2 : (m.lookup k).isSome = true
          · rw [if_pos h2]
            left
            exact ⟨rfl, k, hk', by simp [occurs], .inr (.inr h2)⟩
          · rw [if_neg h2]
            have h2' : m.lookup k = none := by cases h : m.lookup k <;> simp_all
            rcases ih (m ++ [(k, v)]) with ⟨h, n, hn, ha, h'⟩ | ⟨⟨m', h⟩, h'⟩
            · left
              rw [h]
              refine ⟨rfl, n, hn, by simp only [occurs]; omega, ?_⟩
              rcases h' with h' | h' | h'
              · exact .inl h'
              · right; left; simp only [occurs]; omega
              · rw [lookup_snoc] at h'
                by_cases hkn : k = n
                · subst hkn; right; left; simp only [occurs, if_true]; omega
                · right; right; simpa [hkn] using h'
            · right
              refine ⟨⟨m', h⟩, ?_⟩
              intro n hn ho
              by_cases hkn : k = n
              · subst hkn
                have h0 : occurs k items = 0 := by
                  rcases Nat.eq_zero_or_pos (occurs k items) with h0 | h0
                  · exact h0
                  · have := (h' k hn (by omega)).2.2
                    rw [lookup_snoc] at this
                    simp at this
                exact ⟨h1, by simp [occurs, h0], h2'⟩
              · simp only [occurs, hkn, if_false, Nat.zero_add] at ho ⊢
                obtain ⟨a, b, c⟩ := h' n hn ho
                rw [lookup_snoc] at c
                exact ⟨a, b, by simpa [hkn] using c⟩
        · rw [if_pos h1]
          left
          exact ⟨rfl, k, hk', by simp [occurs], .inl (by omega)⟩

/-! ## What is registered -/

structure Reg (s : St α) (k : Nat) : Prop where
  le : k ≤ s.opts.length
  vis : s.visible = ((s.opts.map fun o => (o.name, o.hidden)).take k |>.filter fun x => x.2 = false).map fun x => longName x.1
  hid : s.hidden = ((s.opts.map fun o => (o.name, o.hidden)).take k |>.filter fun x => x.2 = true).map fun x => longName x.1
  pend : s.pending = List.range' k (s.opts.length - k)
  acts : ∀ n i, (n, i) ∈ s.actions → i < s.opts.length ∧ n.head? ≠ some 44
  live : ∀ (i : Nat) (o : Entry α), s.opts[i]? = some o → o.alive = true ∧ o.name.head? ≠ some 44

theorem doInits_reg : ∀ (n k : Nat) (s : St α), Reg { s with pending := List.range' k n } k → s.opts.length = k + n →
    ∃ s', doInits s (List.range' k n) = .ok s' ∧ Reg { s' with pending := [] } (k + n) ∧ s'.opts = s.opts := by
  intro n
  induction n with
  | zero => intro k s h hl; exact ⟨s, rfl, by simpa using h, rfl⟩
  | succ n ih =>
    intro k s h hl
    obtain ⟨h1, h2, h3, h4, h5, h6⟩ := h
    simp only at h1 h2 h3 h4 h5 h6
    have hk : k < s.opts.length := by omega
    have he : s.opts[k]? = some s.opts[k] := List.getElem?_eq_getElem hk
    obtain ⟨ha, hn⟩ := h6 k _ he
    have htake : (s.opts.map fun o => (o.name, o.hidden)).take (k + 1) = (s.opts.map fun o => (o.name, o.hidden)).take k ++ [(s.opts[k].name, s.opts[k].hidden)] := by
      rw [List.take_succ_eq_append_getElem (by simpa using hk)]
      simp
    simp only [List.range'_succ, doInits, doInit, he, ha, Bool.not_true, Bool.false_eq_true, if_false]
    by_cases hh : s.opts[k].hidden = true
    · rw [if_pos hh]
      simp only [Res.bind_ok]
      obtain ⟨s', g1, g2, g3⟩ := ih (k + 1) { s with hidden := s.hidden ++ [longName s.opts[k].name], actions := s.actions ++ [(s.opts[k].name, k)] } (by
        refine ⟨by simp; omega, ?_, ?_, ?_, ?_, h6⟩
        · simp only [htake, List.filter_append, h2]; simp [hh]
        · simp only [htake, List.filter_append, h3]; simp [hh]
        · simp only [hl]; congr 1; omega
        · intro m i hi
          simp only [List.mem_append, List.mem_singleton, Prod.mk.injEq] at hi
          rcases hi with hi | ⟨rfl, rfl⟩
          · exact h5 m i hi
          · exact ⟨hk, hn⟩) (by simp only; omega)
      exact ⟨s', g1, by rw [show k + (n + 1) = k + 1 + n by omega]; exact g2, g3⟩
    · rw [if_neg hh]
      simp only [Res.bind_ok]
      obtain ⟨s', g1, g2, g3⟩ := ih (k + 1) { s with visible := s.visible ++ [longName s.opts[k].name], actions := s.actions ++ [(s.opts[k].name, k)] } (by
        refine ⟨by simp; omega, ?_, ?_, ?_, ?_, h6⟩
        · simp only [htake, List.filter_append, h2]; simp [hh]
        · simp only [htake, List.filter_append, h3]; simp [hh]
        · simp only [hl]; congr 1; omega
        · intro m i hi
          simp only [List.mem_append, List.mem_singleton, Prod.mk.injEq] at hi
          rcases hi with hi | ⟨rfl, rfl⟩
          · exact h5 m i hi
          · exact ⟨hk, hn⟩) (by simp only; omega)
      exact ⟨s', g1, by rw [show k + (n + 1) = k + 1 + n by omega]; exact g2, g3⟩

theorem runInits_reg {s : St α} {k : Nat} (h : Reg s k) : ∃ s', runInits s = .ok s' ∧ Reg s' s'.opts.length ∧ s'.opts = s.opts := by
  obtain ⟨s1, h1, h2, h3⟩ := doInits_reg (s.opts.length - k) k s (by rw [← h.pend]; exact h) (by have := h.le; omega)
  refine ⟨{ s1 with pending := [] }, ?_, ?_, h3⟩
  · unfold runInits
    rw [h.pend, h1]
    rfl
  · rw [show k + (s.opts.length - k) = s.opts.length by have := h.le; omega] at h2
    rw [show ({ s1 with pending := [] } : St α).opts.length = s.opts.length by simp only [h3]]
    exact h2

theorem save_reg {s : St α} {k i : Nat} (h : Reg s k) (hi : i < s.opts.length) (v : Option α) : ∃ s', save s i v = .ok s' ∧ Reg s' k ∧
    s'.opts.map (fun o => (o.name, o.hidden)) = s.opts.map (fun o => (o.name, o.hidden)) := by
  have he : s.opts[i]? = some s.opts[i] := List.getElem?_eq_getElem hi
  obtain ⟨ha, hn⟩ := h.live i _ he
  unfold save
  rw [he]
  simp only
  rw [if_neg (by simp [ha])]
  cases v with
  | none => exact ⟨s, rfl, h, rfl⟩
  | some x =>
    have hm : (s.opts.set i { s.opts[i] with saved := some x }).map (fun o => (o.name, o.hidden)) = s.opts.map fun o => (o.name, o.hidden) := by
      apply List.ext_getElem?
      intro j
      simp only [List.getElem?_map, List.getElem?_set]
      by_cases hij : i = j
      · subst hij; simp [hi]
      · simp [hij]
    refine ⟨_, rfl, ?_, ?_⟩
    · obtain ⟨h1, h2, h3, h4, h5, h6⟩ := h
      refine ⟨by simpa using h1, ?_, ?_, by simpa using h4, by simpa using h5, ?_⟩
      · simp only; rw [hm]; exact h2
      · simp only; rw [hm]; exact h3
      · intro j o hj
        simp only [List.getElem?_set] at hj
        by_cases hij : i = j
        · subst hij
          simp only [if_true, hi, Option.some.injEq] at hj
          subst hj
          exact ⟨ha, hn⟩
        · simp only [hij, if_false] at hj
          exact h6 j o hj
    · exact hm

theorem process_reg (m : List (Str × α)) : ∀ (as : List (Str × Nat)) (s : St α) (k : Nat), Reg s k →
    (∀ n i, (n, i) ∈ as → i < s.opts.length ∧ n.head? ≠ some 44) →
    ∃ s', process m as s = (.ok (), s') ∧ Reg s' k ∧ s'.opts.map (fun o => (o.name, o.hidden)) = s.opts.map (fun o => (o.name, o.hidden)) := by
  intro as
  induction as with
  | nil => intro s k h _; exact ⟨s, rfl, h, rfl⟩
  | cons a as ih =>
    obtain ⟨n, i⟩ := a
    intro s k h ha
    obtain ⟨h1, h2⟩ := ha n i (by simp)
    obtain ⟨s1, g1, g2, g3⟩ := save_reg h h1 (m.lookup (longName n))
    have hlen : s1.opts.length = s.opts.length := by simpa using congrArg List.length g3
    obtain ⟨s2, f1, f2, f3⟩ := ih s1 k g2 (by
      intro n' j hj
      have := ha n' j (by simp [hj])
      rw [hlen]; exact this)
    refine ⟨s2, ?_, f2, f3.trans g3⟩
    simp only [process, if_neg h2, g1, f1]

/-! ## Both passes -/

/-- What registering everything leaves. -/
def allNames (s : St α) (hid : Bool) : List Str := ((s.opts.map fun o => (o.name, o.hidden)).filter fun x => x.2 = hid).map fun x => longName x.1

theorem Reg.allVis {s : St α} (h : Reg s s.opts.length) : s.visible = allNames s false := by
  rw [h.vis, List.take_of_length_le (by simp)]; rfl

theorem Reg.allHid {s : St α} (h : Reg s s.opts.length) : s.hidden = allNames s true := by
  rw [h.hid, List.take_of_length_le (by simp)]; rfl

theorem allNames_congr {s s' : St α} (h : s'.opts.map (fun o => (o.name, o.hidden)) = s.opts.map (fun o => (o.name, o.hidden))) (b : Bool) :
    allNames s' b = allNames s b := by
  unfold allNames; rw [h]

/-- The two passes of a command line. -/
theorem passes_spec (V H : List Str) (items : List (Item α)) :
    (Clash V H items ∧ (pass V items [] = .abort ∨ ∃ m r, pass V items [] = .ok (m, r) ∧ pass H r m = .abort)) ∨
    (¬ Clash V H items ∧ ∃ m m', pass V items [] = .ok (m, unknown V items) ∧ pass H (unknown V items) m = .ok (m', unknown (V ++ H) items)) := by
  rcases pass_spec V items [] with ⟨h, n, hn, h1, h2⟩ | ⟨⟨m, h⟩, hg⟩
  · left
    refine ⟨⟨n, h1, .inl hn, ?_⟩, .inl h⟩
    rcases h2 with h2 | h2 | h2
    · exact .inr (.inl h2)
    · exact .inl h2
    · simp at h2
  · have hm : ∀ n, n ∉ V → m.lookup n = none := by
      intro n hn
      have := ((pass_lookup V n items _ _ _ h).2 (List.count_eq_zero.2 hn)).1
      rw [this]; rfl
    rcases pass_spec H (unknown V items) m with ⟨k, n, hn, h1, h2⟩ | ⟨⟨m', k⟩, hk⟩
    · left
      rw [occurs_unknown] at h1 h2
      by_cases hv : n ∈ V
      · simp [hv] at h1
      · simp only [hv, if_false] at h1 h2
        refine ⟨⟨n, h1, .inr hn, ?_⟩, .inr ⟨m, _, h, k⟩⟩
        rcases h2 with h2 | h2 | h2
        · exact .inr (.inr ⟨hv, h2⟩)
        · exact .inl h2
        · rw [hm n hv] at h2; simp at h2
    · right
      refine ⟨?_, m, m', h, by rw [k, unknown_append]⟩
      rintro ⟨n, h1, h2, h3⟩
      by_cases hv : n ∈ V
      · obtain ⟨a, b, _⟩ := hg n hv h1
        rcases h3 with h3 | h3 | h3
        · omega
        · omega
        · exact h3.1 hv
      · have hh : n ∈ H := h2.resolve_left hv
        have := hk n hh (by rw [occurs_unknown]; simpa [hv] using h1)
        rw [occurs_unknown] at this
        simp only [hv, if_false] at this
        rcases h3 with h3 | h3 | h3
        · omega
        · have := List.count_eq_zero.2 hv; omega
        · omega

/-- A command line, when everything is alive. -/
theorem parse_reg {s : St α} {k : Nat} (h : Reg s k) (items : List (Item α)) (allow : Bool) :
    ∃ k', Reg (parseCommandLine s items allow).st k' ∧
      (parseCommandLine s items allow).st.opts.map (fun o => (o.name, o.hidden)) = s.opts.map (fun o => (o.name, o.hidden)) ∧
      (((Clash (allNames s false) (allNames s true) items ∨ (allow = false ∧ unknown (allNames s false ++ allNames s true) items ≠ [])) ∧
          (parseCommandLine s items allow).out = .abort) ∨
       (¬ (Clash (allNames s false) (allNames s true) items ∨ (allow = false ∧ unknown (allNames s false ++ allNames s true) items ≠ [])) ∧
          (parseCommandLine s items allow).out = if helpUsed (parseCommandLine s items allow).st then .ok .exited else
            .ok (.returned (unknown (allNames s false ++ allNames s true) items)))) := by
  obtain ⟨s1, h1, h2, h3⟩ := runInits_reg h
  have hs1 : s1.opts.map (fun o => (o.name, o.hidden)) = s.opts.map (fun o => (o.name, o.hidden)) := by rw [h3]
  rw [← allNames_congr hs1 false, ← allNames_congr hs1 true, ← hs1, ← h2.allVis, ← h2.allHid]
  generalize hD : parseCommandLine s items allow = D
  unfold parseCommandLine at hD
  rw [h1] at hD
  simp only at hD
  unfold parseItems at hD
  rcases passes_spec s1.visible s1.hidden items with ⟨hc, hp⟩ | ⟨hc, m, m', hp, hq⟩
  · rcases hp with hp | ⟨m, r, hp, hq⟩
    · rw [hp] at hD
      subst hD
      exact ⟨_, h2, rfl, .inl ⟨.inl hc, rfl⟩⟩
    · rw [hp] at hD
      simp only at hD
      rw [hq] at hD
      subst hD
      exact ⟨_, h2, rfl, .inl ⟨.inl hc, rfl⟩⟩
  · rw [hp] at hD
    simp only at hD
    rw [hq] at hD
    simp only at hD
    by_cases hu : (!allow && !(unknown (s1.visible ++ s1.hidden) items).isEmpty) = true
    · rw [if_pos hu] at hD
      subst hD
      refine ⟨_, h2, rfl, .inl ⟨.inr ?_, rfl⟩⟩
      simpa using hu
    · rw [if_neg hu] at hD
      obtain ⟨s2, g1, g2, g3⟩ := process_reg m' s1.actions s1 _ h2 h2.acts
      rw [g1] at hD
      simp only at hD
      have hno : ¬ (Clash s1.visible s1.hidden items ∨ (allow = false ∧ unknown (s1.visible ++ s1.hidden) items ≠ [])) := by
        rintro (h | ⟨ha, hb⟩)
        · exact hc h
        · exact hu (by simp [ha, hb])
      by_cases hh : helpUsed s2 = true
      · rw [if_pos hh] at hD; subst hD; exact ⟨_, g2, g3, .inr ⟨hno, by rw [if_pos hh]⟩⟩
      · rw [if_neg hh] at hD; subst hD; exact ⟨_, g2, g3, .inr ⟨hno, by rw [if_neg hh]⟩⟩

/-- A configuration file, when everything is alive. -/
theorem config_reg {s : St α} {k : Nat} (h : Reg s k) (items : List (Item α)) :
    ∃ k', Reg (parseConfig s items).st k' ∧
      (parseConfig s items).st.opts.map (fun o => (o.name, o.hidden)) = s.opts.map (fun o => (o.name, o.hidden)) ∧
      (((Clash (allNames s false) [] items ∨ unknown (allNames s false) items ≠ []) ∧ (parseConfig s items).out = .abort) ∨
       (¬ (Clash (allNames s false) [] items ∨ unknown (allNames s false) items ≠ []) ∧ (parseConfig s items).out = .ok (.returned []))) := by
  obtain ⟨s1, h1, h2, h3⟩ := runInits_reg h
  have hs1 : s1.opts.map (fun o => (o.name, o.hidden)) = s.opts.map (fun o => (o.name, o.hidden)) := by rw [h3]
  rw [← allNames_congr hs1 false, ← hs1, ← h2.allVis]
  unfold parseConfig
  rw [h1]
  simp only
  have hnil : ∀ (r : List (Item α)) m, pass [] r m = .ok (m, r) := by
    intro r
    induction r with
    | nil => intro m; rfl
    | cons i r ih => intro m; cases i <;> simp [pass, ih]
  rcases passes_spec s1.visible [] items with ⟨hc, hp⟩ | ⟨hc, m, m', hp, hq⟩
  · rcases hp with hp | ⟨m, r, hp, hq⟩
    · rw [hp]
      exact ⟨_, h2, rfl, .inl ⟨.inl hc, rfl⟩⟩
    · rw [hnil] at hq; simp at hq
  · rw [hp]
    simp only
    by_cases hu : (!(unknown s1.visible items).isEmpty) = true
    · rw [if_pos hu]
      refine ⟨_, h2, rfl, .inl ⟨.inr ?_, rfl⟩⟩
      simpa using hu
    · rw [if_neg hu]
      obtain ⟨s2, g1, g2, g3⟩ := process_reg m s1.actions s1 _ h2 h2.acts
      rw [g1]
      refine ⟨_, g2, g3, .inr ⟨?_, rfl⟩⟩
      rintro (h | hb)
      · exact hc h
      · exact hu (by simp [hb])

/-! ## Whole programs that destroy nothing -/

def skel : List (Op α) → List (Str × Bool)
  | [] => []
  | .construct n h _ :: ops => (n, h) :: skel ops
  | _ :: ops => skel ops

theorem step_reg {s : St α} {k : Nat} (h : Reg s k) {o : Op α} (hd : ∀ i, o ≠ .destroy i)
    (hname : ∀ n h d, o = .construct n h d → n.head? ≠ some 44) (hb : (step s o).out ≠ .ub) :
    ∃ k', Reg (step s o).st k' ∧ (step s o).st.opts.map (fun o => (o.name, o.hidden)) = s.opts.map (fun o => (o.name, o.hidden)) ++ skel [o] := by
  cases o with
  | destroy i => exact absurd rfl (hd i)
  | parse is a => obtain ⟨k', h1, h2, _⟩ := parse_reg h is a; exact ⟨k', h1, by simpa [skel, step] using h2⟩
  | config is => obtain ⟨k', h1, h2, _⟩ := config_reg h is; exact ⟨k', h1, by simpa [skel, step] using h2⟩
  | set i v =>
    simp only [step] at hb ⊢
    cases he : s.opts[i]? with
    | none => rw [he] at hb; simp at hb
    | some o =>
      have hi : i < s.opts.length := (List.getElem?_eq_some_iff.1 he).1
      obtain ⟨s', h1, h2, h3⟩ := save_reg h hi (some v)
      have ha := (h.live i o he).1
      simp only
      rw [if_pos ha]
      unfold save at h1
      rw [he] at h1
      simp only at h1
      rw [if_neg (by simp [ha])] at h1
      simp only [Res.ok.injEq] at h1
      subst h1
      exact ⟨k, h2, by simpa [skel] using h3⟩
  | construct n hh d =>
    refine ⟨k, ?_, by simp [step, construct, skel]⟩
    obtain ⟨h1, h2, h3, h4, h5, h6⟩ := h
    simp only [step, construct]
    have ht : ∀ x : Str × Bool, ((s.opts.map fun o => (o.name, o.hidden)) ++ [x]).take k = (s.opts.map fun o => (o.name, o.hidden)).take k := by
      intro x; rw [List.take_append_of_le_length (by simpa using h1)]
    refine ⟨by simp; omega, ?_, ?_, ?_, ?_, ?_⟩
    · simp only [List.map_append, List.map_cons, List.map_nil, ht]; exact h2
    · simp only [List.map_append, List.map_cons, List.map_nil, ht]; exact h3
    · simp only [List.length_append, List.length_singleton, h4]
      rw [show s.opts.length + 1 - k = (s.opts.length - k) + 1 by omega, List.range'_concat]
      congr 2; omega
    · intro n' i hi
      obtain ⟨a, b⟩ := h5 n' i hi
      exact ⟨by simp; omega, b⟩
    · intro i o ho
      rw [List.getElem?_append] at ho
      split at ho
      · exact h6 i o ho
      · have := (List.getElem?_eq_some_iff.1 ho).1
        simp only [List.length_singleton] at this
        rw [show i - s.opts.length = 0 by omega] at ho
        simp only [List.getElem?_cons_zero, Option.some.injEq] at ho
        subst ho
        exact ⟨rfl, hname n hh d rfl⟩

end Verif.Opt
