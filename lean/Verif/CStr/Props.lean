import Verif.CStr.Lemmas

/-! # Properties of `ConstantString` (C24, C84) -/

namespace Verif.CStr

open Verif.Hash Verif.Str

/-- The lengths for which the arithmetic of `init` is defined. -/
def Sane (t : Str) : Prop := t.length < 2147483640

theorem create_ok {env : Env} {s : State} {live : List (Ptr × Str)} (h : R env s live) {t : Str} (ht : Sane t)
    (hroom : live.length < cap) :
    (∃ p s', create env s t = .ok (s', p) ∧
      ((t ∈ live.map (·.2) ∧ (p, t) ∈ live ∧ R env s' live) ∨
       (t ∉ live.map (·.2) ∧ R env s' ((p, t) :: live) ∧ (Long t → (findFit (spaceUsed t.length) s.bufs).isSome)))) ∨
    (create env s t = .abort ∧ t ∉ live.map (·.2) ∧ Long t ∧ findFit (spaceUsed t.length) s.bufs = none) := by
  unfold create init
  unfold Sane at ht
  rw [Nat.mod_eq_of_lt (by omega)]
  exact aux_ok 0 h ht hroom

theorem createAll_ok {env : Env} : ∀ (ts : List Str) (s : State) (live : List (Ptr × Str)), R env s live → (∀ t ∈ ts, Sane t) →
    live.length + ts.length ≤ cap →
    createAll env s ts = .abort ∧ (∃ t ∈ ts, Long t) ∨
    ∃ s' ps live', createAll env s ts = .ok (s', ps) ∧ R env s' live' ∧ (∀ e ∈ live, e ∈ live') ∧ ps.length = ts.length ∧
      ∀ (k : Nat) (p : Ptr) (t : Str), ps[k]? = some p → ts[k]? = some t → (p, t) ∈ live'
  | [], s, live, h, _, _ => .inr ⟨s, [], live, rfl, h, fun _ he => he, rfl, fun k p t hk => by simp at hk⟩
  | t :: ts, s, live, h, hs, hl => by
    rw [List.length_cons] at hl
    rw [createAll]
    rcases create_ok h (hs t List.mem_cons_self) (by omega) with ⟨p, s1, e1, hr⟩ | ⟨e1, _, hlong, _⟩
    · rw [e1, Res.bind_ok]
      have : ∃ live1, R env s1 live1 ∧ (p, t) ∈ live1 ∧ (∀ e ∈ live, e ∈ live1) ∧ live1.length ≤ live.length + 1 := by
        rcases hr with ⟨_, h1, h2⟩ | ⟨_, h2, _⟩
        · exact ⟨live, h2, h1, fun _ he => he, by omega⟩
        · exact ⟨_, h2, List.mem_cons_self, fun _ he => List.mem_cons_of_mem _ he, by simp⟩
      obtain ⟨live1, h1, hm, hsub, hlen⟩ := this
      rcases createAll_ok ts s1 live1 h1 (fun t' ht' => hs t' (List.mem_cons_of_mem _ ht')) (by omega) with
        ⟨e2, t', ht', hl'⟩ | ⟨s2, ps, live2, e2, h2, hsub2, hlen2, hall⟩
      · left
        simp only []
        rw [e2]
        exact ⟨rfl, t', List.mem_cons_of_mem _ ht', hl'⟩
      · right
        simp only []
        rw [e2]
        refine ⟨s2, p :: ps, live2, rfl, h2, fun e he => hsub2 e (hsub e he), by simp [hlen2], fun k q u hq hu => ?_⟩
        cases k with
        | zero =>
          simp only [List.getElem?_cons_zero, Option.some.injEq] at hq hu
          subst hq; subst hu
          exact hsub2 _ hm
        | succ k =>
          simp only [List.getElem?_cons_succ] at hq hu
          exact hall k q u hq hu
    · left
      rw [e1]
      exact ⟨rfl, t, List.mem_cons_self, hlong⟩

/-- **C24, partial.** For every history of creations of strings shorter than 2147483640 bytes, any bytes, any hash function
and any contents of fresh memory: nothing undefined happens; and if the program does not stop (see C84), then at the end every
string still has its size and text, however many strings were created after it, and two strings are `==` exactly if their
texts are equal. Missing for the full statement: `compare` (below, and `compare_not_equality`) and strings of
4 GiB (`huge_is_empty`). -/
theorem interning_partial (env : Env) (ts : List Str) (hs : ∀ t ∈ ts, Sane t) (hcap : ts.length ≤ cap) :
    createAll env (initial env) ts = .abort ∧ (∃ t ∈ ts, Long t) ∨
    ∃ s ps, createAll env (initial env) ts = .ok (s, ps) ∧ ps.length = ts.length ∧
      (∀ (k : Nat) (p : Ptr) (t : Str), ps[k]? = some p → ts[k]? = some t → size s p = .ok t.length ∧ str s p = .ok t) ∧
      (∀ (i j : Nat) (p q : Ptr) (t u : Str), ps[i]? = some p → ps[j]? = some q → ts[i]? = some t → ts[j]? = some u →
        (equal p q = true ↔ t = u)) := by
  rcases createAll_ok ts (initial env) [] (r_initial env) hs (by simpa using hcap) with h | ⟨s, ps, live, e, h, _, hlen, hall⟩
  · exact .inl h
  · refine .inr ⟨s, ps, e, hlen, fun k p t hp ht => ?_, fun i j p q t u hp hq ht hu => ?_⟩
    · have hg := h.good _ (hall k p t hp ht)
      refine ⟨hg.size h.bufs, ?_⟩
      unfold str
      rw [hg.size h.bufs, Res.bind_ok, hg.read h.bufs (by omega)]
      simp
    · have h1 := hall i p t hp ht
      have h2 := hall j q u hq hu
      unfold equal
      rw [decide_eq_true_eq]
      constructor
      · rintro rfl
        exact (h.good _ h1).ptr_inj (h.good _ h2)
      · rintro rfl
        obtain ⟨a, ha, ha'⟩ := List.getElem_of_mem h1
        obtain ⟨b, hb, hb'⟩ := List.getElem_of_mem h2
        have hn := h.nodup
        have hab : a = b := by
          have := (List.getElem_inj (h₀ := by simpa using ha) (h₁ := by simpa using hb) hn).1 (by simp [ha', hb'])
          exact this
        subst hab
        rw [ha'] at hb'
        exact congrArg Prod.fst hb'

/-- The bytes of the texts used as examples: `"a"`, `"a\0b"`, `"a\0c"`. -/
def tA : Str := [97]
def tAB : Str := [97, 0, 98]
def tAC : Str := [97, 0, 99]
def exEnv : Env := ⟨fun _ => 7, fun _ _ => 170⟩

/-- A history with a repeated string and a hash function under which all strings collide. -/
example : ∃ s p q, createAll exEnv (initial exEnv) [tA, tAB, [], tA] = .ok (s, [p, q, .at 0 20, p]) ∧ p ≠ q := by
  refine ⟨_, .at 0 4, .at 0 12, rfl, by decide⟩

/-! ## Comparison -/

theorem memcmp_spec : ∀ (a b : Str) (n : Nat), n = min a.length b.length →
    (memcmp ((a ++ [0]).take (n + 1)) ((b ++ [0]).take (n + 1)) = .lt → a < b) ∧
    (memcmp ((a ++ [0]).take (n + 1)) ((b ++ [0]).take (n + 1)) = .gt → b < a) ∧
    (memcmp ((a ++ [0]).take (n + 1)) ((b ++ [0]).take (n + 1)) = .eq ↔ a = b ∨ a ++ [0] <+: b ∨ b ++ [0] <+: a)
  | [], [], n, h => by
    simp at h; subst h
    simp [memcmp]
  | [], y :: ys, n, h => by
    simp at h; subst h
    simp only [List.nil_append, Nat.zero_add, List.take_succ_cons, List.take_zero, List.cons_append, memcmp]
    have h0 : ¬ y < 0 := by simp
    by_cases hy : (0 : Byte) < y
    · rw [if_pos hy]
      refine ⟨fun _ => List.nil_lt_cons y ys, fun h => (by cases h), ⟨fun h => (by cases h), ?_⟩⟩
      rintro (h | h | h)
      · cases h
      · rw [List.cons_prefix_cons] at h
        rw [← h.1] at hy
        exact absurd hy (by decide)
      · simp at h
    · rw [if_neg hy, if_neg h0]
      have : y = 0 := by
        have := Fin.not_lt.1 hy
        exact Fin.le_zero_iff.1 this
      subst this
      refine ⟨fun h => (by cases h), fun h => (by cases h), ⟨fun _ => .inr (.inl ?_), fun _ => rfl⟩⟩
      simp
  | x :: xs, [], n, h => by
    simp at h; subst h
    simp only [List.nil_append, Nat.zero_add, List.take_succ_cons, List.take_zero, List.cons_append, memcmp]
    have h0 : ¬ x < 0 := by simp
    by_cases hx : (0 : Byte) < x
    · rw [if_neg h0, if_pos hx]
      refine ⟨fun h => (by cases h), fun _ => List.nil_lt_cons x xs, ⟨fun h => (by cases h), ?_⟩⟩
      rintro (h | h | h)
      · cases h
      · simp at h
      · rw [List.cons_prefix_cons] at h
        rw [← h.1] at hx
        exact absurd hx (by decide)
    · rw [if_neg h0, if_neg hx]
      have : x = 0 := by
        have := Fin.not_lt.1 hx
        exact Fin.le_zero_iff.1 this
      subst this
      refine ⟨fun h => (by cases h), fun h => (by cases h), ⟨fun _ => .inr (.inr ?_), fun _ => rfl⟩⟩
      simp
  | x :: xs, y :: ys, n, h => by
    cases n with
    | zero => simp only [List.length_cons] at h; omega
    | succ n =>
      have ih := memcmp_spec xs ys n (by simp only [List.length_cons] at h; omega)
      simp only [List.cons_append, List.take_succ_cons, memcmp]
      by_cases h1 : x < y
      · rw [if_pos h1]
        refine ⟨fun _ => List.cons_lt_cons_iff.2 (.inl h1), fun h => (by cases h), ⟨fun h => (by cases h), ?_⟩⟩
        have hne : x ≠ y := Fin.ne_of_lt h1
        rintro (h | h | h)
        · exact absurd (List.cons.inj h).1 hne
        · exact absurd (List.cons_prefix_cons.1 h).1 hne
        · exact absurd (List.cons_prefix_cons.1 h).1.symm hne
      · rw [if_neg h1]
        by_cases h2 : y < x
        · rw [if_pos h2]
          refine ⟨fun h => (by cases h), fun _ => List.cons_lt_cons_iff.2 (.inl h2), ⟨fun h => (by cases h), ?_⟩⟩
          have hne : y ≠ x := Fin.ne_of_lt h2
          rintro (h | h | h)
          · exact absurd (List.cons.inj h).1.symm hne
          · exact absurd (List.cons_prefix_cons.1 h).1.symm hne
          · exact absurd (List.cons_prefix_cons.1 h).1 hne
        · rw [if_neg h2]
          have hxy : x = y := Fin.le_antisymm (Fin.not_lt.1 h2) (Fin.not_lt.1 h1)
          subst hxy
          refine ⟨fun h => List.cons_lt_cons_iff.2 (.inr ⟨rfl, ih.1 h⟩), fun h => List.cons_lt_cons_iff.2 (.inr ⟨rfl, ih.2.1 h⟩), ?_⟩
          rw [ih.2.2]
          simp only [List.cons.injEq, true_and, List.cons_prefix_cons]

/-- **C24, comparison, partial.** For strings created in any history: `compare` reads no memory outside the two strings;
negative and positive results mean lexicographically before and after (as unsigned bytes); and it is zero exactly if the texts
are equal or one of them followed by a zero byte starts the other. `compare` with a `std::string` gives the same. Missing for
the full statement: the last case, which contradicts it (`compare_not_equality`). -/
theorem compare_partial (env : Env) (ts : List Str) (hs : ∀ t ∈ ts, Sane t) (hcap : ts.length ≤ cap) (s : State) (ps : List Ptr)
    (h : createAll env (initial env) ts = .ok (s, ps)) (i j : Nat) (p q : Ptr) (t u : Str) (hp : ps[i]? = some p)
    (hq : ps[j]? = some q) (ht : ts[i]? = some t) (hu : ts[j]? = some u) :
    ∃ o, compare s p q = .ok o ∧ compareStr s p u = .ok o ∧ (o = .lt → t < u) ∧ (o = .gt → u < t) ∧
      (o = .eq ↔ t = u ∨ t ++ [0] <+: u ∨ u ++ [0] <+: t) := by
  rcases createAll_ok ts (initial env) [] (r_initial env) hs (by simpa using hcap) with ⟨h', _⟩ | ⟨s', ps', live, e, hr, _, hlen, hall⟩
  · rw [h'] at h; cases h
  · rw [e] at h
    cases h
    have g1 : Good s p t := hr.good _ (hall i p t hp ht)
    have g2 : Good s q u := hr.good _ (hall j q u hq hu)
    have hmin : (if t.length < u.length then t.length else u.length) = min t.length u.length := by split <;> omega
    refine ⟨_, ?_, ?_, memcmp_spec t u _ rfl⟩
    · unfold compare
      rw [g1.size hr.bufs, g2.size hr.bufs, Res.bind_ok, Res.bind_ok]
      simp only [hmin]
      rw [g1.read hr.bufs (by omega), g2.read hr.bufs (by omega)]
      rfl
    · unfold compareStr
      rw [g1.size hr.bufs, Res.bind_ok]
      simp only [hmin]
      rw [g1.read hr.bufs (by omega)]
      rfl

/-- Text without zero bytes: then `compare` is zero exactly for equal texts. -/
theorem compare_no_zero_partial (env : Env) (ts : List Str) (hs : ∀ t ∈ ts, Sane t) (hz : ∀ t ∈ ts, (0 : Byte) ∉ t) (hcap : ts.length ≤ cap)
    (s : State) (ps : List Ptr) (h : createAll env (initial env) ts = .ok (s, ps)) (i j : Nat) (p q : Ptr) (hp : ps[i]? = some p)
    (hq : ps[j]? = some q) : ∃ o, compare s p q = .ok o ∧ (o = .eq ↔ equal p q = true) := by
  rcases interning_partial env ts hs hcap with ⟨h', _⟩ | ⟨s', ps', e, hlen, _, heq⟩
  · rw [h'] at h; cases h
  · rw [e] at h
    cases h
    have hi : i < ts.length := by have := lt_of_getElem? hp; omega
    have hj : j < ts.length := by have := lt_of_getElem? hq; omega
    have ht := List.getElem?_eq_getElem hi
    have hu := List.getElem?_eq_getElem hj
    obtain ⟨o, h1, _, _, _, h5⟩ := compare_partial env ts hs hcap s ps e i j p q _ _ hp hq ht hu
    refine ⟨o, h1, ?_⟩
    rw [h5, heq i j p q _ _ hp hq ht hu]
    constructor
    · rintro (h | h | h)
      · exact h
      · exact absurd (h.subset (by simp)) (hz _ (List.getElem_mem hj))
      · exact absurd (h.subset (by simp)) (hz _ (List.getElem_mem hi))
    · exact .inl

/-- **C85, partial.** Among strings without zero bytes, created in any history, `<` is the lexicographic order of the texts as
unsigned bytes (hence a strict total order) and `>` its converse. Missing for the full statement: texts with zero bytes, for which `<` is not even a
strict weak order (`compare_not_equality`). -/
theorem order_partial (env : Env) (ts : List Str) (hs : ∀ t ∈ ts, Sane t) (hz : ∀ t ∈ ts, (0 : Byte) ∉ t) (hcap : ts.length ≤ cap)
    (s : State) (ps : List Ptr) (h : createAll env (initial env) ts = .ok (s, ps)) (i j : Nat) (p q : Ptr) (t u : Str)
    (hp : ps[i]? = some p) (hq : ps[j]? = some q) (ht : ts[i]? = some t) (hu : ts[j]? = some u) :
    ∃ o, compare s p q = .ok o ∧ (o = .lt ↔ t < u) ∧ (o = .gt ↔ u < t) ∧ (o = .eq ↔ t = u) := by
  obtain ⟨o, h1, _, h3, h4, h5⟩ := compare_partial env ts hs hcap s ps h i j p q t u hp hq ht hu
  have heq : o = .eq → t = u := by
    rw [h5]
    rintro (h | h | h)
    · exact h
    · exact absurd (h.subset (by simp)) (hz _ (List.mem_of_getElem? hu))
    · exact absurd (h.subset (by simp)) (hz _ (List.mem_of_getElem? ht))
  refine ⟨o, h1, ⟨h3, fun hlt => ?_⟩, ⟨h4, fun hlt => ?_⟩, ⟨heq, fun e => h5.2 (.inl e)⟩⟩
  · cases o with
    | lt => rfl
    | gt => exact absurd (h4 rfl) (List.lt_asymm hlt)
    | eq => exact absurd (heq rfl ▸ hlt) (List.lt_irrefl _)
  · cases o with
    | gt => rfl
    | lt => exact absurd (h3 rfl) (List.lt_asymm hlt)
    | eq => exact absurd (heq rfl ▸ hlt) (List.lt_irrefl _)

example : ∀ t ∈ [tA, [98, 200], []], Sane t ∧ (0 : Byte) ∉ t := by unfold Sane; decide

/-- **C24 and C85 fail for `compare`.** `"a"` and `"a\0b"` are not `==` but compare as equal. Worse for sorted containers:
`"a"` is neither before nor after `"a\0b"` and neither before nor after `"a\0c"`, but `"a\0b" < "a\0c"`, so that `<` is not a
strict weak order. -/
theorem compare_not_equality : ∃ s p q r, createAll exEnv (initial exEnv) [tA, tAB, tAC] = .ok (s, [p, q, r]) ∧
    equal p q = false ∧ compare s p q = .ok .eq ∧ compare s p r = .ok .eq ∧ compare s q r = .ok .lt := by
  refine ⟨_, .at 0 4, .at 0 12, .at 0 20, rfl, ?_, ?_, ?_, ?_⟩ <;> decide +kernel

/-- **C24 fails for 4 GiB.** A `std::string` of `2^32` bytes becomes the empty string: its size is cut to 32 bits. -/
theorem huge_is_empty (env : Env) (s : State) (t : Str) (ht : t.length = 2 ^ 32) : create env s t = create env s [] := by
  unfold create init
  rw [ht, show (2 ^ 32 % 2 ^ 32 : Nat) = 0 from rfl, List.length_nil, Nat.zero_mod]
  have aux : ∀ (fuel : Nat) (s : State), initAux env fuel s t 0 = initAux env fuel s [] 0 := by
    intro fuel
    induction fuel with
    | zero => intro s; rfl
    | succ fuel ih =>
      intro s
      have hf : fillInit env s t 0 = fillInit env s [] 0 := by
        unfold fillInit
        rw [List.take_zero, List.take_zero, ht, List.length_nil]
        rfl
      have hst : ∀ s space i, store env s t 0 space i = store env s [] 0 space i := by
        intro s space i
        unfold store
        rw [List.take_zero, List.take_zero, ht, List.length_nil]
        rfl
      rw [initAux, initAux, hf]
      simp only [hst, ih]
  exact aux 2 s

/-! ## C84: can every string be interned? -/

/-- **C84, partial.** Strings of up to 8183 bytes can always be created, whatever was created before. Missing for the full
statement: longer strings, for which it is false (`long_first_aborts`, `long_later_works`). -/
theorem short_always_partial (env : Env) (ts : List Str) (hs : ∀ t ∈ ts, t.length ≤ 8183) (hcap : ts.length ≤ cap) :
    ∃ s ps, createAll env (initial env) ts = .ok (s, ps) := by
  rcases createAll_ok ts (initial env) [] (r_initial env) (fun t ht => by have := hs t ht; unfold Sane; omega) (by simpa using hcap)
    with ⟨_, t, ht, hl⟩ | ⟨s, ps, _, e, _⟩
  · have := hs t ht
    unfold Long at hl
    omega
  · exact ⟨s, ps, e⟩

example : ∀ t ∈ [tA, tAB, [], tA], t.length ≤ 8183 := by decide

/-- **C84 fails.** A string of 8184 bytes or more stops the program if it is the first string ever created. -/
theorem long_first_aborts (env : Env) (t : Str) (hl : 8184 ≤ t.length) (hs : Sane t) : createAll env (initial env) [t] = .abort := by
  rw [createAll]
  rcases create_ok (r_initial env) hs (by decide : ([] : List (Ptr × Str)).length < cap) with ⟨p, s', e, h⟩ | ⟨e, _⟩
  · rcases h with ⟨h, _⟩ | ⟨_, _, h⟩
    · cases h
    · exact absurd (h hl) (by simp [initial, findFit])
  · rw [e]; rfl

theorem store_bufs {env : Env} {s s' : State} {t : Str} {n : Nat} {space : Int} {i : Nat} {p : Ptr}
    (h : store env s t n space i = .ok (s', p)) :
    ∃ mem b, s.bufs[i]? = some b ∧ s'.bufs = s.bufs.set i ⟨mem, b.size, ((b.used : Int) + space).toNat⟩ := by
  unfold store at h
  obtain ⟨b, hb, h⟩ := Res.bind_eq_ok.1 h
  obtain ⟨m1, _, h⟩ := Res.bind_eq_ok.1 h
  split at h
  · cases h
  · obtain ⟨m2, _, h⟩ := Res.bind_eq_ok.1 h
    obtain ⟨m3, _, h⟩ := Res.bind_eq_ok.1 h
    obtain ⟨r, _, h⟩ := Res.bind_eq_ok.1 h
    cases h
    refine ⟨m3, b, ?_, rfl⟩
    unfold rd at hb
    split at hb
    · next hv => cases hb; exact hv
    · cases hb

theorem first_buffer {env : Env} {s : State} {p : Ptr} (h : create env (initial env) [] = .ok (s, p)) :
    ∃ mem, s.bufs = [⟨mem, 524288, 8⟩] := by
  obtain ⟨s1, e1, b1, t1, m1, _⟩ := fillInit_ok env (initial env) (t := []) (by simp)
  obtain ⟨s2, e2, b2, t2, m2, _⟩ := fillInit_ok env { s1 with bufs := s1.bufs ++ [⟨env.junk s1.bufs.length, 524288, 0⟩] } (t := []) (by simp)
  have hl : ∀ (c : Cfg Ptr) (s : State), s.table = empty' → lookup c s.table .tmp = .ok none := by
    intro c s hs; rw [hs]; rfl
  have b1' : s1.bufs = [] := b1
  have b2' : s2.bufs = [⟨env.junk 0, 524288, 0⟩] := by rw [b2, b1']; rfl
  unfold create init at h
  rw [List.length_nil] at h e1 e2
  rw [Nat.zero_mod, initAux] at h
  simp only [if_pos, show (initial env).empty = none from rfl] at h
  rw [e1, Res.bind_ok, hl _ _ t1, Res.bind_ok] at h
  simp only [] at h
  rw [show findFit (spaceUsed 0) s1.bufs = none by rw [b1']; rfl] at h
  simp only [] at h
  rw [show decide (spaceUsed 0 < 8192) = true from rfl, Res.require_true, Res.bind_ok, initAux] at h
  simp only [if_pos, m1, show (initial env).empty = none from rfl] at h
  simp only [m1, show (initial env).empty = none from rfl] at e2
  rw [e2, Res.bind_ok, hl _ _ (t2.trans t1), Res.bind_ok] at h
  simp only [] at h
  rw [show findFit (spaceUsed 0) s2.bufs = some 0 by rw [b2']; rfl] at h
  obtain ⟨mem, b, hb, hs⟩ := store_bufs h
  rw [b2'] at hb hs
  cases hb
  exact ⟨mem, hs⟩

/-- The same string is fine, up to nearly 512 KiB, if any short string, such as the empty one, was created before. -/
theorem long_later_works (env : Env) (t : Str) (hs : t.length ≤ 524271) :
    ∃ s ps, createAll env (initial env) [[], t] = .ok (s, ps) := by
  have hr : ∃ s1 p1, create env (initial env) [] = .ok (s1, p1) ∧ ∃ live, R env s1 live ∧ live.length ≤ 1 := by
    rcases create_ok (r_initial env) (t := []) (by simp [Sane]) (by decide : ([] : List (Ptr × Str)).length < cap) with ⟨p, s', e, h⟩ | ⟨_, _, h, _⟩
    · rcases h with ⟨h, _⟩ | ⟨_, h, _⟩
      · cases h
      · exact ⟨s', p, e, _, h, by simp⟩
    · exact absurd h (by simp [Long])
  obtain ⟨s1, p1, e1, live, hr, hlen⟩ := hr
  obtain ⟨mem, b1⟩ := first_buffer e1
  rw [createAll, e1, Res.bind_ok, createAll]
  rcases create_ok hr (t := t) (by unfold Sane; omega) (by unfold cap; omega) with ⟨p, s', e, _⟩ | ⟨_, _, _, hf⟩
  · simp only []
    rw [e]
    exact ⟨_, _, rfl⟩
  · exfalso
    rw [b1, space_eq (by omega)] at hf
    simp only [findFit, List.findIdx?_cons, List.findIdx?_nil] at hf
    split at hf
    · cases hf
    · next hd => rw [decide_eq_true_eq] at hd; omega

end Verif.CStr
