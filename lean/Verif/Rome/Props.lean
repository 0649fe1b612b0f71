import Verif.Rome.SaysLemmas
import Verif.Series.SeqProps

/-!
# Properties of the nested lists

C212.
-/

namespace Verif.Rome

open Verif

/-- C212. What `printRome` prints of a statistic of any class, however nested, reads as a list, the same for every depth, and the list says what it should. Missing: the value of
the points of a sequence that do not fill a group (`sequence_printed_partial`, `sequence_mean_false`) and the mean of an empty bin (`rome_nan_false`). -/
theorem rome_partial (r : Rat → Rat) {f : Fmt} (hf : f.Ok) (s : Stat) (hg : Good s) (hs : Sized s) : ∃ ts, Says r f s ts ∧ ∀ d, ∃ t, render r f s d = .ok t ∧ read t = some ts := by
  refine ⟨stat r f s, by simpa using stat_says r f s [] hg hs (.inl rfl), fun d => ?_⟩
  obtain ⟨t, h1, h2⟩ := render_ok r hf s d hg
  exact ⟨t, h1, h2.read⟩

/-- A format for the examples: fractions. -/
def frac : Fmt where
  dbl
    | .q x => (if x < 0 then ['-'] else []) ++ Nat.toDigits 10 x.num.natAbs ++ '/' :: Nat.toDigits 10 x.den
    | .inf => "inf".toList
    | .ninf => "-inf".toList
    | .nan => "nan".toList
  nat n := Nat.toDigits 10 n

theorem digit_delim (n : Nat) : ∀ c ∈ Nat.toDigits 10 n, delim c = false := by
  intro c hc
  have h := Nat.isDigit_of_mem_toDigits (by decide) (by decide) hc
  unfold delim
  by_contra hd
  simp only [Bool.not_eq_false, Bool.or_eq_true, beq_iff_eq] at hd
  rcases hd with (((((rfl | rfl) | rfl) | rfl) | rfl) | rfl) | rfl <;> revert h <;> decide

theorem frac_ok : frac.Ok := by
  refine ⟨fun x => ?_, fun n => ⟨Nat.toDigits_ne_nil, digit_delim n⟩⟩
  cases x with
  | q x =>
    refine ⟨by simp [frac], fun c hc => ?_⟩
    simp only [frac, List.append_assoc, List.mem_append, List.mem_cons] at hc
    rcases hc with hc | hc | rfl | hc
    · split at hc
      · simp at hc; rw [hc]; rfl
      · simp at hc
    · exact digit_delim _ c hc
    · rfl
    · exact digit_delim _ c hc
  | inf => exact word_lit _ rfl
  | ninf => exact word_lit _ rfl
  | nan => exact word_lit _ rfl

/-- An empty statistic. -/
def none' : Base := ⟨0, .inf, .ninf, .q 0, .q 0, .q 0, .inf, .q 0, .q 0⟩

/-- A case of the theorem: a series of which the second interval is empty and the third has a histogram. -/
example : Good (.series none' 2 (some 1) (some 6) [some (.plain none'), none, some (.log none' ⟨.q 1, .q 8, .q 0, 0, 0, [3, 0, 1], []⟩)]) ∧
    (render id frac (.series none' 2 (some 1) (some 6) [some (.plain none'), none, some (.log none' ⟨.q 1, .q 8, .q 0, 0, 0, [3, 0, 1], []⟩)]) 1).map (fun t => String.ofList t) =
    .ok " { count 0 }\n { seriesInterval 2/1 }\n { seriesStart 1/1 }\n { seriesEnd 6/1 }\n { series (\n   {\n     { count 0 }\n     { interval_start 1/1 }\n   }\n   {\n     { count 0 }\n     { interval_start 3/1 }\n   }\n   {\n     { count 0 }\n     { histogram {\n       { type log }\n       { low 1/1 }\n       { high 8/1 }\n       { bins 3 }\n       { binCounts (3 0 1 ) } } }\n     { interval_start 5/1 }\n   }\n )}\n" :=
  ⟨by simp [Good, GoodParts, GoodPart], by decide +kernel⟩

/-- C212. Reads and writes: if only "all" has values its list stands alone; otherwise there is one list in braces, with a list for each part that has values. -/
theorem rome_rw (r : Rat → Rat) {f : Fmt} (hf : f.Ok) (x y z : Stat) (gx : Good x) (gy : Good y) (gz : Good z) (sx : Sized x) (sy : Sized y) (sz : Sized z) :
    ∃ ts, (∀ d, ∃ t, renderRW r f (some x) (some y) (some z) d = .ok t ∧ read t = some ts) ∧
      (x.base.count = 0 ∧ y.base.count = 0 ∧ 0 < z.base.count → Says r f z ts) ∧
      (¬ (x.base.count = 0 ∧ y.base.count = 0 ∧ 0 < z.base.count) → ∃ us, ts = [.b us] ∧ SaysPart r f us "read" x ∧ SaysPart r f us "write" y ∧ SaysPart r f us "all" z) := by
  by_cases h : x.base.count = 0 ∧ y.base.count = 0 ∧ 0 < z.base.count
  · obtain ⟨ts, h1, h2⟩ := rome_partial r hf z gz sz
    refine ⟨ts, fun d => ?_, fun _ => h1, fun h' => absurd h h'⟩
    obtain ⟨t, e, e'⟩ := h2 d
    exact ⟨t, by unfold renderRW; simp only [deref, Res.bind_ok]; rw [if_pos h, e], e'⟩
  · have hp : ∀ (name : Txt) (s : Stat), Word name → Good s → ∀ d, ∃ t, part r f d name s = .ok t ∧
        Tx t (flats (if s.base.count ≠ 0 then [.b [.w name, .b (stat r f s)]] else [])) := by
      intro name s hn hg d
      unfold part
      by_cases hc : s.base.count ≠ 0
      · obtain ⟨t, h1, h2⟩ := render_ok r hf s (d + 4) hg
        rw [if_pos hc, if_pos hc, h1, Res.bind_ok]
        refine ⟨_, rfl, ?_⟩
        simp only [List.append_assoc]
        refine Tx.of (Tx.app (Tx.sp d) (Tx.app (Tx.lit "  { ".toList ⟨"  {".toList, ' ', rfl, rfl⟩) (Tx.word hn (Begins.app (s := " {\n".toList) ⟨' ', _, rfl, rfl⟩ _)
          (Tx.app (Tx.lit " {\n".toList ⟨" {".toList, '\n', rfl, rfl⟩) (Tx.app h2 (Tx.app (Tx.sp d) (Tx.lit "  }}\n".toList ⟨"  }}".toList, '\n', rfl, rfl⟩))))))) ?_
        rw [show toks "  { ".toList = [.ob] from rfl, show toks " {\n".toList = [.ob] from rfl, show toks "  }}\n".toList = [.cb, .cb] from rfl]
        simp [flats, flat]
      · rw [if_neg hc, if_neg hc]
        exact ⟨[], rfl, Tx.nil⟩
    have hv : ∀ (name : String) (s : Stat), Good s → Sized s → ∀ (a b : List T), value name a = none → value name b = none →
        SaysPart r f (a ++ (if s.base.count ≠ 0 then [.b [.w name.toList, .b (stat r f s)]] else []) ++ b) name s := by
      intro name s hg hs a b ha hb
      have happ : ∀ (a c : List T), value name a = none → value name (a ++ c) = value name c := by
        intro a c
        induction a with
        | nil => intro _; rfl
        | cons t a ih =>
          intro hn
          rw [List.cons_append]
          rw [value.eq_def] at hn
          rw [value.eq_def name (t :: (a ++ c))]
          split at hn
          · rename_i heq; cases heq
          · rename_i n v l heq
            simp only [List.cons.injEq] at heq
            obtain ⟨rfl, rfl⟩ := heq
            split at hn
            · cases hn
            · rename_i hne
              simp only
              rw [if_neg hne]
              exact ih hn
          · rename_i t' l' hneq heq
            simp only [List.cons.injEq] at heq
            obtain ⟨rfl, rfl⟩ := heq
            split
            · rename_i h0; cases h0
            · rename_i n v l h0
              simp only [List.cons.injEq] at h0
              exact absurd h0.1 (hneq n v)
            · rename_i h0
              simp only [List.cons.injEq] at h0
              rw [← h0.2]
              exact ih hn
      refine ⟨fun hc => ?_, fun hc => ⟨stat r f s, ?_, by simpa using stat_says r f s [] hg hs (.inl rfl)⟩⟩
      · rw [List.append_assoc, happ _ _ ha, if_neg (by simpa using hc)]
        exact hb
      · rw [HasList, List.append_assoc, happ _ _ ha, if_pos hc]
        show (if name.toList = name.toList then _ else _) = _
        rw [if_pos rfl]
    refine ⟨[.b ((if x.base.count ≠ 0 then [.b [.w "read".toList, .b (stat r f x)]] else []) ++ (if y.base.count ≠ 0 then [.b [.w "write".toList, .b (stat r f y)]] else []) ++
      (if z.base.count ≠ 0 then [.b [.w "all".toList, .b (stat r f z)]] else []))], fun d => ?_, fun h' => absurd h' h, fun _ => ⟨_, rfl, ?_, ?_, ?_⟩⟩
    · obtain ⟨tx, ex, fx⟩ := hp "read".toList x (word_lit _ rfl) gx d
      obtain ⟨ty, ey, fy⟩ := hp "write".toList y (word_lit _ rfl) gy d
      obtain ⟨tz, ez, fz⟩ := hp "all".toList z (word_lit _ rfl) gz d
      refine ⟨_, by
        unfold renderRW
        simp only [deref, Res.bind_ok]
        rw [if_neg h, ex, Res.bind_ok, ey, Res.bind_ok, ez, Res.bind_ok]
        rfl, ?_⟩
      refine Tx.read (Tx.of (Tx.app (Tx.app (Tx.app (Tx.app (Tx.app (Tx.app (Tx.sp d) (Tx.lit "{\n".toList ⟨"{".toList, '\n', rfl, rfl⟩)) fx) fy) fz) (Tx.sp d))
        (Tx.lit "}\n".toList ⟨"}".toList, '\n', rfl, rfl⟩)) ?_)
      rw [show toks "{\n".toList = [.ob] from rfl, show toks "}\n".toList = [.cb] from rfl]
      simp [flats, flat, flats_append]
    · have := hv "read" x gx sx [] ((if y.base.count ≠ 0 then [.b [.w "write".toList, .b (stat r f y)]] else []) ++
        (if z.base.count ≠ 0 then [.b [.w "all".toList, .b (stat r f z)]] else [])) rfl (by split <;> split <;> rfl)
      simpa using this
    · exact hv "write" y gy sy _ _ (by split <;> rfl) (by split <;> rfl)
    · have := hv "all" z gz sz ((if x.base.count ≠ 0 then [.b [.w "read".toList, .b (stat r f x)]] else []) ++
        (if y.base.count ≠ 0 then [.b [.w "write".toList, .b (stat r f y)]] else [])) [] (by split <;> split <;> rfl) rfl
      simpa using this

/-- A case of the theorem. -/
example : (renderRW id frac (some (.plain ⟨1, .q 5, .q 5, .q 5, .q 0, .q 0, .q 0, .q 5, .q 25⟩)) (some (.plain none')) (some (.plain none')) 0).map (fun t => String.ofList t) =
    .ok "{\n  { read {\n    { count 1 }\n    { min 5/1 }\n    { max 5/1 }\n    { mean 5/1 }\n    { stddev 0/1 }\n    { variance 0/1 }\n    { conf95 0/1 }\n    { total 5/1 }\n    { total_sq 25/1 }\n  }}\n}\n" := by
  decide +kernel

/-- C212. A `StatsRW` may be made with a part that is NULL, but then it cannot be printed. -/
theorem rome_null_false (r : Rat → Rat) (f : Fmt) (d : Nat) (x y z : Option Stat) (h : x = none ∨ y = none ∨ z = none) : renderRW r f x y z d = .ub := by
  unfold renderRW
  cases x <;> cases y <;> cases z <;> simp [deref] at h ⊢

/-- C212. The mean that is printed of a bin without values is no number. -/
theorem rome_nan_false (r : Rat → Rat) : binMean r 0 0 = .nan ∧
    (render r frac (.uniformAccum none' ⟨.q 0, .q 1, .q 1, 0, 0, [0], [0]⟩) 0).map (fun t => String.ofList t) =
      .ok "{ count 0 }\n{ histogram {\n  { type uniformAccum }\n  { low 0/1 }\n  { high 1/1 }\n  { bins 1 }\n  { binCounts (0)}\n  { binMeans (nan ) } } }\n" := by
  refine ⟨rfl, ?_⟩
  rw [render, uniformAccumText, meanCells]
  show Res.ok (String.ofList (_ ++ (_ ++ cells 0 5 14 0 [frac.dbl .nan]) ++ _)) = _
  decide +kernel

/-- The values a sequence prints. -/
def Prints (r : Rat → Rat) (f : Fmt) (d : Nat) (b : Base) (w : Rat) (s : Series.Q) (l : List Rat) : Prop :=
  ∃ t ts us, render r f (.sequence b w s) d = .ok t ∧ read t = some ts ∧ HasList ts "sequence" us ∧ HasArray us "values" (words (l.map fun v => f.dbl (.q v)))

theorem prints (r : Rat → Rat) {f : Fmt} (hf : f.Ok) (d : Nat) (b : Base) (w : Rat) (s : Series.Q) {j : Nat} (hj : j < 31) (hp : s.per = 2 ^ j) : Prints r f d b w s (printed r s) := by
  obtain ⟨t, h1, h2⟩ := Tx.sequence r hf d b w s hj hp
  refine ⟨t, _, [fld "intervalWidth".toList (f.dbl (.q (r (w * s.per)))), fld "numRescales".toList (f.nat j), .b [.w "values".toList, .p (words ((printed r s).map fun v => f.dbl (.q v)))]],
    by rw [render, h1], h2.read, ?_, ?_⟩
  · rw [sequenceT, HasList, base_skip f b _ _ (by decide)]; rfl
  · rfl

/-- C212. The values that a sequence prints are the aggregates of all groups of points, and the last is that of the points that do not fill a group; none is missing. In exact
arithmetic, with at most `limit * 2^30` points. Missing: maxima of negative points (C36), and means with an unfilled group, see `sequence_mean_false`. -/
theorem sequence_printed_partial {limit : Nat} (hl : 0 < limit) (h2 : limit % 2 = 0) (m : Series.Mode) (ops : List Series.QOp) (hL : Series.Legal ops) (hF : Series.Few limit ops)
    (hpos : Series.modeAt m ops = .max → ∀ v ∈ Series.points ops, 0 ≤ v) {f : Fmt} (hf : f.Ok) (d : Nat) (b : Base) (w : Rat) :
    ∃ s0 s j l, Series.newQ limit m = .ok s0 ∧ Series.runQ id s0 ops = .ok s ∧ s.per = 2 ^ j ∧ Prints id f d b w s l ∧ l.length = ((Series.points ops).length + (2 ^ j - 1)) / 2 ^ j ∧
      ((Series.modeAt m ops = .mean → (Series.points ops).length % 2 ^ j = 0) →
        ∀ (i : Nat) x, l[i]? = some x → Series.IsAgg (Series.modeAt m ops) (Series.bucket (2 ^ j) i (Series.points ops)) x) := by
  obtain ⟨s0, s, j, h0, e, hj, hle, hlen, hval, -, -⟩ := Series.sequence_buckets_partial hl h2 m ops hL hF hpos
  have h00 : s0 = Series.resetQ ⟨limit, m, [], 0, 1, 1, Stats.reset⟩ := by
    unfold Series.newQ at h0
    rw [show decide (0 < limit) = true from decide_eq_true hl, show decide (limit % 2 = 0) = true from decide_eq_true h2] at h0
    exact (Res.ok.inj h0).symm
  obtain ⟨s', e', hI, hl', hm⟩ := Series.runQ_ok (Series.resetQ_ok (s := ⟨limit, m, [], 0, 1, 1, Stats.reset⟩) ⟨hl, h2⟩) ops hL hF
  rw [h00, e'] at e
  obtain rfl := Res.ok.inj e
  have hm : s'.mode = Series.modeAt m ops := hm
  have hj31 : j < 31 := by
    have := hI.small
    rw [hj] at this
    exact (Nat.pow_lt_pow_iff_right (by omega)).1 this
  have h2j : 0 < 2 ^ j := Nat.pos_of_ne_zero (by simp)
  have hrem := hI.remain
  have hmodlt := Nat.mod_lt (Series.points ops).length h2j
  have hdm := Nat.div_add_mod (Series.points ops).length (2 ^ j)
  rw [hj] at hrem
  have hx : hasExtra s' = decide (0 < (Series.points ops).length % 2 ^ j) := by
    unfold hasExtra
    rw [hrem, hj]
    congr 1
    simp only [eq_iff_iff]
    omega
  refine ⟨s0, s', j, printed id s', h0, h00 ▸ e', hj, prints id hf d b w s' hj31 hj, ?_, fun hmean i x hi => ?_⟩
  · unfold printed
    rw [hx, List.length_append, hlen]
    by_cases hz : (Series.points ops).length % 2 ^ j = 0
    · rw [hz, show decide (0 < 0) = false from rfl]
      simp only [Bool.false_eq_true, if_false, List.length_nil]
      have h1 : (Series.points ops).length = 2 ^ j * ((Series.points ops).length / 2 ^ j) := by omega
      rw [h1, Nat.mul_add_div h2j, Nat.div_eq_of_lt (show 2 ^ j - 1 < 2 ^ j by omega)]
      simp
    · rw [decide_eq_true (by omega)]
      simp only [if_true, List.length_cons, List.length_nil]
      have h1 : (Series.points ops).length + (2 ^ j - 1) = 2 ^ j * ((Series.points ops).length / 2 ^ j + 1) + ((Series.points ops).length % 2 ^ j - 1) := by
        rw [Nat.mul_add, Nat.mul_one]; omega
      rw [h1, Nat.mul_add_div h2j, Nat.div_eq_of_lt (show (Series.points ops).length % 2 ^ j - 1 < 2 ^ j by omega)]
  · unfold printed at hi
    rcases Nat.lt_or_ge i s'.values.length with hlt | hge
    · obtain ⟨y, hy, -, hagg⟩ := hval i hlt
      rw [List.getElem?_append_left hlt] at hi
      have hy' : Series.getQ s' i = .ok x := by
        unfold Series.getQ
        rw [decide_eq_true hlt, Res.require_true, Res.bind_ok, PQ.rd_eq 0 _ _ hlt, PQ.g]
        rw [List.getElem?_eq_some_iff] at hi
        obtain ⟨_, hi⟩ := hi
        simp [List.getD, hlt, hi]
      rw [hy] at hy'
      rw [← Res.ok.inj hy']
      exact hagg
    · rw [List.getElem?_append_right hge, hx] at hi
      by_cases hz : 0 < (Series.points ops).length % 2 ^ j
      · rw [decide_eq_true hz] at hi
        simp only [if_true] at hi
        have hi0 : i = s'.values.length := by
          by_contra hne
          rw [List.getElem?_eq_none (by simp; omega)] at hi
          cases hi
        rw [hi0, Nat.sub_self, List.getElem?_cons_zero] at hi
        have hxv := Option.some.inj hi
        have hb : Series.bucket (2 ^ j) i (Series.points ops) = (Series.points ops).drop (s'.values.length * s'.per) := by
          unfold Series.bucket
          rw [hi0, hj]
          refine List.take_of_length_le ?_
          rw [List.length_drop, hlen, Nat.mul_comm]
          omega
        have hpart := hI.part
        rw [hb, ← hxv]
        unfold extraValue
        rw [hpart, hm]
        cases hmode : Series.modeAt m ops with
        | sum => exact Series.acc_sum _
        | mean => exact absurd (hmean hmode) (by omega)
        | max =>
          refine Series.acc_max _ (fun v hv => hpos hmode v (List.mem_of_mem_drop hv)) fun hnil => ?_
          have := congrArg List.length hnil
          rw [List.length_drop, hlen, hj, List.length_nil, Nat.mul_comm] at this
          omega
      · rw [decide_eq_false hz] at hi
        simp at hi

/-- A case of the theorem: five points in a sequence of up to two, and the fifth stands alone. -/
example : (Series.newQ 2 .sum >>= (Series.runQ id · [.add 1, .add 2, .add 3, .add 6, .add 100])).map (printed id) = .ok [12, 100] := by decide +kernel

/-- C212. It is false of means: the last value is the sum of the points that do not fill a group, divided by the number that would. -/
theorem sequence_mean_false : ∃ s, (Series.newQ 2 .mean >>= (Series.runQ id · [.add 1, .add 2, .add 3])) = .ok s ∧ s.per = 2 ∧
    (∀ {f : Fmt}, f.Ok → ∀ d b w, Prints id f d b w s [3 / 2, 3 / 2]) ∧ ¬ Series.IsAgg .mean (Series.bucket 2 1 [1, 2, 3]) (3 / 2) := by
  refine ⟨⟨2, .mean, [3 / 2], 3, 2, 1, ⟨3, 6, 14, some 1, some 3⟩⟩, by decide +kernel, rfl, fun hf d b w => ?_, by simp [Series.IsAgg, Series.bucket]; norm_num⟩
  exact prints id hf d b w ⟨2, .mean, [3 / 2], 3, 2, 1, ⟨3, 6, 14, some 1, some 3⟩⟩ (j := 1) (by decide) rfl

end Verif.Rome
