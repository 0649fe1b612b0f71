import Verif.Tab.Lemmas2
import Verif.Rome.Props
import Verif.Histo.Props

/-!
# Properties of tables

C218.
-/

namespace Verif.Tab

open Verif Rome

/-- C218. What `printTabular` prints of a statistic or a histogram reads as lines of words, the same for every depth, and they say what they should: the numbers of the statistic,
with 0 for what an empty one does not have, and for each bin its upper end, its count, the sum so far, both as parts of all values, and its width. Missing: the heading calls
the upper end "low" (`tabular_low_false`), an empty histogram has no parts (`tabular_empty_false`), and nothing is printed of a series (`tabular_series_false`). -/
theorem tabular_partial (r : Rat → Rat) {f : Fmt} (hf : f.Ok) (s : Stat) (hs : Printable s) : ∃ ts, Says r f s ts ∧ ∀ d, ∃ t, text r f s d = .ok t ∧ table t = ts :=
  ⟨statRows r f s, stat_says r f s hs, fun d => (stat_rd r hf s hs d).imp fun _ h => ⟨h.1, h.2.table⟩⟩

/-- A statistic of three values. -/
def three : Base := ⟨3, .q 1, .q 3, .q 2, .q 1, .q 1, .q 1, .q 6, .q 14⟩

/-- A case of the theorem. -/
example : Printable (.hist three ⟨"uniform".toList, 0, 4, 1, 0, [⟨2, 1, 2⟩, ⟨4, 2, 2⟩]⟩) ∧
    (text id frac (.hist three ⟨"uniform".toList, 0, 4, 1, 0, [⟨2, 1, 2⟩, ⟨4, 2, 2⟩]⟩) 1).map (fun t => String.ofList t) =
    .ok "histogram begin\n count 3\n min 1/1\n max 3/1\n mean 2/1\n stddev 1/1\n variance 1/1\n conf95 1/1\n total 6/1\n total_sq 14/1\ntype uniform\nlow 0/1\nhigh 4/1\nbins 2\nrescales 1\nbinCounts begin (low items sumitems %items(pdf) %total(cdf) binwidth)\n2/1 1 1 1/3 1/3 2/1\n4/1 2 3 2/3 1/1 2/1\nbinCounts end\nhistogram end\n" :=
  ⟨word_lit _ rfl, by decide +kernel⟩

/-- A part of `StatsRW`: its lines are there if it has values, and nothing is if it has none. -/
def SaysPart (r : Rat → Rat) (f : Fmt) (ts : List (List Txt)) (name : String) (s : Stat) : Prop :=
  (s.count = 0 → ln [name, "begin"] ∉ ts) ∧ (s.count ≠ 0 → Says r f s (between [name, "begin"] [name, "end"] ts))

/-- The lines of a part. -/
def partRows (r : Rat → Rat) (f : Fmt) (name : String) (s : Stat) : List (List Txt) :=
  if s.count ≠ 0 then ln [name, "begin"] :: (statRows r f s ++ [ln [name, "end"]]) else []

theorem part_rd (r : Rat → Rat) {f : Fmt} (hf : f.Ok) (name : String) (hn : Word name.toList) (s : Stat) (hs : s.count ≠ 0 → Printable s) (d : Nat) :
    ∃ t, part r f d name.toList s = .ok t ∧ Rd t (partRows r f name s) := by
  unfold part partRows
  by_cases h : s.count ≠ 0
  · obtain ⟨t, h1, h2⟩ := stat_rd r hf s (hs h) (d + 4)
    rw [if_pos h, if_pos h, h1, Res.bind_ok]
    refine ⟨_, rfl, fun u => ?_⟩
    have e1 : Rd (name.toList ++ " begin\n".toList) [ln [name, "begin"]] := fun u => by
      have := from_blank hn [] ("begin\n".toList ++ u)
      unfold table
      rw [List.append_assoc]
      exact this
    have e2 : Rd (name.toList ++ " end\n".toList) [ln [name, "end"]] := fun u => by
      have := from_blank hn [] ("end\n".toList ++ u)
      unfold table
      rw [List.append_assoc]
      exact this
    have := Rd.app e1 (Rd.app h2 e2) u
    simp only [List.append_assoc] at this
    simp only [List.append_assoc]
    rw [this]
    simp
  · rw [if_neg h, if_neg h]
    exact ⟨[], rfl, Rd.nil⟩

theorem part_mem (r : Rat → Rat) (f : Fmt) {name n : String} (s : Stat) (hn : n ∈ ["read", "write", "all", "StatsRW"]) (hne : n ≠ name) (v : String) :
    ∀ l ∈ partRows r f name s, l ≠ ln [n, v] := by
  intro l hl
  unfold partRows at hl
  split at hl
  · have k : ∀ w, ln [name, w] ≠ ln [n, v] := by
      intro w e
      simp only [ln, List.map_cons, List.cons.injEq] at e
      exact hne (String.toList_injective e.1.symm)
    simp only [List.mem_cons, List.mem_append, List.not_mem_nil, or_false] at hl
    rcases hl with rfl | hl | rfl
    · exact k _
    · exact stat_mem r f s n hn v l hl
    · exact k _
  · cases hl

theorem part_says (r : Rat → Rat) (f : Fmt) {name : String} (hn : name ∈ ["read", "write", "all", "StatsRW"]) (s : Stat) (hs : s.count ≠ 0 → Printable s) (a c : List (List Txt))
    (ha : ∀ l ∈ a, l ≠ ln [name, "begin"]) (hc : ∀ l ∈ c, l ≠ ln [name, "begin"]) : SaysPart r f (a ++ (partRows r f name s ++ c)) name s := by
  refine ⟨fun h hm => ?_, fun h => ?_⟩
  · unfold partRows at hm
    rw [if_neg (by simpa using h), List.nil_append, List.mem_append] at hm
    exact hm.elim (fun h => ha _ h rfl) fun h => hc _ h rfl
  · unfold partRows
    rw [if_pos h]
    have := between_eq (first := [name, "begin"]) (last := [name, "end"]) (z := c) ha (stat_mem r f s name hn "end")
    simp only [List.cons_append, List.append_assoc, List.nil_append] at this ⊢
    rw [this]
    exact stat_says r f s (hs h)

/-- C218. Reads and writes: if only "all" has values its table stands alone; otherwise each part that has values has a section with its table, and no other part has one. -/
theorem tabular_rw (r : Rat → Rat) {f : Fmt} (hf : f.Ok) (x y z : Stat) (hx : x.count ≠ 0 → Printable x) (hy : y.count ≠ 0 → Printable y) (hz : z.count ≠ 0 → Printable z) :
    ∃ ts, (∀ d, ∃ t, textRW r f x y z d = .ok t ∧ table t = ts) ∧ (x.count = 0 ∧ y.count = 0 ∧ 0 < z.count → Says r f z ts) ∧
      (¬ (x.count = 0 ∧ y.count = 0 ∧ 0 < z.count) → SaysPart r f ts "read" x ∧ SaysPart r f ts "write" y ∧ SaysPart r f ts "all" z ∧
        between ["StatsRW", "begin"] ["StatsRW", "end"] ts = (ts.drop 1).dropLast) := by
  unfold textRW
  by_cases h : x.count = 0 ∧ y.count = 0 ∧ 0 < z.count
  · obtain ⟨ts, h1, h2⟩ := tabular_partial r hf z (hz (by omega))
    exact ⟨ts, fun d => by rw [if_pos h]; exact h2 d, fun _ => h1, fun h' => absurd h h'⟩
  · refine ⟨ln ["StatsRW", "begin"] :: (partRows r f "read" x ++ (partRows r f "write" y ++ (partRows r f "all" z ++ [ln ["StatsRW", "end"]]))), fun d => ?_, fun h' => absurd h' h,
      fun _ => ⟨?_, ?_, ?_, ?_⟩⟩
    · obtain ⟨tx, ex, fx⟩ := part_rd r hf "read" (word_lit _ rfl) x hx d
      obtain ⟨ty, ey, fy⟩ := part_rd r hf "write" (word_lit _ rfl) y hy d
      obtain ⟨tz, ez, fz⟩ := part_rd r hf "all" (word_lit _ rfl) z hz d
      rw [if_neg h, ex, Res.bind_ok, ey, Res.bind_ok, ez, Res.bind_ok]
      refine ⟨_, rfl, Rd.table ?_⟩
      have h0 : Rd "StatsRW begin\n".toList [ln ["StatsRW", "begin"]] := fun u => rfl
      have h1 : Rd "StatsRW end\n".toList [ln ["StatsRW", "end"]] := fun u => rfl
      exact Rd.app h0 (Rd.app fx (Rd.app fy (Rd.app fz h1)))
    · refine part_says r f (by decide) x hx [ln ["StatsRW", "begin"]] _ (fun l hl => ?_) fun l hl => ?_
      · rw [List.mem_singleton.1 hl]; decide
      · simp only [List.mem_append, List.mem_singleton] at hl
        rcases hl with hl | hl | rfl
        · exact part_mem r f y (by decide) (by decide) _ l hl
        · exact part_mem r f z (by decide) (by decide) _ l hl
        · decide
    · have := part_says r f (name := "write") (by decide) y hy (ln ["StatsRW", "begin"] :: partRows r f "read" x) (partRows r f "all" z ++ [ln ["StatsRW", "end"]]) (fun l hl => ?_)
        fun l hl => ?_
      · simpa using this
      · rw [List.mem_cons] at hl
        rcases hl with rfl | hl
        · decide
        · exact part_mem r f x (by decide) (by decide) _ l hl
      · simp only [List.mem_append, List.mem_singleton] at hl
        rcases hl with hl | rfl
        · exact part_mem r f z (by decide) (by decide) _ l hl
        · decide
    · have := part_says r f (name := "all") (by decide) z hz (ln ["StatsRW", "begin"] :: (partRows r f "read" x ++ partRows r f "write" y)) [ln ["StatsRW", "end"]] (fun l hl => ?_)
        fun l hl => ?_
      · simpa using this
      · rw [List.mem_cons, List.mem_append] at hl
        rcases hl with rfl | hl | hl
        · decide
        · exact part_mem r f x (by decide) (by decide) _ l hl
        · exact part_mem r f y (by decide) (by decide) _ l hl
      · rw [List.mem_singleton.1 hl]; decide
    · have := between_eq (first := ["StatsRW", "begin"]) (last := ["StatsRW", "end"]) (a := []) (z := []) (m := partRows r f "read" x ++ (partRows r f "write" y ++ partRows r f "all" z))
        (fun l hl => (by cases hl)) fun l hl => ?_
      · simp only [List.nil_append, List.append_assoc] at this
        rw [this, List.drop_one, List.tail_cons]
        simp only [← List.append_assoc, List.dropLast_concat]
      · simp only [List.mem_append] at hl
        rcases hl with hl | hl | hl
        · exact part_mem r f x (by decide) (by decide) _ l hl
        · exact part_mem r f y (by decide) (by decide) _ l hl
        · exact part_mem r f z (by decide) (by decide) _ l hl

/-- A case of the theorem: reads only, and "all" as a histogram. -/
example : (textRW id frac (.plain three) (.plain none') (.hist three ⟨"log".toList, 1, 4, 0, 0, [⟨2, 1, 1⟩, ⟨4, 2, 2⟩]⟩) 0).map (fun t => (counts (table t)).length) = .ok 2 ∧
    Printable (.hist three ⟨"log".toList, 1, 4, 0, 0, [⟨2, 1, 1⟩, ⟨4, 2, 2⟩]⟩) := ⟨by decide +kernel, word_lit _ rfl⟩

/-! ## What the rows of a uniform histogram mean -/

theorem take_countP {l : List Rat} {n : Nat} {low w : Rat} (hw : 0 < w) (bins : List Nat) (hl : bins.length = n)
    (hb : ∀ i, i < n → bins[i]? = some (l.countP (Histo.inBin low w n i))) (j : Nat) (hj : j < n) :
    (bins.take (j + 1)).sum = l.countP fun v => decide (j + 1 = n ∨ v < low + ((j + 1 : Nat) : Rat) * w) := by
  induction j with
  | zero =>
    have h0 := hb 0 hj
    have : bins.take 1 = [l.countP (Histo.inBin low w n 0)] := by
      cases bins with
      | nil => simp at h0
      | cons b bs => simp at h0; simp [h0]
    rw [this, List.sum_singleton]
    apply List.countP_congr
    intro v _
    simp [Histo.inBin]
  | succ j ih =>
    have h0 := hb (j + 1) hj
    rw [List.take_add_one, h0, List.sum_append, ih (by omega)]
    simp only [Option.toList_some, List.sum_singleton]
    clear ih h0 hb
    induction l with
    | nil => rfl
    | cons v l ih =>
      rw [List.countP_cons, List.countP_cons, List.countP_cons]
      have key : (if (decide (j + 1 = n ∨ v < low + ((j + 1 : Nat) : Rat) * w)) = true then 1 else 0) + (if Histo.inBin low w n (j + 1) v = true then 1 else 0) =
          (if (decide (j + 1 + 1 = n ∨ v < low + ((j + 1 + 1 : Nat) : Rat) * w)) = true then 1 else 0) := by
        have hlt : low + ((j + 1 : Nat) : Rat) * w < low + ((j + 1 + 1 : Nat) : Rat) * w := by push_cast; nlinarith
        by_cases h1 : v < low + ((j + 1 : Nat) : Rat) * w
        · have h2 : v < low + ((j + 1 + 1 : Nat) : Rat) * w := h1.trans hlt
          have h3 : Histo.inBin low w n (j + 1) v = false := by
            rw [Histo.inBin, decide_eq_false_iff_not]
            rintro ⟨h | h, -⟩
            · omega
            · exact absurd h1 (not_lt.2 h)
          rw [h3, decide_eq_true (Or.inr h1), decide_eq_true (Or.inr h2)]
          rfl
        · have h3 : Histo.inBin low w n (j + 1) v = decide (j + 1 + 1 = n ∨ v < low + ((j + 1 + 1 : Nat) : Rat) * w) := by
            rw [Histo.inBin]
            have := not_lt.1 h1
            rw [decide_eq_decide]
            push_cast at this ⊢
            tauto
          have h4 : ¬ (j + 1 = n) := by omega
          rw [h3, decide_eq_false (fun h => h.elim h4 h1)]
          simp
      omega

/-- C218. Whatever was added to a uniform histogram of any kind since the last reset, its table has a row for each bin, and the row says how many of these values are in the bin and how
many are below its end, as numbers and as parts of all values; the last row counts all of them, so that it says 1. With exact arithmetic in the histogram, as
`histogram_counts_partial`, and with any rounding of the parts for which 1 is a double. -/
theorem tabular_counts {r : Rat → Rat} (hr : r 1 = 1) (hr0 : ∀ n : Nat, 0 < n → r n ≠ 0) {f : Fmt} (hf : f.Ok) (base : Base) {b : Nat} (hb : 0 < b) (hb' : b < 2 ^ 32 - 1)
    {low high : Rat} (hlh : low < high) {scal grow : Bool} (h1 : ¬(scal = true ∧ grow = true))
    {h0 : Histo.H} (h0e : Histo.new id b low high scal grow = .ok h0) {M : Nat} (ops : List Histo.Op) (hv : Histo.vals ops ≠ []) (hft : Histo.Fits h0 M ops) :
    ∃ h, Histo.run id h0 ops = .ok h ∧ ∀ d, ∃ t, text r f (.hist { base with count := h.st.number } (ofUniform id h)) d = .ok t ∧ (counts (table t)).length = h.n ∧
      (∀ j, j < h.n → ∃ c s, (counts (table t))[j]? = some [f.dbl (.q (h.low + ((j + 1 : Nat) : Rat) * h.width)), f.nat c, f.nat s,
          f.dbl (.q (r (r c / r (Histo.vals ops).length))), f.dbl (.q (r (r s / r (Histo.vals ops).length))), f.dbl (.q h.width)] ∧
        c = (Histo.vals ops).countP (Histo.inBin h.low h.width h.n j) ∧
        s = if j + 1 = h.n then (Histo.vals ops).length else (Histo.vals ops).countP fun v => decide (v < h.low + ((j + 1 : Nat) : Rat) * h.width)) ∧
      ∃ l, (counts (table t))[h.n - 1]? = some l ∧ l[4]? = some (f.dbl (.q 1)) := by
  obtain ⟨h, e, k1, k2, k3, k4, k5, k6, k7, k8, -⟩ := Histo.histogram_counts_partial hb hb' hlh h1 h0e ops hft
  have hlen : 0 < (Histo.vals ops).length := List.length_pos_iff.2 hv
  refine ⟨h, e, fun d => ?_⟩
  obtain ⟨t, e1, e2⟩ := stat_rd r hf (.hist { base with count := h.st.number } (ofUniform id h)) (word_lit _ rfl) d
  have hsays := stat_says r f (.hist { base with count := h.st.number } (ofUniform id h)) (word_lit _ rfl)
  rw [← e2.table] at hsays
  refine ⟨t, e1, ?_⟩
  cases hsays with
  | hist s1 s2 s3 =>
    obtain ⟨q1, q2⟩ := s3 (by show 0 < h.st.number; rw [k6]; exact hlen)
    have hbl : (ofUniform id h).bins.length = h.n := by show (List.mapIdx _ h.bins).length = _; rw [List.length_mapIdx, k1]
    have hcs : (ofUniform id h).bins.map Bin.count = h.bins := by
      show (List.mapIdx _ h.bins).map Bin.count = _
      apply List.ext_getElem?
      intro i
      rw [List.getElem?_map, List.getElem?_mapIdx]
      cases h.bins[i]? <;> rfl
    have hrow : ∀ j, j < h.n → ∃ c s, (counts (table t))[j]? = some [f.dbl (.q (h.low + ((j + 1 : Nat) : Rat) * h.width)), f.nat c, f.nat s,
          f.dbl (.q (r (r c / r (Histo.vals ops).length))), f.dbl (.q (r (r s / r (Histo.vals ops).length))), f.dbl (.q h.width)] ∧
        c = (Histo.vals ops).countP (Histo.inBin h.low h.width h.n j) ∧
        s = if j + 1 = h.n then (Histo.vals ops).length else (Histo.vals ops).countP fun v => decide (v < h.low + ((j + 1 : Nat) : Rat) * h.width) := by
      intro j hj
      have := q2 j ⟨h.low + ((j + 1 : Nat) : Rat) * h.width, (Histo.vals ops).countP (Histo.inBin h.low h.width h.n j), h.width⟩ (by
        show (List.mapIdx _ h.bins)[j]? = _
        rw [List.getElem?_mapIdx, k4 j hj]
        rfl)
      rw [List.map_take, hcs] at this
      refine ⟨_, (h.bins.take (j + 1)).sum, ?_, rfl, ?_⟩
      · rw [← k6]; exact this
      · rw [take_countP k2 h.bins k1 k4 j hj]
        by_cases hl : j + 1 = h.n
        · rw [if_pos hl]
          simp [hl]
        · rw [if_neg hl]
          simp [hl]
    refine ⟨q1.trans hbl, hrow, ?_⟩
    have hn0 : 0 < h.n := by
      rcases Nat.eq_zero_or_pos h.n with h0 | h0
      · rw [← k1, List.length_eq_zero_iff] at h0
        rw [h0] at k5
        simp at k5
        omega
      · exact h0
    obtain ⟨c, s, w1, -, w3⟩ := hrow (h.n - 1) (by omega)
    rw [if_pos (by omega)] at w3
    refine ⟨_, w1, ?_⟩
    subst w3
    show some (f.dbl (.q (r (r _ / r _)))) = _
    rw [div_self (hr0 _ hlen), hr]

/-- A case of the theorem: the last two of four values, in a histogram that grew. -/
example : (Histo.new id 2 0 4 true false >>= (Histo.run id · [.add 1, .reset, .add 3, .add 9]) >>= fun h => text id frac (.hist { none' with count := h.st.number } (ofUniform id h)) 0).map
    (fun t => (counts (table t)).map (·.map String.ofList)) = .ok [["8/1", "1", "1", "1/2", "1/2", "8/1"], ["16/1", "1", "2", "1/2", "1/1", "8/1"]] := by decide +kernel

/-- C218. `printHistogramRandomInput` prints the number of bins, and then the upper end and the count of each. -/
theorem random_input {f : Fmt} (hf : f.Ok) (h : Hist) : table (inputText f h) = [f.nat h.bins.length] :: h.bins.map fun x => [f.dbl (.q x.high), f.nat x.count] := by
  have : ∀ l : List Bin, Rd (inputRows f l) (l.map fun x => [f.dbl (.q x.high), f.nat x.count]) := by
    intro l
    induction l with
    | nil => exact Rd.nil
    | cons x l ih =>
      intro u
      unfold inputRows table
      simp only [List.append_assoc]
      rw [from_blank (hf.dbl _), from_nl (hf.nat _), ih u]
      rfl
  unfold inputText table
  rw [from_nl (hf.nat _), (this _).table]
  rfl

example : String.ofList (inputText frac ⟨"uniform".toList, 0, 4, 1, 0, [⟨2, 1, 2⟩, ⟨4, 2, 2⟩]⟩) = "2\n2/1 1\n4/1 2\n" := by decide +kernel

/-- C218. The first column is called "low", but the first bin of a histogram from 0 on has its upper end there. -/
theorem tabular_low_false : (Histo.new id 2 0 4 false false >>= fun h => text id frac (.hist none' (ofUniform id h)) 0).map
    (fun t => ((get "low" (table t)).map (·.map String.ofList), (counts (table t)).map fun l => l.head?.map String.ofList)) =
    .ok (some ["0/1"], [some "2/1", some "4/1"]) := by decide +kernel

/-- C218. The parts of an empty histogram are 0 divided by 0. -/
theorem tabular_empty_false : (Histo.new id 2 0 4 false false >>= fun h => text id frac (.hist none' (ofUniform id h)) 0).map
    (fun t => (counts (table t)).map fun l => (l[3]?.map String.ofList, l[4]?.map String.ofList)) = .ok [(some "nan", some "nan"), (some "nan", some "nan")] := by decide +kernel

/-- C218. The program ends when a series is to be printed, alone or as a part of reads and writes. -/
theorem tabular_series_false (r : Rat → Rat) (f : Fmt) (b : Base) (hb : 0 < b.count) (d : Nat) : text r f (.seriesGroup b) d = .abort ∧
    textRW r f (.seriesGroup b) (.plain none') (.plain none') d = .abort := by
  refine ⟨rfl, ?_⟩
  unfold textRW
  rw [if_neg (by rintro ⟨h, -⟩; exact absurd h (Nat.pos_iff_ne_zero.1 hb))]
  unfold part
  rw [if_pos (show (Stat.seriesGroup b).count ≠ 0 from Nat.pos_iff_ne_zero.1 hb)]
  rfl

example : 0 < three.count := by decide

/-- C218. The depth is to be ignored, but the lines of the statistic are indented by it while all others are not. -/
theorem tabular_depth_false : (textRW id frac (.plain three) (.plain none') (.plain none') 0).map (fun t => String.ofList (t.take 49)) =
    .ok "StatsRW begin\nread begin\n    count 3\n    min 1/1\n" := by decide +kernel

end Verif.Tab
