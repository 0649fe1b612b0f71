import Verif.Rome.Lemmas

/-!
# The lists say what they should
-/

namespace Verif.Rome

open Verif

/-- A list that adds nothing but the start of an interval. -/
def Extra (e : List T) : Prop := e = [] ∨ ∃ v, e = [fld "interval_start".toList v]

theorem Extra.none {e : List T} (h : Extra e) {name : String} (hn : name.toList ≠ "interval_start".toList) : value name e = .none := by
  obtain rfl | ⟨v, rfl⟩ := h
  · rfl
  · show (if "interval_start".toList = name.toList then _ else _) = _
    rw [if_neg (Ne.symm hn)]
    rfl

theorem base_says (f : Fmt) (b : Base) (e : List T) : SaysBase f (baseT f b ++ e) b := by
  refine ⟨rfl, fun h => ?_, fun h => ?_, fun h => ?_, fun h => ?_, fun h => ?_, fun h => ?_, fun h => ?_, fun h => ?_⟩ <;>
    (unfold baseT; rw [if_pos h]; rfl)

theorem base_skip (f : Fmt) (b : Base) (name : String) (e : List T) (h : ∀ n ∈ ["count", "min", "max", "mean", "stddev", "variance", "conf95", "total", "total_sq"], String.toList n ≠ name.toList) :
    value name (baseT f b ++ e) = value name e := by
  have hs : ∀ n ∈ ["count", "min", "max", "mean", "stddev", "variance", "conf95", "total", "total_sq"], ∀ v l, value name (fld (String.toList n) v :: l) = value name l := by
    intro n hn v l
    show (if String.toList n = name.toList then _ else _) = _
    rw [if_neg (h n hn)]
  unfold baseT
  split
  · simp only [List.cons_append, List.nil_append]
    rw [hs "count" (by simp), hs "min" (by simp), hs "max" (by simp), hs "mean" (by simp), hs "stddev" (by simp), hs "variance" (by simp), hs "conf95" (by simp), hs "total" (by simp),
      hs "total_sq" (by simp)]
  · simp only [List.cons_append, List.nil_append]
    rw [hs "count" (by simp)]

theorem head_says (f : Fmt) (kind : String) (h : Hist) (mid : List T) (e : List T) (hm : mid = [] ∨ value "binCounts" (mid ++ [countsT f h] ++ e) = some [.p (words (h.counts.map f.nat))]) :
    SaysHist f kind (headT f kind.toList h ++ mid ++ [countsT f h] ++ e) h := by
  refine ⟨rfl, rfl, rfl, rfl, ?_⟩
  have : (h.counts.map fun n => T.w (f.nat n)) = words (h.counts.map f.nat) := by simp [words]
  rw [HasArray, this]
  obtain rfl | hm := hm
  · rfl
  · rw [List.append_assoc, List.append_assoc, ← List.append_assoc mid]
    exact hm

theorem positive_cases (f : Fmt) (name : Txt) (n : Nat) : (n = 0 ∧ positiveT f name n = []) ∨ (0 < n ∧ positiveT f name n = [fld name (f.nat n)]) := by
  unfold positiveT
  rcases Nat.eq_zero_or_pos n with h | h
  · left; exact ⟨h, by rw [if_neg (by omega)]⟩
  · right; exact ⟨h, by rw [if_pos h]⟩

theorem means_says (r : Rat → Rat) (f : Fmt) (h : Hist) (hl : h.vals.length = h.counts.length) (us : List T) (hu : value "binMeans" us = value "binMeans" [meansT r f h]) : SaysMeans r f us h := by
  refine ⟨(h.vals.zip h.counts).map fun p => f.dbl (binMean r p.1 p.2), by rw [HasArray, hu]; rfl, by simp [hl], fun i n v h1 h2 hn => ?_⟩
  rw [List.getElem?_map, List.getElem?_zip_eq_some.2 ⟨h2, h1⟩ |> fun (e : (h.vals.zip h.counts)[i]? = some (v, n)) => e]
  simp [binMean, hn]

theorem hists_length (r : Rat → Rat) (f : Fmt) : ∀ l : List Stat, (hists r f l).length = l.length
  | [] => by rw [hists]; rfl
  | s :: l => by rw [hists, List.length_cons, hists_length r f l, List.length_cons]

theorem parts_length (r : Rat → Rat) (f : Fmt) (interval : Rat) (first : Option Rat) : ∀ (l : List (Option Stat)) (i : Nat), (partsT r f interval first l i).length = l.length
  | [], i => by rw [partsT]; rfl
  | s :: l, i => by rw [partsT, List.length_cons, parts_length r f interval first l, List.length_cons]

theorem stat_skip (r : Rat → Rat) (f : Fmt) (s : Stat) (v : Txt) : value "interval_start" (stat r f s ++ [fld "interval_start".toList v]) = some [.w v] := by
  have hb : ∀ (b : Base) (e : List T), value "interval_start" (baseT f b ++ e) = value "interval_start" e := fun b e => base_skip f b _ e (by decide)
  cases s with
  | plain b => rw [stat, hb]; rfl
  | uniform b h => rw [stat, uniformT, List.append_assoc, hb]; rfl
  | log b h => rw [stat, logT, List.append_assoc, hb]; rfl
  | uniformAccum b h => rw [stat, uniformAccumT, List.append_assoc, hb]; rfl
  | logAccum b h => rw [stat, logAccumT, List.append_assoc, hb]; rfl
  | sequence b w q => rw [stat, sequenceT, List.append_assoc, hb]; rfl
  | quantile b rows =>
    rw [stat, quantileT, List.append_assoc, hb]
    split <;> rfl
  | hgroup b low high hs => rw [stat, List.append_assoc, hb]; rfl
  | series b i x y parts => rw [stat, List.append_assoc, hb]; rfl

theorem parts_start (r : Rat → Rat) (f : Fmt) (interval t : Rat) : ∀ (l : List (Option Stat)) (k i : Nat) (u : List T), (partsT r f interval (some t) l k)[i]? = some u →
    value "interval_start" u = some [.w (f.dbl (.q (r (r ((k + i : Nat) * interval) + t))))]
  | [], k, i, u, h => by rw [partsT] at h; simp at h
  | o :: l, k, 0, u, h => by
    rw [partsT] at h
    simp only [List.getElem?_cons_zero, Option.some.injEq] at h
    subst h
    cases o with
    | none => rfl
    | some s => exact stat_skip r f s _
  | o :: l, k, i + 1, u, h => by
    rw [partsT, List.getElem?_cons_succ] at h
    have := parts_start r f interval t l (k + 1) i u h
    rw [this, show k + 1 + i = k + (i + 1) from by omega]

theorem parts_none (r : Rat → Rat) (f : Fmt) (interval : Rat) (first : Option Rat) : ∀ (l : List (Option Stat)) (k i : Nat) (u : List T), l[i]? = some none →
    (partsT r f interval first l k)[i]? = some u → Has u "count" "0".toList
  | [], k, i, u, h, _ => by simp at h
  | o :: l, k, 0, u, h, h' => by
    rw [partsT] at h'
    simp only [List.getElem?_cons_zero, Option.some.injEq] at h h'
    subst h h'
    rfl
  | o :: l, k, i + 1, u, h, h' => by
    rw [partsT, List.getElem?_cons_succ] at h'
    exact parts_none r f interval first l (k + 1) i u (by simpa using h) h'

mutual

theorem stat_says (r : Rat → Rat) (f : Fmt) : ∀ (s : Stat) (e : List T), Good s → Sized s → Extra e → Says r f s (stat r f s ++ e)
  | .plain b, e, _, _, _ => by rw [stat]; exact .plain (base_says f b e)
  | .uniform b h, e, _, _, he => by
    rw [stat, uniformT, List.append_assoc]
    refine .uniform (us := headT f "uniform".toList h ++ [fld "binwidth".toList (f.dbl h.width)] ++ positiveT f "rescales".toList h.rescales ++ positiveT f "grows".toList h.grows ++ [countsT f h])
      (base_says f b _) ?_ ?_ rfl ?_
    · rw [HasList, base_skip f b _ _ (by decide)]; rfl
    · have := head_says f "uniform" h ([fld "binwidth".toList (f.dbl h.width)] ++ positiveT f "rescales".toList h.rescales ++ positiveT f "grows".toList h.grows) [] (by
        right
        rcases positive_cases f "rescales".toList h.rescales with ⟨_, e1⟩ | ⟨_, e1⟩ <;> rcases positive_cases f "grows".toList h.grows with ⟨_, e2⟩ | ⟨_, e2⟩ <;> rw [e1, e2] <;> rfl)
      simpa using this
    · rcases positive_cases f "rescales".toList h.rescales with ⟨h1, e1⟩ | ⟨h1, e1⟩ <;> rcases positive_cases f "grows".toList h.grows with ⟨h2, e2⟩ | ⟨h2, e2⟩ <;> rw [e1, e2] <;>
        exact ⟨fun _ => by first | rfl | omega, fun _ => by first | rfl | omega, fun _ => by first | rfl | omega, fun _ => by first | rfl | omega⟩
  | .log b h, e, _, _, he => by
    rw [stat, logT, List.append_assoc]
    refine .log (us := headT f "log".toList h ++ [countsT f h]) (base_says f b _) ?_ ?_
    · rw [HasList, base_skip f b _ _ (by decide)]; rfl
    · simpa using head_says f "log" h [] [] (.inl rfl)
  | .uniformAccum b h, e, _, hs, he => by
    rw [Sized] at hs
    rw [stat, uniformAccumT, List.append_assoc]
    refine .uniformAccum (us := headT f "uniformAccum".toList h ++ positiveT f "rescales".toList h.rescales ++ positiveT f "grows".toList h.grows ++ [countsT f h, meansT r f h])
      (base_says f b _) ?_ ?_ ?_ (means_says r f h hs _ ?_)
    · rw [HasList, base_skip f b _ _ (by decide)]; rfl
    · have := head_says f "uniformAccum" h (positiveT f "rescales".toList h.rescales ++ positiveT f "grows".toList h.grows) [meansT r f h] (by
        right
        rcases positive_cases f "rescales".toList h.rescales with ⟨_, e1⟩ | ⟨_, e1⟩ <;> rcases positive_cases f "grows".toList h.grows with ⟨_, e2⟩ | ⟨_, e2⟩ <;> rw [e1, e2] <;> rfl)
      simpa using this
    · rcases positive_cases f "rescales".toList h.rescales with ⟨h1, e1⟩ | ⟨h1, e1⟩ <;> rcases positive_cases f "grows".toList h.grows with ⟨h2, e2⟩ | ⟨h2, e2⟩ <;> rw [e1, e2] <;>
        exact ⟨fun _ => by first | rfl | omega, fun _ => by first | rfl | omega, fun _ => by first | rfl | omega, fun _ => by first | rfl | omega⟩
    · rcases positive_cases f "rescales".toList h.rescales with ⟨h1, e1⟩ | ⟨h1, e1⟩ <;> rcases positive_cases f "grows".toList h.grows with ⟨h2, e2⟩ | ⟨h2, e2⟩ <;> rw [e1, e2] <;> rfl
  | .logAccum b h, e, _, hs, he => by
    rw [Sized] at hs
    rw [stat, logAccumT, List.append_assoc]
    refine .logAccum (us := headT f "logAccum".toList h ++ [countsT f h, meansT r f h]) (base_says f b _) ?_ ?_ (means_says r f h hs _ rfl)
    · rw [HasList, base_skip f b _ _ (by decide)]; rfl
    · simpa using head_says f "logAccum" h [] [meansT r f h] (.inl rfl)
  | .sequence b w s, e, hg, _, he => by
    rw [Good] at hg
    obtain ⟨j, hj, hp⟩ := hg
    rw [stat, sequenceT, List.append_assoc]
    refine .sequence (j := j) (l := printed r s) (us := [fld "intervalWidth".toList (f.dbl (.q (r (w * s.per)))), fld "numRescales".toList (f.nat (Nat.log2 s.per)),
      .b [.w "values".toList, .p (words ((printed r s).map fun v => f.dbl (.q v)))]]) (base_says f b _) ?_ rfl hp (by rw [hp, Nat.log2_two_pow]; rfl) rfl ?_ ?_ ?_
    · rw [HasList, base_skip f b _ _ (by decide)]; rfl
    · unfold printed; rw [List.take_left']; rfl
    · unfold printed; split <;> simp
    · unfold printed hasExtra
      by_cases h : s.remain < s.per <;> simp [h]
  | .quantile b rows, e, _, _, he => by
    rw [stat, quantileT, List.append_assoc]
    refine .quantile (base_says f b _) (fun h => ?_) (fun h => ?_)
    · rw [HasArray, base_skip f b _ _ (by decide), if_pos h]; rfl
    · rw [base_skip f b _ _ (by decide), if_neg (by omega)]
      exact he.none (by decide)
  | .hgroup b low high hs, e, hg, hz, he => by
    rw [Good] at hg
    rw [Sized] at hz
    rw [stat, List.append_assoc]
    refine .hgroup (us := [.b [.w "low".toList, .b (baseT f low)], .b [.w "high".toList, .b (baseT f high)], .b [.w "histograms".toList, .p ((hists r f hs).map T.b)]]) (ls := baseT f low) (ks := baseT f high) (l := hists r f hs) (base_says f b _) ?_ rfl ?_ rfl ?_ rfl (hists_length r f hs) (hists_says r f hs hg hz)
    · rw [HasList, base_skip f b _ _ (by decide)]; rfl
    · simpa using base_says f low []
    · simpa using base_says f high []
  | .series b interval first last parts, e, hg, hz, he => by
    rw [Good] at hg
    rw [Sized] at hz
    rw [stat, List.append_assoc]
    refine .series (l := partsT r f interval first parts 0) (base_says f b _) ?_ (fun t ht => ?_) (fun t ht => ?_) ?_ (parts_length r f interval first parts 0)
      (parts_says r f interval first parts 0 hg hz) (parts_none r f interval first parts 0) (fun i u t ht hu => ?_)
    · rw [Has, base_skip f b _ _ (by decide)]; rfl
    · rw [Has, base_skip f b _ _ (by decide), ht]; rfl
    · rw [Has, base_skip f b _ _ (by decide), ht]; rfl
    · rw [HasArray, base_skip f b _ _ (by decide)]; rfl
    · subst ht
      have := parts_start r f interval t parts 0 i u hu
      rwa [Nat.zero_add] at this

theorem hists_says (r : Rat → Rat) (f : Fmt) : ∀ (l : List Stat), GoodHists l → SizedHists l → ∀ (i : Nat) s t, l[i]? = some s → (hists r f l)[i]? = some t → Says r f s t
  | [], _, _, i, s, t, h, _ => by simp at h
  | x :: l, hg, hz, 0, s, t, h, h' => by
    rw [GoodHists] at hg
    rw [SizedHists] at hz
    rw [hists] at h'
    simp only [List.getElem?_cons_zero, Option.some.injEq] at h h'
    subst h h'
    simpa using stat_says r f x [] hg.1 hz.1 (.inl rfl)
  | x :: l, hg, hz, i + 1, s, t, h, h' => by
    rw [GoodHists] at hg
    rw [SizedHists] at hz
    rw [hists, List.getElem?_cons_succ] at h'
    exact hists_says r f l hg.2 hz.2 i s t (by simpa using h) h'

theorem parts_says (r : Rat → Rat) (f : Fmt) (interval : Rat) (first : Option Rat) : ∀ (l : List (Option Stat)) (k : Nat), GoodParts l → SizedParts l →
    ∀ (i : Nat) s u, l[i]? = some (some s) → (partsT r f interval first l k)[i]? = some u → Says r f s u
  | [], k, _, _, i, s, u, h, _ => by simp at h
  | none :: l, k, hg, hz, 0, s, u, h, h' => by simp at h
  | some x :: l, k, hg, hz, 0, s, u, h, h' => by
    rw [GoodParts, GoodPart] at hg
    rw [SizedParts, SizedPart] at hz
    rw [partsT, partT] at h'
    simp only [List.getElem?_cons_zero, Option.some.injEq] at h h'
    have := stat_says r f x _ hg.1 hz.1 (.inr ⟨f.dbl (startOf r interval first k), rfl⟩)
    rw [h'] at this
    rw [← h]
    exact this
  | x :: l, k, hg, hz, i + 1, s, u, h, h' => by
    rw [GoodParts] at hg
    rw [SizedParts] at hz
    rw [partsT, List.getElem?_cons_succ] at h'
    exact parts_says r f interval first l (k + 1) hg.2 hz.2 i s u (by simpa using h) h'

end

end Verif.Rome
