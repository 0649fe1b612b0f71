import Verif.Tab.Lemmas

/-!
# More lemmas on tables: what their lines say
-/

namespace Verif.Tab

open Verif Rome

theorem base_says (f : Fmt) (b : Base) (c : List (List Txt)) : SaysBase f (baseRows f b ++ c) b :=
  ⟨get_some rfl c, get_some rfl c, get_some rfl c, get_some rfl c, get_some rfl c, get_some rfl c, get_some rfl c, get_some rfl c, get_some rfl c⟩

theorem rowRows_length (r : Rat → Rat) (f : Fmt) (count : Nat) : ∀ (l : List Bin) (sum : Nat), (rowRows r f count sum l).length = l.length
  | [], _ => rfl
  | _ :: l, _ => congrArg (· + 1) (rowRows_length r f count l _)

theorem rowRows_six (r : Rat → Rat) (f : Fmt) (count : Nat) : ∀ (l : List Bin) (sum : Nat), ∀ x ∈ rowRows r f count sum l, x.length = 6
  | [], _, x, h => by cases h
  | _ :: l, sum, x, h => by
    rw [rowRows, List.mem_cons] at h
    rcases h with rfl | h
    · rfl
    · exact rowRows_six r f count l _ x h

theorem rowRows_get (r : Rat → Rat) (f : Fmt) {count : Nat} (hc : 0 < count) : ∀ (l : List Bin) (sum j : Nat) (x : Bin), l[j]? = some x →
    (rowRows r f count sum l)[j]? = some [f.dbl (.q x.high), f.nat x.count, f.nat (sum + ((l.take (j + 1)).map Bin.count).sum), f.dbl (.q (r (r x.count / r count))),
      f.dbl (.q (r (r ((sum + ((l.take (j + 1)).map Bin.count).sum : Nat) : Rat) / r count))), f.dbl (.q x.width)]
  | [], _, _, _, h => by simp at h
  | y :: l, sum, 0, x, h => by
    simp only [List.getElem?_cons_zero, Option.some.injEq] at h
    subst h
    simp [rowRows, ratio, Nat.pos_iff_ne_zero.1 hc]
  | y :: l, sum, j + 1, x, h => by
    rw [List.getElem?_cons_succ] at h
    rw [rowRows, List.getElem?_cons_succ, rowRows_get r f hc l _ j x h]
    simp [Nat.add_assoc]

/-- The words that begin and end sections. -/
def marks : List Txt := ln ["histogram", "binCounts", "read", "write", "all", "StatsRW"]

/-- A line inside a section. -/
def Inside (l : List Txt) : Prop := l.length = 6 ∨ ∃ n v, l = [n, v] ∧ n ∉ marks

theorem Inside.ne {l : List Txt} (h : Inside l) (n : String) (hn : n.toList ∈ marks) (v : String) : l ≠ ln [n, v] := by
  rintro rfl
  rcases h with h | ⟨n', v', e, hn'⟩
  · exact absurd h (by simp [ln])
  · simp only [ln, List.map_cons, List.map_nil, List.cons.injEq] at e
    rw [← e.1] at hn'
    exact hn' hn

theorem base_inside (f : Fmt) (b : Base) : ∀ l ∈ baseRows f b, Inside l := by
  intro l hl
  simp only [baseRows, List.mem_cons, List.not_mem_nil, or_false] at hl
  rcases hl with rfl | rfl | rfl | rfl | rfl | rfl | rfl | rfl | rfl <;> exact .inr ⟨_, _, rfl, by decide⟩

/-- The lines of a histogram before its bins. -/
def head (f : Fmt) (b : Base) (h : Hist) : List (List Txt) :=
  baseRows f b ++ [["type".toList, h.kind], ["low".toList, f.dbl (.q h.low)], ["high".toList, f.dbl (.q h.high)], ["bins".toList, f.nat h.bins.length]] ++
    posRows f "rescales".toList h.rescales ++ posRows f "grows".toList h.grows

theorem head_inside (f : Fmt) (b : Base) (h : Hist) : ∀ l ∈ head f b h, Inside l := by
  intro l hl
  simp only [head, List.mem_append] at hl
  rcases hl with ((hl | hl) | hl) | hl
  · exact base_inside f b l hl
  · simp only [List.mem_cons, List.not_mem_nil, or_false] at hl
    rcases hl with rfl | rfl | rfl | rfl <;> exact .inr ⟨_, _, rfl, by decide⟩
  · unfold posRows at hl
    split at hl
    · simp only [List.mem_cons, List.not_mem_nil, or_false] at hl
      subst hl
      exact .inr ⟨_, _, rfl, by decide⟩
    · cases hl
  · unfold posRows at hl
    split at hl
    · simp only [List.mem_cons, List.not_mem_nil, or_false] at hl
      subst hl
      exact .inr ⟨_, _, rfl, by decide⟩
    · cases hl

theorem inner_eq (r : Rat → Rat) (f : Fmt) (b : Base) (h : Hist) :
    inner r f b h = head f b h ++ heading :: (rowRows r f b.count 0 h.bins ++ [["binCounts".toList, "end".toList]]) := rfl

theorem Inside.heading {l : List Txt} (h : Inside l) : l ≠ heading := by
  rintro rfl
  rcases h with h | ⟨n, v, e, -⟩
  · exact absurd h (by decide)
  · have := congrArg List.length e
    exact absurd this (by simp [Tab.heading])

theorem inner_mem (r : Rat → Rat) (f : Fmt) (b : Base) (h : Hist) : ∀ l ∈ inner r f b h, Inside l ∨ l = heading ∨ l = ["binCounts".toList, "end".toList] := by
  intro l hl
  rw [inner_eq, List.mem_append, List.mem_cons, List.mem_append, List.mem_singleton] at hl
  rcases hl with hl | hl | hl | hl
  · exact .inl (head_inside f b h l hl)
  · exact .inr (.inl hl)
  · exact .inl (.inl (rowRows_six r f _ _ _ l hl))
  · exact .inr (.inr hl)

theorem hist_says (r : Rat → Rat) (f : Fmt) (b : Base) (h : Hist) : Says r f (.hist b h) (histRows r f b h) := by
  have e1 : histogram (histRows r f b h) = inner r f b h := by
    refine between_eq (a := []) (z := []) (fun l hl => (by cases hl)) fun l hl => ?_
    rcases inner_mem r f b h l hl with h | rfl | rfl
    · exact h.ne _ (by decide) _
    · decide
    · decide
  have e2 : counts (histRows r f b h) = rowRows r f b.count 0 h.bins := by
    have : histRows r f b h = (["histogram".toList, "begin".toList] :: head f b h) ++ heading ::
        (rowRows r f b.count 0 h.bins ++ ["binCounts".toList, "end".toList] :: [["histogram".toList, "end".toList]]) := by
      simp [histRows, inner_eq]
    rw [this]
    refine between_eq (fun l hl => ?_) fun l hl => ?_
    · rw [List.mem_cons] at hl
      rcases hl with rfl | hl
      · decide
      · exact (head_inside f b h l hl).heading
    · exact Inside.ne (.inl (rowRows_six r f _ _ _ l hl)) _ (by decide) _
  have e3 : ∀ c, ∀ l ∈ heading :: (rowRows r f b.count 0 h.bins ++ [["binCounts".toList, "end".toList]]), c ≠ "binCounts" → ¬ (l.head? = some c.toList ∧ l.length = 2) := by
    rintro c l hl hc ⟨h1, h2⟩
    rw [List.mem_cons, List.mem_append, List.mem_singleton] at hl
    rcases hl with rfl | hl | rfl
    · exact absurd h2 (by decide)
    · rw [rowRows_six r f _ _ _ l hl] at h2
      exact absurd h2 (by decide)
    · simp only [List.head?_cons, Option.some.injEq] at h1
      exact hc (String.toList_injective h1.symm)
  have e4 : ∀ c, c ≠ "binCounts" → get c (heading :: (rowRows r f b.count 0 h.bins ++ [["binCounts".toList, "end".toList]])) = none := by
    intro c hc
    have := get_none (fun l hl => e3 c l hl hc) []
    rwa [List.append_nil] at this
  refine .hist ?_ ?_ fun hc => ⟨?_, fun j x hx => ?_⟩
  · rw [e1, inner_eq]
    unfold head
    simp only [List.append_assoc]
    exact base_says f b _
  · rw [e1, inner_eq]
    have g : ∀ c, c ∉ ["count", "min", "max", "mean", "stddev", "variance", "conf95", "total", "total_sq"] → ∀ l ∈ baseRows f b, ¬ (l.head? = some c.toList ∧ l.length = 2) := by
      rintro c hc l hl ⟨h1, -⟩
      simp only [baseRows, List.mem_cons, List.not_mem_nil, or_false] at hl
      rcases hl with rfl | rfl | rfl | rfl | rfl | rfl | rfl | rfl | rfl <;>
        exact hc (by rw [← String.toList_injective (Option.some.inj h1)]; decide)
    unfold head
    simp only [List.append_assoc]
    refine ⟨?_, ?_, ?_, ?_, fun h0 => ?_, fun h0 => ?_, fun h0 => ?_, fun h0 => ?_⟩
    all_goals rw [get_none (g _ (by decide))]
    · exact get_some rfl _
    · exact get_some rfl _
    · exact get_some rfl _
    · exact get_some rfl _
    · rw [get_none (by rintro l hl ⟨h1, -⟩; simp only [List.mem_cons, List.not_mem_nil, or_false] at hl; rcases hl with rfl | rfl | rfl | rfl <;> exact absurd (Option.some.inj h1) (by decide))]
      simp only [posRows, if_pos h0]
      exact get_some rfl _
    · rw [get_none (by rintro l hl ⟨h1, -⟩; simp only [List.mem_cons, List.not_mem_nil, or_false] at hl; rcases hl with rfl | rfl | rfl | rfl <;> exact absurd (Option.some.inj h1) (by decide))]
      simp only [posRows, h0, Nat.lt_irrefl, if_false, List.nil_append]
      rw [get_none, e4 _ (by decide)]
      rintro l hl ⟨h1, -⟩
      split at hl
      · simp only [List.mem_cons, List.not_mem_nil, or_false] at hl
        subst hl
        exact absurd (Option.some.inj h1) (by decide)
      · cases hl
    · rw [get_none (by rintro l hl ⟨h1, -⟩; simp only [List.mem_cons, List.not_mem_nil, or_false] at hl; rcases hl with rfl | rfl | rfl | rfl <;> exact absurd (Option.some.inj h1) (by decide))]
      rw [get_none (by
        rintro l hl ⟨h1, -⟩
        unfold posRows at hl
        split at hl
        · simp only [List.mem_cons, List.not_mem_nil, or_false] at hl
          subst hl
          exact absurd (Option.some.inj h1) (by decide)
        · cases hl)]
      simp only [posRows, if_pos h0]
      exact get_some rfl _
    · rw [get_none (by rintro l hl ⟨h1, -⟩; simp only [List.mem_cons, List.not_mem_nil, or_false] at hl; rcases hl with rfl | rfl | rfl | rfl <;> exact absurd (Option.some.inj h1) (by decide))]
      rw [get_none (by
        rintro l hl ⟨h1, -⟩
        unfold posRows at hl
        split at hl
        · simp only [List.mem_cons, List.not_mem_nil, or_false] at hl
          subst hl
          exact absurd (Option.some.inj h1) (by decide)
        · cases hl)]
      simp only [posRows, h0, Nat.lt_irrefl, if_false, List.nil_append]
      exact e4 _ (by decide)
  · rw [e2, rowRows_length]
  · rw [e2]
    simpa using rowRows_get r f hc h.bins 0 j x hx

/-- The lines of a statistic. -/
def statRows (r : Rat → Rat) (f : Fmt) : Stat → List (List Txt)
  | .plain b => baseRows f b
  | .hist b h => histRows r f b h
  | .seriesGroup _ => []

theorem stat_rd (r : Rat → Rat) {f : Fmt} (hf : f.Ok) (s : Stat) (hs : Printable s) (d : Nat) : ∃ t, text r f s d = .ok t ∧ Rd t (statRows r f s) := by
  cases s with
  | plain b => exact ⟨_, rfl, base_rd hf d b⟩
  | hist b h => exact ⟨_, rfl, hist_rd r hf d b h hs⟩
  | seriesGroup b => cases hs

theorem stat_says (r : Rat → Rat) (f : Fmt) (s : Stat) (hs : Printable s) : Says r f s (statRows r f s) := by
  cases s with
  | plain b => exact .plain (by simpa [statRows] using base_says f b [])
  | hist b h => exact hist_says r f b h
  | seriesGroup b => cases hs

theorem stat_mem (r : Rat → Rat) (f : Fmt) (s : Stat) (n : String) (hn : n ∈ ["read", "write", "all", "StatsRW"]) (v : String) : ∀ l ∈ statRows r f s, l ≠ ln [n, v] := by
  have hn' : n.toList ∈ marks := by
    simp only [List.mem_cons, List.not_mem_nil, or_false] at hn
    rcases hn with rfl | rfl | rfl | rfl <;> decide
  have hh : ∀ w : List Txt, w.head? ≠ some n.toList → w ≠ ln [n, v] := by rintro w hw rfl; exact hw rfl
  intro l hl
  cases s with
  | plain b => exact (base_inside f b l hl).ne n hn' v
  | hist b h =>
    simp only [statRows, histRows, List.mem_cons, List.mem_append, List.not_mem_nil, or_false] at hl
    have k : ∀ s : String, s ∉ ["read", "write", "all", "StatsRW"] → some s.toList ≠ some n.toList := by
      intro s hs e
      rw [String.toList_injective (Option.some.inj e)] at hs
      exact hs hn
    rcases hl with rfl | hl | rfl
    · exact hh _ (k "histogram" (by decide))
    · rcases inner_mem r f b h l hl with h | rfl | rfl
      · exact h.ne n hn' v
      · exact hh _ (k "binCounts" (by decide))
      · exact hh _ (k "binCounts" (by decide))
    · exact hh _ (k "histogram" (by decide))
  | seriesGroup b => cases hl

end Verif.Tab
