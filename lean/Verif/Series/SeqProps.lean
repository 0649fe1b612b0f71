import Verif.Series.SeqLemmas

/-!
# Properties of sequences

C36.
-/

namespace Verif.Series

open Verif

/-- C36. In exact arithmetic, with at most `limit * 2^30` points, a sequence holds at most `limit` values, and value `i` is the aggregate of the `i`-th group of `2^j` points,
with the same `j` for all; no full group is missing, and once points were merged at least half of the room is used. Missing: maxima of negative points, see
`sequence_max_false`, and more points, see `sequence_overflow_false`. -/
theorem sequence_buckets_partial {limit : Nat} (hl : 0 < limit) (h2 : limit % 2 = 0) (m : Mode) (ops : List QOp) (hL : Legal ops) (hF : Few limit ops)
    (hpos : modeAt m ops = .max → ∀ v ∈ points ops, 0 ≤ v) :
    ∃ s0 s j, newQ limit m = .ok s0 ∧ runQ id s0 ops = .ok s ∧ s.per = 2 ^ j ∧ s.values.length ≤ limit ∧ s.values.length = (points ops).length / 2 ^ j ∧
      (∀ i, i < s.values.length → ∃ x, getQ s i = .ok x ∧ (bucket (2 ^ j) i (points ops)).length = 2 ^ j ∧ IsAgg (modeAt m ops) (bucket (2 ^ j) i (points ops)) x) ∧
      (0 < j → limit / 2 ≤ s.values.length) ∧ s.st = Stats.eval id (Stats.adds .new (points ops)) := by
  obtain ⟨s, e, hI, hl', hm⟩ := runQ_ok (resetQ_ok (s := ⟨limit, m, [], 0, 1, 1, Stats.reset⟩) ⟨hl, h2⟩) ops hL hF
  obtain ⟨j, hj⟩ := hI.per
  refine ⟨_, s, j, ?_, e, hj, ?_, by rw [hI.len, hj], fun i hi => ?_, fun h => ?_, hI.st⟩
  · unfold newQ
    rw [show decide (0 < limit) = true from decide_eq_true hl, show decide (limit % 2 = 0) = true from decide_eq_true h2]
    rfl
  · have := hI.le
    rw [hl'] at this
    exact this
  · have hm : s.mode = modeAt m ops := hm
    have hlen : (bucket (2 ^ j) i (points ops)).length = 2 ^ j := by
      have : (i + 1) * 2 ^ j ≤ (points ops).length := by
        have h1 := hI.len
        rw [hj] at h1
        calc (i + 1) * 2 ^ j ≤ s.values.length * 2 ^ j := Nat.mul_le_mul_right _ hi
          _ ≤ _ := by rw [h1]; exact Nat.div_mul_le_self _ _
      rw [Nat.add_mul] at this
      unfold bucket
      rw [List.length_take, List.length_drop]
      omega
    refine ⟨PQ.g 0 s.values i, ?_, hlen, ?_⟩
    · unfold getQ
      rw [show decide (i < s.values.length) = true from decide_eq_true hi, Res.require_true, Res.bind_ok, PQ.rd_eq 0 _ _ hi]
    · rw [hI.vals i hi, hj, hm]
      cases hmode : modeAt m ops with
      | sum => exact acc_sum _
      | mean =>
        show acc .mean (bucket (2 ^ j) i (points ops)) / ((2 ^ j : Nat) : Rat) = _
        rw [acc_mean, hlen]
      | max =>
        refine acc_max _ (fun v hv => hpos hmode v (List.mem_of_mem_drop (List.mem_of_mem_take hv))) fun h => ?_
        rw [h] at hlen
        have : 0 < 2 ^ j := by positivity
        rw [List.length_nil] at hlen
        omega
  · have := hI.half (by rw [hj]; exact Nat.one_lt_two_pow (by omega))
    rw [hl'] at this
    exact this

/-- A case of the theorem: five points in a sequence of up to two; the fifth is not in a full group yet. -/
example : (newQ 2 .mean >>= (runQ id · [.add 1, .add 2, .add 3, .add 6, .add 100])).map (fun s => (s.values, s.per)) = .ok ([3], 4) ∧
    Legal [.add 1, .add 2, .add 3, .add 6, .add 100] ∧ Few 2 [.add 1, .add 2, .add 3, .add 6, .add 100] := by
  refine ⟨by decide +kernel, fun a m b e => ?_, fun a b e => ?_⟩
  · have : QOp.mode m ∈ [QOp.add 1, .add 2, .add 3, .add 6, .add 100] := by rw [e]; simp
    simp at this
  · have hl : (points a).length ≤ a.length := by
      induction a using List.reverseRecOn generalizing b with
      | nil => exact le_refl _
      | append_singleton a o ih =>
        have := ih ([o] ++ b) (by rw [e]; simp)
        rw [points_snoc]
        cases o <;> simp <;> omega
    have : a.length ≤ 5 := by
      have := congrArg List.length e
      simp at this
      omega
    omega

/-- C36. It is false of maxima: every group is taken to hold a 0, so that the maximum of negative points is 0. -/
theorem sequence_max_false (limit : Nat) (hl : 0 < limit) (h2 : limit % 2 = 0) (v : Rat) (hv : v < 0) :
    (newQ limit .max >>= (runQ id · [.add v])).map Q.values = .ok [0] ∧ ¬ IsAgg .max (bucket 1 0 [v]) 0 := by
  refine ⟨?_, fun h => ?_⟩
  · unfold newQ
    rw [show decide (0 < limit) = true from decide_eq_true hl, show decide (limit % 2 = 0) = true from decide_eq_true h2]
    show (addQ id (resetQ ⟨limit, .max, [], 0, 1, 1, Stats.reset⟩) v >>= fun s => runQ id s []).map Q.values = _
    have : shrink id { (resetQ ⟨limit, .max, [], 0, 1, 1, Stats.reset⟩) with st := Stats.add id Stats.reset v } = .ok ⟨limit, .max, [], 0, 1, 1, Stats.add id Stats.reset v⟩ := by
      unfold shrink
      rw [if_neg (by show ¬ 0 = limit; omega)]
      rfl
    unfold addQ
    rw [show (resetQ ⟨limit, .max, [], 0, 1, 1, Stats.reset⟩).st = Stats.reset from rfl, this, Res.bind_ok]
    simp only []
    rw [if_pos (by norm_num), show decide (([] : List Rat).length + 1 ≤ limit) = true from decide_eq_true (by simp; omega)]
    show Res.ok [into id .max 0 v] = _
    rw [into_max, max_eq_left (le_of_lt hv)]
  · have := h.1
    simp [bucket] at this
    linarith

/-- C36. It is false of very many points: `points_per_bucket`, an `int`, overflows at point number `limit * 2^30 + 1`. -/
theorem sequence_overflow_false {limit : Nat} (hl : 0 < limit) (h2 : limit % 2 = 0) (m : Mode) (pts : List Rat) (hn : pts.length = limit * 2 ^ 30) (v : Rat) :
    (newQ limit m >>= (runQ id · (pts.map QOp.add ++ [.add v]))) = .ub := by
  have hpoints : ∀ l : List Rat, points (l.map QOp.add) = l := by
    intro l
    induction l using List.reverseRecOn with
    | nil => rfl
    | append_singleton l x ih => rw [List.map_append, List.map_cons, List.map_nil, points_snoc, ih]
  have hL : Legal (pts.map QOp.add) := by
    intro a m' b e
    have : QOp.mode m' ∈ pts.map QOp.add := by rw [e]; simp
    obtain ⟨x, _, hx⟩ := List.mem_map.1 this
    cases hx
  have hF : Few limit (pts.map QOp.add) := by
    intro a b e
    obtain ⟨a', b', e1, e2, e3⟩ := List.map_eq_append_iff.1 e
    rw [← e2, hpoints, ← hn, e1, List.length_append]
    omega
  obtain ⟨s, e, hI, hl', hm⟩ := runQ_ok (resetQ_ok (s := ⟨limit, m, [], 0, 1, 1, Stats.reset⟩) ⟨hl, h2⟩) (pts.map QOp.add) hL hF
  have hnew : newQ limit m = .ok (resetQ ⟨limit, m, [], 0, 1, 1, Stats.reset⟩) := by
    unfold newQ
    rw [show decide (0 < limit) = true from decide_eq_true hl, show decide (limit % 2 = 0) = true from decide_eq_true h2]
    rfl
  rw [hnew, Res.bind_ok, runQ_append, e, Res.bind_ok]
  show (addQ id s v >>= _) = _
  rw [hpoints] at hI
  have hl' : s.limit = limit := hl'
  obtain ⟨j, hj⟩ := hI.per
  have hle := hI.le
  have hlen := hI.len
  have hsm := hI.small
  rw [hj] at hlen hsm
  have hj30 : j = 30 := by
    have h1 : j < 31 := (Nat.pow_lt_pow_iff_right (by omega)).1 hsm
    by_contra hne
    have h3 : 2 ^ j * 2 ≤ 2 ^ 30 := by
      rw [← Nat.pow_succ]; exact Nat.pow_le_pow_right (by omega) (by omega)
    have h4 : limit * 2 ≤ limit * 2 ^ 30 / 2 ^ j := by
      rw [Nat.le_div_iff_mul_le (by positivity)]
      calc limit * 2 * 2 ^ j = limit * (2 ^ j * 2) := by ring
        _ ≤ _ := Nat.mul_le_mul_left _ h3
    rw [hlen, hn, hl'] at hle
    omega
  subst hj30
  rw [hn, Nat.mul_div_cancel _ (by positivity)] at hlen
  have hfull : s.values.length = s.limit := by rw [hlen, hl']
  have hmod := hI.full hfull
  obtain ⟨l', e', -⟩ := joinAll_ok id s.mode (s.limit / 2) 0 s.values (by omega)
  have hs : shrink id { s with st := Stats.add id s.st v } = .ub := by
    unfold shrink
    simp only []
    rw [if_pos hfull, show decide (s.remain = s.per ∧ s.part = 0) = true from decide_eq_true ⟨by rw [hI.remain, hmod]; simp, by
      rw [hI.part, List.drop_eq_nil_of_le (by rw [hlen, hj, hn])]; rfl⟩, Res.require_true, Res.bind_ok, e', Res.bind_ok, if_pos (by rw [hj]; norm_num)]
  unfold addQ
  rw [hs]
  rfl

/-- The mode cannot be changed once there are values. -/
theorem sequence_mode_fixed (s : Q) (m : Mode) (h : s.values ≠ []) : setMode s m = .abort := by
  unfold setMode
  rw [show decide (s.values.length = 0) = false from decide_eq_false (fun h' => h (List.eq_nil_of_length_eq_zero h'))]
  rfl

end Verif.Series
