import Mathlib.Tactic.Linarith
import Mathlib.Tactic.Ring
import Mathlib.Tactic.FieldSimp
import Mathlib.Algebra.Order.BigOperators.Group.List
import Verif.Series.SeqSpec
import Verif.PQ.Lemmas
import Verif.Stats.Lemmas

/-!
# Lemmas about sequences
-/

namespace Verif.Series

open Verif

/-- A bucket in the making. -/
def acc (m : Mode) (l : List Rat) : Rat := l.foldl (into id m) 0

theorem acc_snoc (m : Mode) (l : List Rat) (v : Rat) : acc m (l ++ [v]) = into id m (acc m l) v := by
  unfold acc; rw [List.foldl_append]; rfl

theorem foldl_add (l : List Rat) : ∀ p : Rat, l.foldl (fun p v => p + v) p = p + l.sum := by
  induction l with
  | nil => intro p; simp
  | cons a l ih => intro p; rw [List.foldl_cons, ih, List.sum_cons]; ring

theorem acc_sum (l : List Rat) : acc .sum l = l.sum := by
  have := foldl_add l 0
  rw [zero_add] at this
  exact this

theorem acc_mean (l : List Rat) : acc .mean l = l.sum := acc_sum l

theorem into_max (p v : Rat) : into id .max p v = max p v := by
  show (if v < p then p else v) = _
  split
  · rename_i h; rw [max_eq_left (le_of_lt h)]
  · rename_i h; rw [max_eq_right (not_lt.1 h)]

theorem foldl_max (l : List Rat) : ∀ p : Rat, 0 ≤ p → l.foldl (into id .max) p = max p (acc .max l) := by
  induction l using List.reverseRecOn with
  | nil => intro p hp; exact (max_eq_left hp).symm
  | append_singleton l v ih =>
    intro p hp
    rw [List.foldl_append, ih p hp, acc_snoc]
    show into id .max _ v = _
    rw [into_max, into_max, max_assoc]

theorem acc_max_nonneg (l : List Rat) : 0 ≤ acc .max l := by
  induction l using List.reverseRecOn with
  | nil => exact le_refl _
  | append_singleton l v ih => rw [acc_snoc, into_max]; exact le_max_of_le_left ih

theorem acc_max (l : List Rat) (h : ∀ x ∈ l, 0 ≤ x) (hne : l ≠ []) : IsAgg .max l (acc .max l) := by
  induction l using List.reverseRecOn with
  | nil => exact absurd rfl hne
  | append_singleton l v ih =>
    rw [acc_snoc, into_max]
    by_cases hl : l = []
    · subst hl
      have : max (acc .max []) v = v := max_eq_right (h v (by simp))
      rw [this]
      exact ⟨by simp, fun y hy => by simp at hy; rw [hy]⟩
    · obtain ⟨i1, i2⟩ := ih (fun x hx => h x (by simp [hx])) hl
      refine ⟨?_, fun y hy => ?_⟩
      · rcases max_choice (acc .max l) v with h' | h' <;> rw [h'] <;> simp [i1]
      · rcases List.mem_append.1 hy with hy | hy
        · exact le_max_of_le_left (i2 y hy)
        · rw [List.mem_singleton] at hy; rw [hy]; exact le_max_right _ _

/-- The values of two buckets, joined. -/
theorem join_close (m : Mode) {n : Nat} (hn : 0 < n) (a b : List Rat) : join id m (close id m n (acc m a)) (close id m n (acc m b)) = close id m (2 * n) (acc m (a ++ b)) := by
  cases m with
  | sum =>
    show acc .sum a + acc .sum b = acc .sum (a ++ b)
    rw [acc_sum, acc_sum, acc_sum, List.sum_append]
  | mean =>
    show (acc .mean a / n + acc .mean b / n) / 2 = acc .mean (a ++ b) / ((2 * n : Nat) : Rat)
    have : (n : Rat) ≠ 0 := by exact_mod_cast (by omega : n ≠ 0)
    rw [acc_mean, acc_mean, acc_mean, List.sum_append]
    push_cast
    field_simp
  | max =>
    show (if acc .max b < acc .max a then acc .max a else acc .max b) = acc .max (a ++ b)
    have e : acc .max (a ++ b) = max (acc .max a) (acc .max b) := by
      conv => lhs; unfold acc
      rw [List.foldl_append]
      exact foldl_max b _ (acc_max_nonneg a)
    have := into_max (acc .max a) (acc .max b)
    rw [e, ← this]
    rfl

/-- The loop that joins. -/
theorem joinAll_ok (r : Rat → Rat) (m : Mode) : ∀ (k i : Nat) (l : List Rat), 2 * (i + k) ≤ l.length → ∃ l', joinAll r m i k l = .ok l' ∧ l'.length = l.length ∧
    (∀ j, j < i → PQ.g 0 l' j = PQ.g 0 l j) ∧ ∀ j, i ≤ j → j < i + k → PQ.g 0 l' j = join r m (PQ.g 0 l (2 * j)) (PQ.g 0 l (2 * j + 1))
  | 0, i, l, _ => ⟨l, rfl, rfl, fun _ _ => rfl, fun j _ _ => by omega⟩
  | k + 1, i, l, h => by
    obtain ⟨l', e, h1, h2, h3⟩ := joinAll_ok r m k (i + 1) (l.set i (join r m (PQ.g 0 l (2 * i)) (PQ.g 0 l (2 * i + 1)))) (by rw [List.length_set]; omega)
    refine ⟨l', ?_, by rw [h1, List.length_set], fun j hj => ?_, fun j hj hj' => ?_⟩
    · rw [joinAll, PQ.rd_eq 0 l _ (by omega), Res.bind_ok, PQ.rd_eq 0 l _ (by omega), Res.bind_ok, PQ.wr_eq l i _ (by omega), Res.bind_ok]
      exact e
    · rw [h2 j (by omega), PQ.g_set 0 l i _ (by omega), if_neg (by omega)]
    · by_cases hji : j = i
      · subst hji
        rw [h2 j (by omega), PQ.g_set 0 l j _ (by omega), if_pos rfl]
      · rw [h3 j (by omega) (by omega), PQ.g_set 0 l i _ (by omega), PQ.g_set 0 l i _ (by omega), if_neg (by omega), if_neg (by omega)]

/-- What is kept up. -/
structure InvQ (s : Q) (pts : List Rat) : Prop where
  limit : 0 < s.limit ∧ s.limit % 2 = 0
  len : s.values.length = pts.length / s.per
  per : ∃ j, s.per = 2 ^ j
  small : s.per < 2 ^ 31
  vals : ∀ i, i < s.values.length → PQ.g 0 s.values i = close id s.mode s.per (acc s.mode (bucket s.per i pts))
  part : s.part = acc s.mode (pts.drop (s.values.length * s.per))
  remain : s.remain = s.per - (pts.length % s.per : Nat)
  le : s.values.length ≤ s.limit
  full : s.values.length = s.limit → pts.length % s.per = 0
  half : 1 < s.per → s.limit / 2 ≤ s.values.length
  st : s.st = Stats.eval id (Stats.adds .new pts)

theorem InvQ.per_pos {s : Q} {pts : List Rat} (h : InvQ s pts) : 0 < s.per := by
  obtain ⟨j, e⟩ := h.per
  rw [e]; positivity

/-- Two buckets next to each other. -/
theorem bucket_two (n i : Nat) (l : List Rat) : bucket n (2 * i) l ++ bucket n (2 * i + 1) l = bucket (2 * n) i l := by
  unfold bucket
  rw [show i * (2 * n) = 2 * i * n by ring, show (2 * i + 1) * n = 2 * i * n + n by ring, ← List.drop_drop, show 2 * n = n + n by ring, List.take_add]

theorem getD_take (l : List Rat) (n i : Nat) (h : i < n) : PQ.g 0 (l.take n) i = PQ.g 0 l i := by
  unfold PQ.g
  rw [List.getD_eq_getElem?_getD, List.getD_eq_getElem?_getD, List.getElem?_take, if_pos h]

/-- The first part of `add`. The statistic is not looked at. -/
theorem shrink_ok {s : Q} {pts : List Rat} (h : InvQ s pts) (hb : pts.length < s.limit * 2 ^ 30) (st : Stats.St) :
    ∃ s', shrink id { s with st := st } = .ok { s' with st := st } ∧ InvQ s' pts ∧ s'.values.length < s'.limit ∧ s'.limit = s.limit ∧ s'.mode = s.mode := by
  obtain ⟨l1, l2⟩ := h.limit
  have hp := h.per_pos
  by_cases hf : s.values.length = s.limit
  · have hmod := h.full hf
    have hlen : pts.length = s.limit * s.per := by
      have := h.len
      rw [hf] at this
      have h2 := Nat.div_add_mod pts.length s.per
      rw [← this, hmod] at h2
      rw [Nat.mul_comm]; omega
    have hper : s.per < 2 ^ 30 := by
      rw [hlen] at hb
      exact Nat.lt_of_mul_lt_mul_left hb
    obtain ⟨l', e, e1, -, e3⟩ := joinAll_ok id s.mode (s.limit / 2) 0 s.values (by omega)
    refine ⟨{ s with values := l'.take (s.limit / 2), per := 2 * s.per, remain := ((2 * s.per : Nat) : Int) }, ?_, ?_, ?_, rfl, rfl⟩
    · unfold shrink
      simp only []
      rw [if_pos hf, show decide (s.remain = s.per ∧ s.part = 0) = true from decide_eq_true ⟨by rw [h.remain, hmod]; simp, by
          rw [h.part, List.drop_eq_nil_of_le (by rw [hf, hlen])]; rfl⟩, Res.require_true, Res.bind_ok, e, Res.bind_ok, if_neg (by omega)]
      rfl
    · have hl : (l'.take (s.limit / 2)).length = s.limit / 2 := by rw [List.length_take, e1]; omega
      have hd : s.limit * s.per = s.limit / 2 * (2 * s.per) := by
        have : s.limit = s.limit / 2 * 2 := by omega
        conv => lhs; rw [this]
        ring
      refine ⟨⟨l1, l2⟩, ?_, ?_, ?_, ?_, ?_, ?_, ?_, ?_, ?_, h.st⟩
      · show (l'.take (s.limit / 2)).length = pts.length / (2 * s.per)
        rw [hl, hlen, hd, Nat.mul_div_cancel _ (by omega)]
      · obtain ⟨j, hj⟩ := h.per
        exact ⟨j + 1, by show 2 * s.per = _; rw [hj]; ring⟩
      · show 2 * s.per < 2 ^ 31
        omega
      · intro i hi
        have hi : i < (l'.take (s.limit / 2)).length := hi
        show PQ.g 0 (l'.take (s.limit / 2)) i = close id s.mode (2 * s.per) (acc s.mode (bucket (2 * s.per) i pts))
        rw [hl] at hi
        rw [getD_take _ _ _ hi, e3 i (by omega) (by omega), h.vals _ (by omega), h.vals _ (by omega), join_close s.mode hp, bucket_two]
      · show s.part = acc s.mode (pts.drop ((l'.take (s.limit / 2)).length * (2 * s.per)))
        rw [hl, ← hd, h.part, hf]
      · show ((2 * s.per : Nat) : Int) = ((2 * s.per : Nat) : Int) - ((pts.length % (2 * s.per) : Nat) : Int)
        rw [hlen, hd, Nat.mul_mod_left]
        simp
      · show (l'.take (s.limit / 2)).length ≤ s.limit
        rw [hl]; omega
      · show (l'.take (s.limit / 2)).length = s.limit → _
        rw [hl]; omega
      · intro _
        show s.limit / 2 ≤ (l'.take (s.limit / 2)).length
        rw [hl]
    · show (l'.take (s.limit / 2)).length < s.limit
      rw [List.length_take]; omega
  · refine ⟨s, ?_, h, by have := h.le; omega, rfl, rfl⟩
    unfold shrink
    rw [if_neg hf]

/-- Earlier buckets do not change. -/
theorem bucket_snoc {n i : Nat} {l : List Rat} (h : (i + 1) * n ≤ l.length) (v : Rat) : bucket n i (l ++ [v]) = bucket n i l := by
  unfold bucket
  have : i * n + n ≤ l.length := by rw [← Nat.succ_mul]; exact h
  rw [List.drop_append_of_le_length (by omega), List.take_append_of_le_length (by rw [List.length_drop]; omega)]

theorem adds_snoc (l : List Rat) (v : Rat) : Stats.eval id (Stats.adds .new (l ++ [v])) = Stats.add id (Stats.eval id (Stats.adds .new l)) v := by
  unfold Stats.adds
  rw [List.foldl_append]
  rfl

theorem addQ_ok {s : Q} {pts : List Rat} (h : InvQ s pts) (hb : pts.length < s.limit * 2 ^ 30) (v : Rat) :
    ∃ s', addQ id s v = .ok s' ∧ InvQ s' (pts ++ [v]) ∧ s'.limit = s.limit ∧ s'.mode = s.mode := by
  obtain ⟨s1, e1, hI, hlt, hl1, hm1⟩ := shrink_ok h hb (Stats.add id s.st v)
  have hp := hI.per_pos
  have hdm := Nat.div_add_mod pts.length s1.per
  have hml := Nat.mod_lt pts.length hp
  have hlen := hI.len
  have hst : Stats.add id s.st v = Stats.eval id (Stats.adds .new (pts ++ [v])) := by rw [adds_snoc, ← h.st]
  have hmul : s1.values.length * s1.per ≤ pts.length := by rw [hlen, Nat.mul_comm]; omega
  have hpart : into id s1.mode s1.part v = acc s1.mode ((pts ++ [v]).drop (s1.values.length * s1.per)) := by
    rw [List.drop_append_of_le_length hmul, acc_snoc, ← hI.part]
  have old : ∀ i, i < s1.values.length → bucket s1.per i (pts ++ [v]) = bucket s1.per i pts := fun i hi =>
    bucket_snoc (le_trans (Nat.mul_le_mul_right _ hi) hmul) v
  by_cases hr : s1.remain - 1 = 0
  · have hmod : pts.length % s1.per + 1 = s1.per := by have := hI.remain; omega
    have hn : (pts ++ [v]).length = (s1.values.length + 1) * s1.per := by
      rw [List.length_append, List.length_singleton, Nat.add_mul, Nat.mul_comm, hlen]; omega
    refine ⟨{ s1 with st := Stats.add id s.st v, values := s1.values ++ [close id s1.mode s1.per (into id s1.mode s1.part v)], part := 0, remain := s1.per }, ?_, ?_, hl1, hm1⟩
    · unfold addQ
      rw [e1, Res.bind_ok]
      simp only []
      rw [if_pos hr, show decide (s1.values.length + 1 ≤ s1.limit) = true from decide_eq_true (by omega), Res.require_true, Res.bind_ok]
      rfl
    · have hl : (s1.values ++ [close id s1.mode s1.per (into id s1.mode s1.part v)]).length = s1.values.length + 1 := by simp
      refine ⟨hI.limit, ?_, hI.per, hI.small, ?_, ?_, ?_, ?_, ?_, ?_, hst⟩
      · show (s1.values ++ [close id s1.mode s1.per (into id s1.mode s1.part v)]).length = (pts ++ [v]).length / s1.per
        rw [hl, hn, Nat.mul_div_cancel _ hp]
      · intro i hi
        have hi : i < (s1.values ++ [close id s1.mode s1.per (into id s1.mode s1.part v)]).length := hi
        show PQ.g 0 (s1.values ++ [close id s1.mode s1.per (into id s1.mode s1.part v)]) i = close id s1.mode s1.per (acc s1.mode (bucket s1.per i (pts ++ [v])))
        rw [hl] at hi
        by_cases hi' : i < s1.values.length
        · rw [old i hi', ← hI.vals i hi']
          unfold PQ.g
          rw [List.getD_eq_getElem?_getD, List.getD_eq_getElem?_getD, List.getElem?_append_left hi']
        · have : i = s1.values.length := by omega
          subst this
          unfold PQ.g
          rw [List.getD_eq_getElem?_getD, List.getElem?_append_right (le_refl _), Nat.sub_self, hpart]
          show close id s1.mode s1.per _ = _
          congr 2
          unfold bucket
          rw [List.take_of_length_le (by rw [List.length_drop, hn, Nat.add_mul]; omega)]
      · show (0 : Rat) = acc s1.mode ((pts ++ [v]).drop ((s1.values ++ [close id s1.mode s1.per (into id s1.mode s1.part v)]).length * s1.per))
        rw [hl, List.drop_eq_nil_of_le (by rw [hn])]
        rfl
      · show (s1.per : Int) = s1.per - ((pts ++ [v]).length % s1.per : Nat)
        rw [hn, Nat.mul_mod_left]; simp
      · show (s1.values ++ [close id s1.mode s1.per (into id s1.mode s1.part v)]).length ≤ s1.limit
        rw [hl]; omega
      · intro _
        show (pts ++ [v]).length % s1.per = 0
        rw [hn, Nat.mul_mod_left]
      · intro hp1
        have := hI.half hp1
        show s1.limit / 2 ≤ (s1.values ++ [close id s1.mode s1.per (into id s1.mode s1.part v)]).length
        rw [hl]; omega
  · have hmod : pts.length % s1.per + 1 < s1.per := by have := hI.remain; omega
    have hn : (pts ++ [v]).length = s1.values.length * s1.per + (pts.length % s1.per + 1) := by
      rw [List.length_append, List.length_singleton, hlen, Nat.mul_comm]; omega
    have hm : (pts ++ [v]).length % s1.per = pts.length % s1.per + 1 := by
      rw [hn, Nat.mul_comm, Nat.mul_add_mod, Nat.mod_eq_of_lt hmod]
    refine ⟨{ s1 with st := Stats.add id s.st v, part := into id s1.mode s1.part v, remain := s1.remain - 1 }, ?_, ?_, hl1, hm1⟩
    · unfold addQ
      rw [e1, Res.bind_ok]
      simp only []
      rw [if_neg hr]
      rfl
    · refine ⟨hI.limit, ?_, hI.per, hI.small, ?_, hpart, ?_, hI.le, ?_, hI.half, hst⟩
      · show s1.values.length = (pts ++ [v]).length / s1.per
        rw [hn, Nat.mul_comm, Nat.mul_add_div hp, Nat.div_eq_of_lt hmod, Nat.add_zero]
      · intro i hi
        show PQ.g 0 s1.values i = close id s1.mode s1.per (acc s1.mode (bucket s1.per i (pts ++ [v])))
        rw [old i hi]; exact hI.vals i hi
      · show s1.remain - 1 = s1.per - ((pts ++ [v]).length % s1.per : Nat)
        rw [hm, hI.remain]; push_cast; ring
      · intro hf
        exact absurd hf (by show ¬ s1.values.length = s1.limit; omega)

theorem resetQ_ok {s : Q} (hl : 0 < s.limit ∧ s.limit % 2 = 0) : InvQ (resetQ s) [] :=
  ⟨hl, (Nat.zero_div _).symm, ⟨0, rfl⟩, by show 1 < 2 ^ 31; omega, fun i hi => absurd hi (by show ¬ i < 0; omega), rfl, rfl, by show 0 ≤ s.limit; omega,
    fun h => by have h : 0 = s.limit := h; omega, fun h => by have h : 1 < 1 := h; omega, rfl⟩

theorem points_snoc (ops : List QOp) (o : QOp) : points (ops ++ [o]) = match o with | .add v => points ops ++ [v] | .reset => [] | .mode _ => points ops := by
  unfold points; rw [List.foldl_append]; cases o <;> rfl

theorem modeAt_snoc (m : Mode) (ops : List QOp) (o : QOp) : modeAt m (ops ++ [o]) = match o with | .mode m' => m' | _ => modeAt m ops := by
  unfold modeAt; rw [List.foldl_append]; cases o <;> rfl

theorem runQ_append (r : Rat → Rat) (s : Q) (a b : List QOp) : runQ r s (a ++ b) = runQ r s a >>= fun s => runQ r s b := by
  induction a generalizing s with
  | nil => rfl
  | cons o a ih =>
    rw [List.cons_append, runQ, runQ, Res.bind_assoc']
    congr 1
    funext s'
    exact ih s'

theorem Few.head {limit : Nat} {ops : List QOp} {o : QOp} (h : Few limit (ops ++ [o])) : Few limit ops := fun a b e => h a (b ++ [o]) (by rw [e, List.append_assoc])

theorem Legal.head {ops : List QOp} {o : QOp} (h : Legal (ops ++ [o])) : Legal ops := fun a m b e => h a m (b ++ [o]) (by rw [e]; simp)

theorem runQ_ok {s0 : Q} (h0 : InvQ s0 []) : ∀ ops : List QOp, Legal ops → Few s0.limit ops →
    ∃ s, runQ id s0 ops = .ok s ∧ InvQ s (points ops) ∧ s.limit = s0.limit ∧ s.mode = modeAt s0.mode ops := by
  intro ops
  induction ops using List.reverseRecOn with
  | nil => intro _ _; exact ⟨s0, rfl, h0, rfl, rfl⟩
  | append_singleton ops o ih =>
    intro hL hF
    obtain ⟨s, e, hI, hl, hm⟩ := ih hL.head hF.head
    rw [runQ_append, e, Res.bind_ok, points_snoc, modeAt_snoc]
    cases o with
    | add v =>
      have := hF (ops ++ [.add v]) [] (by simp)
      rw [points_snoc] at this
      simp only [List.length_append, List.length_singleton] at this
      obtain ⟨s', e', hI', hl', hm'⟩ := addQ_ok hI (by rw [hl]; omega) v
      refine ⟨s', ?_, hI', hl'.trans hl, hm'.trans hm⟩
      show (addQ id s v >>= fun s => runQ id s []) = _
      rw [e', Res.bind_ok]; rfl
    | reset => exact ⟨resetQ s, rfl, resetQ_ok hI.limit, hl, hm⟩
    | mode m =>
      have hp := hL ops m [] rfl
      rw [hp] at hI
      have hlen := hI.len
      rw [List.length_nil, Nat.zero_div] at hlen
      refine ⟨{ s with mode := m }, ?_, ?_, hl, rfl⟩
      · show (setMode s m >>= fun s => runQ id s []) = _
        unfold setMode
        rw [show decide (s.values.length = 0) = true from decide_eq_true hlen]
        rfl
      · rw [show (match QOp.mode m with | .add v => points ops ++ [v] | .reset => [] | .mode _ => points ops) = [] from hp]
        refine ⟨hI.limit, hI.len, hI.per, hI.small, fun i hi => ?_, ?_, hI.remain, hI.le, hI.full, hI.half, hI.st⟩
        · have hi : i < s.values.length := hi
          omega
        · show s.part = acc m (List.drop (s.values.length * s.per) [])
          rw [hI.part, List.drop_nil]; rfl

end Verif.Series
