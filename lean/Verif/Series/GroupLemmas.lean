import Mathlib.Tactic.Linarith
import Mathlib.Tactic.Ring
import Mathlib.Tactic.FieldSimp
import Mathlib.Algebra.Order.Floor.Ring
import Mathlib.Algebra.Order.Archimedean.Basic
import Verif.Series.GroupSpec
import Verif.Stats.Lemmas

/-!
# Lemmas about groups of intervals
-/

namespace Verif.Series

open Verif

theorem eval_snoc (r : Rat → Rat) (l : List Rat) (v : Rat) : Stats.eval r (Stats.adds .new (l ++ [v])) = Stats.add r (Stats.eval r (Stats.adds .new l)) v := by
  unfold Stats.adds
  rw [List.foldl_append]
  rfl

/-- The loop over empty intervals. -/
theorem skip_ok {d : Rat} (hd : 0 < d) (t : Rat) : ∀ (m fuel : Nat) (c : Rat) (l : List (Option Stats.St)), c + m * d ≤ t → t < c + m * d + d → m < fuel →
    skip id d t fuel c l = .ok (c + m * d, l ++ List.replicate m none)
  | 0, fuel + 1, c, l, h1, h2, _ => by
    rw [skip, if_neg (by push_cast at h2; show ¬ d ≤ t - c; linarith)]
    simp
  | m + 1, fuel + 1, c, l, h1, h2, h3 => by
    have hmd : (0 : Rat) ≤ m * d := by positivity
    push_cast at h1 h2
    rw [skip, if_pos (by show d ≤ t - c; linarith), skip_ok hd t m fuel _ _ (by show c + d + m * d ≤ t; linarith) (by show t < c + d + m * d + d; linarith) (by omega)]
    congr 2
    · show c + d + m * d = c + ((m + 1 : Nat) : Rat) * d
      push_cast; ring
    · rw [List.append_assoc, List.replicate_succ]; rfl
  | _, 0, _, _, _, _, h => absurd h (by omega)

/-- What a statistic of an interval should be. -/
def want (t0 d : Rat) (l : List (Rat × Rat)) (i : Nat) : Option Stats.St :=
  if i = 0 ∨ inSlot t0 d l i ≠ [] then some (Stats.eval id (Stats.adds .new (inSlot t0 d l i))) else none

/-- What is kept up while a series goes on. -/
structure InvG (s : SG) (t0 : Rat) (l : List (Rat × Rat)) : Prop where
  pos : 0 < s.interval
  first : s.first = some t0
  last : s.last = some (latest t0 l)
  len : 0 < s.stats.length
  cur : s.cur = some (t0 + (s.stats.length - 1 : Nat) * s.interval)
  low : t0 + (s.stats.length - 1 : Nat) * s.interval ≤ latest t0 l
  high : latest t0 l < t0 + (s.stats.length - 1 : Nat) * s.interval + s.interval
  before : ∀ p ∈ l, t0 ≤ p.2 ∧ p.2 ≤ latest t0 l
  tail : ∃ x, s.stats.getLast? = some (some x)
  stats : ∀ i, i < s.stats.length → s.stats[i]? = some (want t0 s.interval l i)

theorem slot_eq {t0 d t : Rat} (hd : 0 < d) (k : Int) : slot t0 d t = k ↔ t0 + k * d ≤ t ∧ t < t0 + k * d + d := by
  unfold slot
  rw [Int.floor_eq_iff, le_div_iff₀ hd, div_lt_iff₀ hd]
  constructor
  · rintro ⟨a, b⟩; constructor <;> linarith
  · rintro ⟨a, b⟩; constructor <;> linarith

theorem inSlot_snoc (t0 d : Rat) (l : List (Rat × Rat)) (v t : Rat) (i : Nat) : inSlot t0 d (l ++ [(v, t)]) i = if slot t0 d t = i then inSlot t0 d l i ++ [v] else inSlot t0 d l i := by
  unfold inSlot
  rw [List.filter_append, List.map_append]
  by_cases h : slot t0 d t = i
  · rw [if_pos h, List.filter_cons_of_pos (by exact decide_eq_true h)]; rfl
  · rw [if_neg h, List.filter_cons_of_neg (by simp [h])]; simp

theorem latest_snoc (t0 : Rat) (l : List (Rat × Rat)) (v t : Rat) : latest t0 (l ++ [(v, t)]) = t := by
  unfold latest; rw [List.getLast?_append]; rfl

/-- Recording a value in the last interval. -/
theorem record_ok {s : SG} {t0 : Rat} {l : List (Rat × Rat)} {v t : Rat} (hp : 0 < s.interval) (hf : s.first = some t0) (hl : s.last = some t) (hlen : 0 < s.stats.length)
    (hc : s.cur = some (t0 + (s.stats.length - 1 : Nat) * s.interval)) (h1 : t0 + (s.stats.length - 1 : Nat) * s.interval ≤ t) (h2 : t < t0 + (s.stats.length - 1 : Nat) * s.interval + s.interval)
    (hb : ∀ p ∈ l, t0 ≤ p.2 ∧ p.2 ≤ t) (hst : ∀ i, i + 1 < s.stats.length → s.stats[i]? = some (want t0 s.interval l i))
    (hlast : s.stats.getLast? = some (some (Stats.eval id (Stats.adds .new (inSlot t0 s.interval l (s.stats.length - 1)))))) :
    ∃ s', record id s v = .ok s' ∧ InvG s' t0 (l ++ [(v, t)]) ∧ s'.interval = s.interval ∧ s'.st = Stats.add id s.st v := by
  have hslot : slot t0 s.interval t = ((s.stats.length - 1 : Nat) : Int) := (slot_eq hp _).2 ⟨by exact_mod_cast h1, by exact_mod_cast h2⟩
  unfold record
  rw [hlast]
  simp only []
  refine ⟨_, rfl, ?_, rfl, rfl⟩
  have hl' : (s.stats.dropLast ++ [some (Stats.add id (Stats.eval id (Stats.adds .new (inSlot t0 s.interval l (s.stats.length - 1)))) v)]).length = s.stats.length := by
    rw [List.length_append, List.length_dropLast, List.length_singleton]; omega
  constructor
  · exact hp
  · exact hf
  · show s.last = _; rw [latest_snoc]; exact hl
  · rw [hl']; exact hlen
  · show s.cur = _
    simp only [hl']; exact hc
  · rw [latest_snoc]
    simp only [hl']; exact h1
  · rw [latest_snoc]
    simp only [hl']; exact h2
  · intro p hp'
    rw [latest_snoc]
    rcases List.mem_append.1 hp' with h | h
    · exact hb p h
    · rw [List.mem_singleton] at h; rw [h]
      have hn : (0 : Rat) ≤ (s.stats.length - 1 : Nat) * s.interval := by positivity
      exact ⟨by linarith, le_refl _⟩
  · exact ⟨_, List.getLast?_concat ..⟩
  · intro i hi
    simp only [hl'] at hi
    show (s.stats.dropLast ++ [some (Stats.add id (Stats.eval id (Stats.adds .new (inSlot t0 s.interval l (s.stats.length - 1)))) v)])[i]? = some (want t0 s.interval (l ++ [(v, t)]) i)
    unfold want
    rw [inSlot_snoc, hslot]
    by_cases hi' : i = s.stats.length - 1
    · rw [List.getElem?_append_right (by rw [List.length_dropLast]; omega), List.length_dropLast, hi', Nat.sub_self, if_pos rfl, if_pos (Or.inr (by simp)), eval_snoc]
      rfl
    · have hne : ¬ ((s.stats.length - 1 : Nat) : Int) = (i : Int) := by omega
      rw [List.getElem?_append_left (by rw [List.length_dropLast]; omega), if_neg hne, List.getElem?_dropLast, if_pos (by omega), hst i (by omega)]
      rfl

/-- Going on to the interval of `t`. -/
theorem addTime_ok {s : SG} {t0 : Rat} {l : List (Rat × Rat)} (h : InvG s t0 l) {v t : Rat} (ht : latest t0 l ≤ t) {fuel : Nat} (hfuel : (t - t0) / s.interval < fuel) :
    ∃ s', addTime id fuel s v t = .ok s' ∧ InvG s' t0 (l ++ [(v, t)]) ∧ s'.interval = s.interval ∧ s'.st = Stats.add id s.st v := by
  have hd := h.pos
  have hlo := h.low
  have hhi := h.high
  have hlen := h.len
  have hN : (0 : Rat) ≤ (s.stats.length - 1 : Nat) * s.interval := by positivity
  have hb : ∀ p ∈ l, t0 ≤ p.2 ∧ p.2 ≤ t := fun p hp => ⟨(h.before p hp).1, le_trans (h.before p hp).2 ht⟩
  have e0 : addTime id fuel s v t = (advance id fuel s t >>= fun s => record id s v) := by
    unfold addTime
    rw [h.last]
    show (Res.require (match s.last with | none => false | some u => decide (u ≤ t)) >>= fun _ => _) = _
    rw [h.last]
    simp only []
    rw [decide_eq_true ht]
    rfl
  rw [e0]
  by_cases hc : s.interval ≤ t - (t0 + (s.stats.length - 1 : Nat) * s.interval)
  · -- the number of intervals that are left out
    obtain ⟨m, hm1, hm2⟩ : ∃ m : Nat, t0 + (s.stats.length - 1 : Nat) * s.interval + s.interval + m * s.interval ≤ t ∧
        t < t0 + (s.stats.length - 1 : Nat) * s.interval + s.interval + m * s.interval + s.interval := by
      have hx : 0 ≤ (t - (t0 + (s.stats.length - 1 : Nat) * s.interval + s.interval)) / s.interval := div_nonneg (by linarith) (le_of_lt hd)
      have hfl := Int.floor_nonneg.2 hx
      obtain ⟨m, hm⟩ := Int.eq_ofNat_of_zero_le hfl
      refine ⟨m, ?_⟩
      have h1 := Int.floor_le ((t - (t0 + (s.stats.length - 1 : Nat) * s.interval + s.interval)) / s.interval)
      have h2 := Int.lt_floor_add_one ((t - (t0 + (s.stats.length - 1 : Nat) * s.interval + s.interval)) / s.interval)
      rw [hm] at h1 h2
      rw [le_div_iff₀ hd] at h1
      rw [div_lt_iff₀ hd] at h2
      push_cast at h1 h2
      constructor <;> linarith
    have hmf : m < fuel := by
      have : (m : Rat) ≤ (t - t0) / s.interval := by rw [le_div_iff₀ hd]; linarith
      have : (m : Rat) < fuel := lt_of_le_of_lt this hfuel
      exact_mod_cast this
    have hs := skip_ok hd t m fuel (t0 + (s.stats.length - 1 : Nat) * s.interval + s.interval) s.stats hm1 hm2 hmf
    have hadv : advance id fuel s t = .ok (addStat { s with last := some t, cur := some (t0 + (s.stats.length - 1 : Nat) * s.interval + s.interval + m * s.interval), stats := s.stats ++ List.replicate m none }) := by
      unfold advance
      rw [h.cur]
      simp only [id]
      rw [if_pos hc, hs]
      rfl
    rw [hadv, Res.bind_ok]
    have hnl : ((s.stats ++ List.replicate m none) ++ [some Stats.reset]).length = s.stats.length + m + 1 := by simp only [List.length_append, List.length_replicate, List.length_singleton]
    have hcur : t0 + (s.stats.length - 1 : Nat) * s.interval + s.interval + m * s.interval = t0 + (s.stats.length + m + 1 - 1 : Nat) * s.interval := by
      have : ((s.stats.length - 1 : Nat) : Rat) = s.stats.length - 1 := Nat.cast_pred hlen
      rw [this, Nat.add_sub_cancel]; push_cast; ring
    have hempty : ∀ i, s.stats.length ≤ i → inSlot t0 s.interval l i = [] := by
      intro i hi
      unfold inSlot
      rw [List.filter_eq_nil_iff.2, List.map_nil]
      intro p hp
      have hq := (h.before p hp).2
      simp only [decide_eq_true_eq]
      intro hsl
      have := ((slot_eq hd _).1 hsl).1
      have h3 : ((s.stats.length - 1 : Nat) : Rat) + 1 ≤ i := by
        have : s.stats.length - 1 + 1 ≤ i := by omega
        exact_mod_cast this
      have h4 : (((s.stats.length - 1 : Nat) : Rat) + 1) * s.interval ≤ i * s.interval := mul_le_mul_of_nonneg_right h3 (le_of_lt hd)
      push_cast at this
      linarith
    generalize hs2 : addStat { s with last := some t, cur := some (t0 + (s.stats.length - 1 : Nat) * s.interval + s.interval + m * s.interval), stats := s.stats ++ List.replicate m none } = s2
    have f1 : s2.stats = (s.stats ++ List.replicate m none) ++ [some Stats.reset] := by rw [← hs2]; rfl
    have f2 : s2.interval = s.interval := by rw [← hs2]; rfl
    have f3 : s2.first = s.first := by rw [← hs2]; rfl
    have f4 : s2.last = some t := by rw [← hs2]; rfl
    have f5 : s2.cur = some (t0 + (s2.stats.length - 1 : Nat) * s2.interval) := by rw [f1, hnl, f2, ← hcur, ← hs2]; rfl
    have f6 : s2.st = s.st := by rw [← hs2]; rfl
    have hl2 : s2.stats.length = s.stats.length + m + 1 := by rw [f1, hnl]
    clear hs2
    obtain ⟨s', e', hI', hi', hst'⟩ := record_ok (s := s2) (t0 := t0) (l := l) (v := v) (t := t) (by rw [f2]; exact hd) (f3.trans h.first) f4 (by rw [hl2]; omega) f5
      (by rw [hl2, f2, ← hcur]; exact hm1) (by rw [hl2, f2, ← hcur]; exact hm2) hb
      (by
        intro i hi
        rw [hl2] at hi
        rw [f1, f2, List.getElem?_append_left (by simp; omega)]
        by_cases hi' : i < s.stats.length
        · rw [List.getElem?_append_left hi']; exact h.stats i hi'
        · rw [List.getElem?_append_right (by omega), List.getElem?_replicate, if_pos (by omega)]
          unfold want
          rw [if_neg]
          rintro (hz | hz)
          · omega
          · exact hz (hempty i (by omega)))
      (by rw [hl2, f2, hempty _ (by omega), f1, List.getLast?_concat]; rfl)
    exact ⟨s', e', hI', hi'.trans f2, by rw [hst', f6]⟩
  · have hadv : advance id fuel s t = .ok { s with last := some t } := by
      unfold advance
      rw [h.cur]
      simp only [id]
      rw [if_neg hc]
    rw [hadv, Res.bind_ok]
    obtain ⟨x, hx⟩ := h.tail
    have hx2 := h.stats (s.stats.length - 1) (by omega)
    have hx3 : s.stats.getLast? = some (want t0 s.interval l (s.stats.length - 1)) := by rw [List.getLast?_eq_getElem?]; exact hx2
    have hwant : s.stats.getLast? = some (some (Stats.eval id (Stats.adds .new (inSlot t0 s.interval l (s.stats.length - 1))))) := by
      rw [hx3]
      rw [hx3] at hx
      unfold want at hx ⊢
      split at hx
      · rename_i hq; rw [if_pos hq]
      · cases hx
    obtain ⟨s', e', hI', hi', hst'⟩ := record_ok (s := { s with last := some t }) (t0 := t0) (l := l) (v := v) (t := t) hd h.first rfl hlen h.cur (by show t0 + (s.stats.length - 1 : Nat) * s.interval ≤ t; linarith)
      (by show t < t0 + (s.stats.length - 1 : Nat) * s.interval + s.interval; linarith) hb (fun i hi => h.stats i (by show i < s.stats.length; have hi : i + 1 < s.stats.length := hi; omega)) hwant
    exact ⟨s', e', hI', hi', hst'⟩

theorem setStart_ok {s : SG} (hl : s.last = none) (hs : s.stats = []) (hd : 0 < s.interval) (t : Rat) : ∃ s', setStart s t = .ok s' ∧ InvG s' t [] ∧ s'.interval = s.interval ∧ s'.st = s.st := by
  refine ⟨addStat { s with last := some t, cur := some t, first := some t }, ?_, ?_, rfl, rfl⟩
  · unfold setStart
    rw [hl]
    rfl
  · have hn : (addStat { s with last := some t, cur := some t, first := some t }).stats = [some Stats.reset] := by
      show s.stats ++ [some Stats.reset] = _
      rw [hs]; rfl
    constructor
    · exact hd
    · rfl
    · rfl
    · rw [hn]; simp
    · rw [hn]; show some t = _; simp
    · rw [hn]; simp [latest]
    · rw [hn]; show t < _; simp [addStat]; exact hd
    · intro p hp; cases hp
    · rw [hn]; exact ⟨_, rfl⟩
    · rw [hn]
      intro i hi
      simp at hi
      subst hi
      rfl

/-- The state, of a group that was started or not. -/
def StateG (d : Rat) (s : SG) (e : Option (Rat × List (Rat × Rat))) : Prop := s.interval = d ∧ match e with
  | none => s.last = none ∧ s.cur = none ∧ s.first = none ∧ s.stats = []
  | some (t0, l) => InvG s t0 l

theorem epoch_snoc (ops : List GOp) (o : GOp) : epoch (ops ++ [o]) = match o, epoch ops with
    | .start t, _ => some (t, [])
    | .add v t, none => some (t, [(v, t)])
    | .add v t, some (t0, l) => some (t0, l ++ [(v, t)])
    | .reset, _ => none := by
  unfold epoch; rw [List.foldl_append]; rfl

theorem runSG_append (r : Rat → Rat) (fuel : Nat) (s : SG) (a b : List GOp) : runSG r fuel s (a ++ b) = runSG r fuel s a >>= fun s => runSG r fuel s b := by
  induction a generalizing s with
  | nil => rfl
  | cons o a ih =>
    rw [List.cons_append, runSG, runSG, Res.bind_assoc']
    congr 1; funext s'; exact ih s'

theorem Timely.head {ops : List GOp} {o : GOp} (h : Timely (ops ++ [o])) : Timely ops := fun a o' b e => h a o' (b ++ [o]) (by rw [e]; simp)

/-- All the values ever, whether there was a reset or not. -/
def everything (ops : List GOp) : List Rat := ops.filterMap fun o => match o with | .add v _ => some v | _ => none

theorem runSG_ok {d : Rat} (hd : 0 < d) : ∀ ops : List GOp, Timely ops → ∃ N, ∀ fuel, N ≤ fuel → ∃ s, runSG id fuel (newSG d) ops = .ok s ∧ StateG d s (epoch ops) ∧
    s.st = Stats.eval id (Stats.adds .new (everything ops)) := by
  intro ops
  induction ops using List.reverseRecOn with
  | nil => intro _; exact ⟨0, fun fuel _ => ⟨newSG d, rfl, ⟨rfl, rfl, rfl, rfl, rfl⟩, rfl⟩⟩
  | append_singleton ops o ih =>
    intro hT
    obtain ⟨N, hN⟩ := ih hT.head
    have hTo := hT ops o [] rfl
    have hev : everything (ops ++ [o]) = everything ops ++ everything [o] := List.filterMap_append ..
    cases o with
    | reset =>
      refine ⟨N, fun fuel hf => ?_⟩
      obtain ⟨s, e, ⟨hS1, hS2⟩, hst⟩ := hN fuel hf
      refine ⟨resetSG s, by rw [runSG_append, e]; rfl, ?_, ?_⟩
      · rw [epoch_snoc]
        exact ⟨hS1, rfl, rfl, rfl, rfl⟩
      · rw [hev]; show s.st = _; rw [hst]; simp [everything]
    | start t =>
      refine ⟨N, fun fuel hf => ?_⟩
      obtain ⟨s, e, ⟨hS1, hS2⟩, hst⟩ := hN fuel hf
      rw [show epoch ops = none from hTo] at hS2
      obtain ⟨s', e', hI, h1, h2⟩ := setStart_ok hS2.1 hS2.2.2.2 (by rw [hS1]; exact hd) t
      refine ⟨s', ?_, ?_, ?_⟩
      · rw [runSG_append, e, Res.bind_ok]
        show (setStart s t >>= _) = _
        rw [e']; rfl
      · rw [epoch_snoc]
        exact ⟨h1.trans hS1, hI⟩
      · rw [hev, h2, hst]; simp [everything]
    | add v t =>
      have hevv : everything [GOp.add v t] = [v] := rfl
      cases hep : epoch ops with
      | none =>
        refine ⟨max N 1, fun fuel hf => ?_⟩
        obtain ⟨s, e, ⟨hS1, hS2⟩, hst⟩ := hN fuel (le_trans (le_max_left _ _) hf)
        rw [hep] at hS2
        obtain ⟨s1, e1, hI, h1, h2⟩ := setStart_ok hS2.1 hS2.2.2.2 (by rw [hS1]; exact hd) t
        obtain ⟨s2, e2, hI2, h3, h4⟩ := addTime_ok hI (v := v) (t := t) (by exact le_refl _) (fuel := fuel) (by
          rw [sub_self, zero_div]
          have : 0 < fuel := lt_of_lt_of_le (by omega) (le_trans (le_max_right N 1) hf)
          exact_mod_cast this)
        refine ⟨s2, ?_, ?_, ?_⟩
        · rw [runSG_append, e, Res.bind_ok]
          show (addTime id fuel s v t >>= _) = _
          have : addTime id fuel s v t = addTime id fuel s1 v t := by
            unfold addTime
            have hl1 : s1.last.isNone = false := by rw [hI.last]; rfl
            rw [hS2.1]
            show (setStart s t >>= _) = _
            rw [e1, Res.bind_ok, hl1]
            rfl
          rw [this, e2]; rfl
        · rw [epoch_snoc, hep]
          exact ⟨h3.trans (h1.trans hS1), hI2⟩
        · rw [hev, hevv, h4, h2, hst, eval_snoc]
      | some p =>
        obtain ⟨t0, l⟩ := p
        obtain ⟨K, hK⟩ := exists_nat_gt ((t - t0) / d)
        refine ⟨max N K, fun fuel hf => ?_⟩
        obtain ⟨s, e, ⟨hS1, hS2⟩, hst⟩ := hN fuel (le_trans (le_max_left _ _) hf)
        rw [hep] at hS2
        have hle : latest t0 l ≤ t := hTo t0 l hep
        obtain ⟨s2, e2, hI2, h3, h4⟩ := addTime_ok (show InvG s t0 l from hS2) (v := v) (t := t) hle (fuel := fuel) (by
          rw [hS1]
          have : (K : Rat) ≤ fuel := by exact_mod_cast le_trans (le_max_right N K) hf
          linarith)
        refine ⟨s2, ?_, ?_, ?_⟩
        · rw [runSG_append, e, Res.bind_ok]
          show (addTime id fuel s v t >>= _) = _
          rw [e2]; rfl
        · rw [epoch_snoc, hep]
          exact ⟨h3.trans hS1, hI2⟩
        · rw [hev, hevv, h4, hst, eval_snoc]

end Verif.Series
