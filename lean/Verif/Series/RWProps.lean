import Verif.Series.GroupLemmas

/-!
# Properties of statistics of reads and writes

C57.
-/

namespace Verif.Series

open Verif

/-- The values of one kind. -/
def kind (m : RW) (ops : List (RW × Rat × Rat)) : List Rat := (ops.filter fun o => decide (o.1 = m)).map fun o => o.2.1

/-- What is in `all`: everything, or, once something was added to it in particular, only that. -/
def total (ops : List (RW × Rat × Rat)) : List Rat := if ops.any (fun o => decide (o.1 = .all)) then kind .all ops else ops.map fun o => o.2.1

/-- A component that holds the values `l`, if it is there at all. -/
def Part.holds (there : Bool) (l : List Rat) : Part := if there then .plain (Stats.eval id (Stats.adds .new l)) else .null

theorem holds_add (b : Bool) (l : List Rat) (fuel : Nat) (v t : Rat) : (Part.holds b l).add id fuel v t = .ok (Part.holds b (l ++ [v])) := by
  cases b with
  | false => rfl
  | true => show Res.ok _ = _; unfold Part.holds; rw [eval_snoc]; rfl

theorem holds_reset (b : Bool) (l : List Rat) : (Part.holds b l).reset = Part.holds b [] := by cases b <;> rfl

theorem runW_append (r : Rat → Rat) (fuel : Nat) (w : W) (a b : List (RW × Rat × Rat)) : runW r fuel w (a ++ b) = runW r fuel w a >>= fun w => runW r fuel w b := by
  induction a generalizing w with
  | nil => rfl
  | cons o a ih =>
    rw [List.cons_append, runW, runW, Res.bind_assoc']
    congr 1; funext s'; exact ih s'

theorem kind_snoc (m : RW) (ops : List (RW × Rat × Rat)) (o : RW × Rat × Rat) : kind m (ops ++ [o]) = if o.1 = m then kind m ops ++ [o.2.1] else kind m ops := by
  unfold kind
  rw [List.filter_append, List.map_append]
  by_cases h : o.1 = m
  · rw [if_pos h, List.filter_cons_of_pos (by exact decide_eq_true h)]; rfl
  · rw [if_neg h, List.filter_cons_of_neg (by simp [h])]; simp

theorem kind_none {ops : List (RW × Rat × Rat)} (h : ops.any (fun o => decide (o.1 = .all)) = false) : kind .all ops = [] := by
  unfold kind
  rw [List.filter_eq_nil_iff.2, List.map_nil]
  intro o ho
  rw [List.any_eq_false] at h
  exact h o ho

/-- C57. With components of class `Stats`, or none, every mix of calls is accepted; reads are counted in `read`, writes in `write`, and both in `all`, until something is added
to `all` in particular, from when on `all` holds only that. Missing: components that are groups, see `rw_groups_partial` and `rw_groups_false`. -/
theorem rw_counts_partial (a b c : Bool) (fuel : Nat) (ops : List (RW × Rat × Rat)) :
    ∃ w, runW id fuel (newW (Part.holds a []) (Part.holds b []) (Part.holds c [])) ops = .ok w ∧ w.read = Part.holds a (kind .read ops) ∧ w.write = Part.holds b (kind .write ops) ∧
      w.all = Part.holds c (total ops) := by
  suffices h : ∃ w, runW id fuel (newW (Part.holds a []) (Part.holds b []) (Part.holds c [])) ops = .ok w ∧ w.read = Part.holds a (kind .read ops) ∧ w.write = Part.holds b (kind .write ops) ∧
      w.all = Part.holds c (total ops) ∧ w.groups = false ∧ w.auto = !ops.any (fun o => decide (o.1 = .all)) by
    obtain ⟨w, h1, h2, h3, h4, -⟩ := h
    exact ⟨w, h1, h2, h3, h4⟩
  induction ops using List.reverseRecOn with
  | nil => exact ⟨_, rfl, rfl, rfl, rfl, by cases a <;> rfl, rfl⟩
  | append_singleton ops o ih =>
    obtain ⟨w, e, h1, h2, h3, h4, h5⟩ := ih
    obtain ⟨m, v, t⟩ := o
    rw [runW_append, e, Res.bind_ok, runW]
    have hs : addW id fuel w (m, v, t) = addMode id fuel w v t m := by
      unfold addW startAll
      rw [h4]
      rfl
    rw [hs]
    cases hany : ops.any (fun o => decide (o.1 = .all)) with
    | false =>
      rw [hany] at h5
      have h5 : w.auto = true := h5
      have ht : total ops = ops.map fun o => o.2.1 := by unfold total; rw [hany]; rfl
      cases m with
      | read =>
        refine ⟨{ w with read := Part.holds a (kind .read ops ++ [v]), all := Part.holds c (total ops ++ [v]) }, ?_, ?_, ?_, ?_, h4, ?_⟩
        · unfold addMode
          rw [h1, holds_add, Res.bind_ok, h5, if_pos rfl, h3, holds_add]
          rfl
        · rw [kind_snoc, if_pos rfl]
        · rw [kind_snoc, if_neg (by simp)]; exact h2
        · have : total (ops ++ [(.read, v, t)]) = total ops ++ [v] := by
            rw [ht]; unfold total; rw [List.any_append, hany, List.map_append]; rfl
          rw [this]
        · rw [List.any_append, hany]; exact h5
      | write =>
        refine ⟨{ w with write := Part.holds b (kind .write ops ++ [v]), all := Part.holds c (total ops ++ [v]) }, ?_, ?_, ?_, ?_, h4, ?_⟩
        · unfold addMode
          rw [h2, holds_add, Res.bind_ok, h5, if_pos rfl, h3, holds_add]
          rfl
        · rw [kind_snoc, if_neg (by simp)]; exact h1
        · rw [kind_snoc, if_pos rfl]
        · have : total (ops ++ [(.write, v, t)]) = total ops ++ [v] := by
            rw [ht]; unfold total; rw [List.any_append, hany, List.map_append]; rfl
          rw [this]
        · rw [List.any_append, hany]; exact h5
      | all =>
        refine ⟨{ w with all := Part.holds c [v], auto := false }, ?_, ?_, ?_, ?_, h4, ?_⟩
        · unfold addMode
          rw [h5, h3]
          show (Part.add id fuel v t (Part.holds c (total ops)).reset >>= _) >>= _ = _
          rw [holds_reset, holds_add]
          rfl
        · rw [kind_snoc, if_neg (by simp)]; exact h1
        · rw [kind_snoc, if_neg (by simp)]; exact h2
        · have : total (ops ++ [(.all, v, t)]) = [v] := by
            unfold total; rw [List.any_append, hany, kind_snoc, if_pos rfl, kind_none hany]; rfl
          rw [this]
        · rw [List.any_append, hany]; rfl
    | true =>
      rw [hany] at h5
      have h5 : w.auto = false := h5
      have ht : total ops = kind .all ops := by unfold total; rw [hany]; rfl
      have ht' : ∀ o, total (ops ++ [o]) = kind .all (ops ++ [o]) := fun o => by
        unfold total; rw [List.any_append, hany]; rfl
      cases m with
      | read =>
        refine ⟨{ w with read := Part.holds a (kind .read ops ++ [v]) }, ?_, ?_, ?_, ?_, h4, ?_⟩
        · unfold addMode
          rw [h1, holds_add, Res.bind_ok, h5]
          rfl
        · rw [kind_snoc, if_pos rfl]
        · rw [kind_snoc, if_neg (by simp)]; exact h2
        · rw [ht', kind_snoc, if_neg (by simp), ← ht]; exact h3
        · rw [List.any_append, hany]; exact h5
      | write =>
        refine ⟨{ w with write := Part.holds b (kind .write ops ++ [v]) }, ?_, ?_, ?_, ?_, h4, ?_⟩
        · unfold addMode
          rw [h2, holds_add, Res.bind_ok, h5]
          rfl
        · rw [kind_snoc, if_neg (by simp)]; exact h1
        · rw [kind_snoc, if_pos rfl]
        · rw [ht', kind_snoc, if_neg (by simp), ← ht]; exact h3
        · rw [List.any_append, hany]; exact h5
      | all =>
        refine ⟨{ w with all := Part.holds c (kind .all ops ++ [v]), auto := false }, ?_, ?_, ?_, ?_, h4, ?_⟩
        · unfold addMode
          rw [h5, h3, ht]
          show (Part.add id fuel v t (Part.holds c (kind .all ops)) >>= _) >>= _ = _
          rw [holds_add]
          rfl
        · rw [kind_snoc, if_neg (by simp)]; exact h1
        · rw [kind_snoc, if_neg (by simp)]; exact h2
        · rw [ht', kind_snoc, if_pos rfl]
        · rw [List.any_append, hany]; rfl

/-- A case of the theorem, without a statistic of writes. -/
example : (runW id 1 (newW (.plain Stats.reset) .null (.plain Stats.reset)) [(.read, 5, 0), (.write, 6, 0), (.all, 9, 0), (.read, 7, 0)]).map
    (fun w => (w.read, w.write, w.all)) = .ok (.plain ⟨2, 12, 74, some 5, some 7⟩, .null, .plain ⟨1, 9, 81, some 9, some 9⟩) := by decide +kernel

/-- The calls a group gets of one kind. -/
def callsOf (m : RW) (ops : List (RW × Rat × Rat)) : List GOp := (ops.filter fun o => decide (o.1 = m)).map fun o => .add o.2.1 o.2.2

/-- The calls that the group of all gets. -/
def callsAll : Bool → List (RW × Rat × Rat) → List GOp
  | _, [] => []
  | true, (.all, v, t) :: ops => .reset :: .add v t :: callsAll false ops
  | true, (_, v, t) :: ops => .add v t :: callsAll true ops
  | false, (.all, v, t) :: ops => .add v t :: callsAll false ops
  | false, _ :: ops => callsAll false ops

theorem addTime_number {r : Rat → Rat} {fuel : Nat} {s s' : SG} {v t : Rat} (h : addTime r fuel s v t = .ok s') : s'.st.number = 1 + s.st.number := by
  have hset : ∀ {s s1 : SG} {t : Rat}, setStart s t = .ok s1 → s1.st = s.st := by
    intro s s1 t h
    unfold setStart at h
    cases hl : s.last.isNone with
    | false => rw [hl] at h; cases h
    | true => rw [hl] at h; cases h; rfl
  have hsplit : addTime r fuel s v t = ((if s.last.isNone then setStart s t else .ok s) >>= fun s => Res.require (match s.last with | none => false | some u => decide (u ≤ t)) >>= fun _ =>
      advance r fuel s t >>= fun s => record r s v) := by
    unfold addTime
    cases s.last.isNone <;> rfl
  rw [hsplit, Res.bind_eq_ok] at h
  obtain ⟨s1, h1, h⟩ := h
  have e1 : s1.st = s.st := by
    cases hl : s.last.isNone with
    | false => rw [hl] at h1; cases h1; rfl
    | true => rw [hl] at h1; exact hset h1
  rw [Res.bind_eq_ok] at h
  obtain ⟨_, -, h⟩ := h
  rw [Res.bind_eq_ok] at h
  obtain ⟨s2, h2, h3⟩ := h
  have e2 : s2.st = s1.st := by
    unfold advance at h2
    cases hc : s1.cur with
    | none => rw [hc] at h2; cases h2; rfl
    | some c =>
      rw [hc] at h2
      simp only [] at h2
      split at h2
      · rw [Res.bind_eq_ok] at h2
        obtain ⟨p, -, h2⟩ := h2
        cases h2; rfl
      · cases h2; rfl
  unfold record at h3
  split at h3
  · cases h3
    show (Stats.add r s2.st v).number = _
    rw [e2, e1]
    show s.st.number + 1 = _
    omega
  · cases h3

/-- Once there was a read or a write, the three groups go their own ways. -/
theorem groups_run (r : Rat → Rat) (fuel : Nat) : ∀ (ops : List (RW × Rat × Rat)) (auto : Bool) (x y z x' y' z' : SG), 0 < x.st.number ∨ 0 < y.st.number →
    runSG r fuel x (callsOf .read ops) = .ok x' → runSG r fuel y (callsOf .write ops) = .ok y' → runSG r fuel z (callsAll auto ops) = .ok z' →
    ∃ auto', runW r fuel ⟨.group x, .group y, .group z, auto, true⟩ ops = .ok ⟨.group x', .group y', .group z', auto', true⟩
  | [], auto, x, y, z, x', y', z', _, h1, h2, h3 => by cases h1; cases h2; cases auto <;> cases h3 <;> exact ⟨_, rfl⟩
  | (m, v, t) :: ops, auto, x, y, z, x', y', z', h0, h1, h2, h3 => by
    have hst : startAll ⟨.group x, .group y, .group z, auto, true⟩ t = .ok ⟨.group x, .group y, .group z, auto, true⟩ := by
      show (if x.st.number = 0 ∧ y.st.number = 0 then _ else _) = _
      rw [if_neg (by omega)]
      rfl
    rw [runW]
    unfold addW
    rw [hst, Res.bind_ok]
    cases m with
    | read =>
      have h1 : (addTime r fuel x v t >>= fun s => runSG r fuel s (callsOf .read ops)) = .ok x' := h1
      have h2 : runSG r fuel y (callsOf .write ops) = .ok y' := h2
      rw [Res.bind_eq_ok] at h1
      obtain ⟨x1, h11, h12⟩ := h1
      have hx := addTime_number h11
      cases auto with
      | true =>
        have h3 : (addTime r fuel z v t >>= fun s => runSG r fuel s (callsAll true ops)) = .ok z' := h3
        rw [Res.bind_eq_ok] at h3
        obtain ⟨z1, h31, h32⟩ := h3
        obtain ⟨auto', e⟩ := groups_run r fuel ops true x1 y z1 x' y' z' (by omega) h12 h2 h32
        refine ⟨auto', ?_⟩
        rw [← e]
        show ((addTime r fuel x v t >>= fun g => pure (Part.group g)) >>= _) >>= _ = _
        rw [h11]
        show ((addTime r fuel z v t >>= fun g => pure (Part.group g)) >>= _) >>= _ = _
        rw [h31]
        rfl
      | false =>
        have h3 : runSG r fuel z (callsAll false ops) = .ok z' := h3
        obtain ⟨auto', e⟩ := groups_run r fuel ops false x1 y z x' y' z' (by omega) h12 h2 h3
        refine ⟨auto', ?_⟩
        rw [← e]
        show ((addTime r fuel x v t >>= fun g => pure (Part.group g)) >>= _) >>= _ = _
        rw [h11]
        rfl
    | write =>
      have h2 : (addTime r fuel y v t >>= fun s => runSG r fuel s (callsOf .write ops)) = .ok y' := h2
      have h1 : runSG r fuel x (callsOf .read ops) = .ok x' := h1
      rw [Res.bind_eq_ok] at h2
      obtain ⟨y1, h11, h12⟩ := h2
      have hy := addTime_number h11
      cases auto with
      | true =>
        have h3 : (addTime r fuel z v t >>= fun s => runSG r fuel s (callsAll true ops)) = .ok z' := h3
        rw [Res.bind_eq_ok] at h3
        obtain ⟨z1, h31, h32⟩ := h3
        obtain ⟨auto', e⟩ := groups_run r fuel ops true x y1 z1 x' y' z' (by omega) h1 h12 h32
        refine ⟨auto', ?_⟩
        rw [← e]
        show ((addTime r fuel y v t >>= fun g => pure (Part.group g)) >>= _) >>= _ = _
        rw [h11]
        show ((addTime r fuel z v t >>= fun g => pure (Part.group g)) >>= _) >>= _ = _
        rw [h31]
        rfl
      | false =>
        have h3 : runSG r fuel z (callsAll false ops) = .ok z' := h3
        obtain ⟨auto', e⟩ := groups_run r fuel ops false x y1 z x' y' z' (by omega) h1 h12 h3
        refine ⟨auto', ?_⟩
        rw [← e]
        show ((addTime r fuel y v t >>= fun g => pure (Part.group g)) >>= _) >>= _ = _
        rw [h11]
        rfl
    | all =>
      have h1 : runSG r fuel x (callsOf .read ops) = .ok x' := h1
      have h2 : runSG r fuel y (callsOf .write ops) = .ok y' := h2
      cases auto with
      | true =>
        have h3 : (addTime r fuel (resetSG z) v t >>= fun s => runSG r fuel s (callsAll false ops)) = .ok z' := h3
        rw [Res.bind_eq_ok] at h3
        obtain ⟨z1, h31, h32⟩ := h3
        obtain ⟨auto', e⟩ := groups_run r fuel ops false x y z1 x' y' z' h0 h1 h2 h32
        refine ⟨auto', ?_⟩
        rw [← e]
        show ((addTime r fuel (resetSG z) v t >>= fun g => pure (Part.group g)) >>= _) >>= _ = _
        rw [h31]
        rfl
      | false =>
        have h3 : (addTime r fuel z v t >>= fun s => runSG r fuel s (callsAll false ops)) = .ok z' := h3
        rw [Res.bind_eq_ok] at h3
        obtain ⟨z1, h31, h32⟩ := h3
        obtain ⟨auto', e⟩ := groups_run r fuel ops false x y z1 x' y' z' h0 h1 h2 h32
        refine ⟨auto', ?_⟩
        rw [← e]
        show ((addTime r fuel z v t >>= fun g => pure (Part.group g)) >>= _) >>= _ = _
        rw [h31]
        rfl

/-- The times of calls. -/
def times (ops : List GOp) : List Rat := ops.filterMap fun o => match o with | .add _ t => some t | _ => none

/-- A series that is started once and goes on in the order of time. -/
theorem timely_start (t : Rat) (ops : List GOp) (h0 : ∀ u, GOp.start u ∉ ops) (h1 : (t :: times ops).Pairwise (· ≤ ·)) : Timely (.start t :: ops) := by
  have hlat : ∀ (a : List GOp) (u : Rat), (∀ s, GOp.start s ∉ a) → t ≤ u → (∀ s ∈ times a, s ≤ u) → ∀ t0 l, epoch (.start t :: a) = some (t0, l) → latest t0 l ≤ u := by
    intro a u
    induction a using List.reverseRecOn with
    | nil => intro _ htu _ t0 l h; cases h; exact htu
    | append_singleton a o ih =>
      intro hs htu hle t0 l h
      rw [← List.cons_append, epoch_snoc] at h
      cases o with
      | start s => exact absurd (by simp) (hs s)
      | reset => cases h
      | add v s =>
        have hsu : s ≤ u := hle s (by unfold times; rw [List.filterMap_append]; simp)
        cases hep : epoch (.start t :: a) with
        | none => rw [hep] at h; cases h; exact hsu
        | some p => obtain ⟨t1, l1⟩ := p; rw [hep] at h; cases h; rw [latest_snoc]; exact hsu
  intro a o b e
  cases a with
  | nil => injection e with e1 e2; subst e1; rfl
  | cons a0 a =>
    injection e with e1 e2
    subst e1 e2
    cases o with
    | start u => exact absurd (by simp) (h0 u)
    | reset => trivial
    | add v u =>
      have ht : times (a ++ .add v u :: b) = times a ++ u :: times b := by
        unfold times; rw [List.filterMap_append]; rfl
      have h1 : (t :: times (a ++ .add v u :: b)).Pairwise (· ≤ ·) := h1
      rw [ht] at h1
      obtain ⟨q1, q2⟩ := List.pairwise_cons.1 h1
      obtain ⟨-, -, q3⟩ := List.pairwise_append.1 q2
      exact hlat a u (fun s hs => h0 s (by simp [hs])) (q1 u (by simp)) (fun s hs => q3 s hs u (by simp))

theorem times_callsOf (m : RW) (ops : List (RW × Rat × Rat)) : (times (callsOf m ops)).Sublist (ops.map fun o => o.2.2) := by
  have : times (callsOf m ops) = (ops.filter fun o => decide (o.1 = m)).map fun o => o.2.2 := by
    unfold times callsOf
    rw [List.filterMap_map]
    rw [← List.filterMap_eq_map]
    rfl
  rw [this]
  exact List.Sublist.map _ List.filter_sublist

theorem times_callsAll : ∀ (auto : Bool) (ops : List (RW × Rat × Rat)), (times (callsAll auto ops)).Sublist (ops.map fun o => o.2.2)
  | true, [] => List.Sublist.refl _
  | false, [] => List.Sublist.refl _
  | true, (.all, v, t) :: ops => (times_callsAll false ops).cons_cons t
  | true, (.read, v, t) :: ops => (times_callsAll true ops).cons_cons t
  | true, (.write, v, t) :: ops => (times_callsAll true ops).cons_cons t
  | false, (.all, v, t) :: ops => (times_callsAll false ops).cons_cons t
  | false, (.read, v, t) :: ops => (times_callsAll false ops).cons t
  | false, (.write, v, t) :: ops => (times_callsAll false ops).cons t

theorem start_callsOf (m : RW) (ops : List (RW × Rat × Rat)) (u : Rat) : GOp.start u ∉ callsOf m ops := by
  unfold callsOf
  intro h
  obtain ⟨o, _, ho⟩ := List.mem_map.1 h
  cases ho

theorem start_callsAll : ∀ (auto : Bool) (ops : List (RW × Rat × Rat)) (u : Rat), GOp.start u ∉ callsAll auto ops
  | true, [], u => by simp [callsAll]
  | false, [], u => by simp [callsAll]
  | true, (.all, v, t) :: ops, u => by simpa [callsAll] using start_callsAll false ops u
  | true, (.read, v, t) :: ops, u => by simpa [callsAll] using start_callsAll true ops u
  | true, (.write, v, t) :: ops, u => by simpa [callsAll] using start_callsAll true ops u
  | false, (.all, v, t) :: ops, u => by simpa [callsAll] using start_callsAll false ops u
  | false, (.read, v, t) :: ops, u => by simpa [callsAll] using start_callsAll false ops u
  | false, (.write, v, t) :: ops, u => by simpa [callsAll] using start_callsAll false ops u

theorem startAll_fresh {w : W} {t : Rat} {x y z : Part} (h : w.groups = true) (h1 : w.read.count = .ok 0) (h2 : w.write.count = .ok 0) (e1 : w.read.start t = .ok x)
    (e2 : w.write.start t = .ok y) (e3 : w.all.start t = .ok z) : startAll w t = .ok ⟨x, y, z, w.auto, w.groups⟩ := by
  unfold startAll
  rw [h, if_pos rfl, h1, Res.bind_ok, h2, Res.bind_ok, if_pos ⟨rfl, rfl⟩, e1, Res.bind_ok, e2, Res.bind_ok, e3, Res.bind_ok]
  rfl

/-- C57. Three groups, in exact arithmetic: if the first call is a read or a write and times do not go back, every mix of calls is accepted, and each group has got its calls, all
series starting at the time of the first; `read` and `write` count theirs. Missing: histories that begin with `all`, see `rw_groups_false`, and the count of `all`, see
`rw_stale_false`. -/
theorem rw_groups_partial {d1 d2 d3 : Rat} (h1 : 0 < d1) (h2 : 0 < d2) (h3 : 0 < d3) (m : RW) (hm : m ≠ .all) (v t : Rat) (ops : List (RW × Rat × Rat))
    (ht : (t :: ops.map fun o => o.2.2).Pairwise (· ≤ ·)) :
    ∃ N, ∀ fuel, N ≤ fuel → ∃ w x y z, runW id fuel (newW (.group (newSG d1)) (.group (newSG d2)) (.group (newSG d3))) ((m, v, t) :: ops) = .ok w ∧
      w.read = .group x ∧ w.write = .group y ∧ w.all = .group z ∧
      runSG id fuel (newSG d1) (.start t :: callsOf .read ((m, v, t) :: ops)) = .ok x ∧ runSG id fuel (newSG d2) (.start t :: callsOf .write ((m, v, t) :: ops)) = .ok y ∧
      runSG id fuel (newSG d3) (.start t :: callsAll true ((m, v, t) :: ops)) = .ok z ∧
      x.st = Stats.eval id (Stats.adds .new (kind .read ((m, v, t) :: ops))) ∧ y.st = Stats.eval id (Stats.adds .new (kind .write ((m, v, t) :: ops))) := by
  have ht' : (t :: ((m, v, t) :: ops).map fun o => o.2.2).Pairwise (· ≤ ·) := by
    refine List.pairwise_cons.2 ⟨fun u hu => ?_, ht⟩
    rcases List.mem_cons.1 hu with rfl | hu
    · exact le_refl _
    · exact (List.pairwise_cons.1 ht).1 u hu
  obtain ⟨N1, hN1⟩ := runSG_ok h1 (.start t :: callsOf .read ((m, v, t) :: ops)) (timely_start t _ (start_callsOf _ _) (ht'.sublist ((times_callsOf _ _).cons_cons t)))
  obtain ⟨N2, hN2⟩ := runSG_ok h2 (.start t :: callsOf .write ((m, v, t) :: ops)) (timely_start t _ (start_callsOf _ _) (ht'.sublist ((times_callsOf _ _).cons_cons t)))
  obtain ⟨N3, hN3⟩ := runSG_ok h3 (.start t :: callsAll true ((m, v, t) :: ops)) (timely_start t _ (start_callsAll _ _) (ht'.sublist ((times_callsAll _ _).cons_cons t)))
  refine ⟨max N1 (max N2 N3), fun fuel hf => ?_⟩
  obtain ⟨x, ex, -, sx⟩ := hN1 fuel (le_trans (le_max_left _ _) hf)
  obtain ⟨y, ey, -, sy⟩ := hN2 fuel (le_trans (le_trans (le_max_left _ _) (le_max_right _ _)) hf)
  obtain ⟨z, ez, -, sz⟩ := hN3 fuel (le_trans (le_trans (le_max_right _ _) (le_max_right _ _)) hf)
  have hev : ∀ m' : RW, everything (.start t :: callsOf m' ((m, v, t) :: ops)) = kind m' ((m, v, t) :: ops) := by
    intro m'
    unfold everything callsOf kind
    rw [List.filterMap_cons]
    simp only []
    rw [List.filterMap_map, ← List.filterMap_eq_map]
    rfl
  have hx' : (setStart (newSG d1) t >>= fun s => runSG id fuel s (callsOf .read ((m, v, t) :: ops))) = .ok x := ex
  have hy' : (setStart (newSG d2) t >>= fun s => runSG id fuel s (callsOf .write ((m, v, t) :: ops))) = .ok y := ey
  have hz' : (setStart (newSG d3) t >>= fun s => runSG id fuel s (callsAll true ((m, v, t) :: ops))) = .ok z := ez
  rw [Res.bind_eq_ok] at hx' hy' hz'
  obtain ⟨x0, hx0, hx1⟩ := hx'
  obtain ⟨y0, hy0, hy1⟩ := hy'
  obtain ⟨z0, hz0, hz1⟩ := hz'
  have hrun : ∃ auto', runW id fuel (newW (.group (newSG d1)) (.group (newSG d2)) (.group (newSG d3))) ((m, v, t) :: ops) = .ok ⟨.group x, .group y, .group z, auto', true⟩ := by
    have hst : startAll (newW (.group (newSG d1)) (.group (newSG d2)) (.group (newSG d3))) t = .ok ⟨.group x0, .group y0, .group z0, true, true⟩ := by
      have e1 : (Part.group (newSG d1)).start t = .ok (.group x0) := by unfold Part.start; simp only [hx0]; rfl
      have e2 : (Part.group (newSG d2)).start t = .ok (.group y0) := by unfold Part.start; simp only [hy0]; rfl
      have e3 : (Part.group (newSG d3)).start t = .ok (.group z0) := by unfold Part.start; simp only [hz0]; rfl
      exact startAll_fresh (w := newW (.group (newSG d1)) (.group (newSG d2)) (.group (newSG d3))) rfl rfl rfl e1 e2 e3
    rw [runW]
    unfold addW
    rw [hst, Res.bind_ok]
    cases m with
    | all => exact absurd rfl hm
    | read =>
      have hx1 : (addTime id fuel x0 v t >>= fun s => runSG id fuel s (callsOf .read ops)) = .ok x := hx1
      have hz1 : (addTime id fuel z0 v t >>= fun s => runSG id fuel s (callsAll true ops)) = .ok z := hz1
      rw [Res.bind_eq_ok] at hx1 hz1
      obtain ⟨x1, hx1, hx2⟩ := hx1
      obtain ⟨z1, hz1, hz2⟩ := hz1
      obtain ⟨auto', e⟩ := groups_run id fuel ops true x1 y0 z1 x y z (by have := addTime_number hx1; omega) hx2 hy1 hz2
      refine ⟨auto', ?_⟩
      rw [← e]
      show ((addTime id fuel x0 v t >>= fun g => pure (Part.group g)) >>= _) >>= _ = _
      rw [hx1]
      show ((addTime id fuel z0 v t >>= fun g => pure (Part.group g)) >>= _) >>= _ = _
      rw [hz1]
      rfl
    | write =>
      have hy1 : (addTime id fuel y0 v t >>= fun s => runSG id fuel s (callsOf .write ops)) = .ok y := hy1
      have hz1 : (addTime id fuel z0 v t >>= fun s => runSG id fuel s (callsAll true ops)) = .ok z := hz1
      rw [Res.bind_eq_ok] at hy1 hz1
      obtain ⟨y1, hy1, hy2⟩ := hy1
      obtain ⟨z1, hz1, hz2⟩ := hz1
      obtain ⟨auto', e⟩ := groups_run id fuel ops true x0 y1 z1 x y z (by have := addTime_number hy1; omega) hx1 hy2 hz2
      refine ⟨auto', ?_⟩
      rw [← e]
      show ((addTime id fuel y0 v t >>= fun g => pure (Part.group g)) >>= _) >>= _ = _
      rw [hy1]
      show ((addTime id fuel z0 v t >>= fun g => pure (Part.group g)) >>= _) >>= _ = _
      rw [hz1]
      rfl
  obtain ⟨auto', e⟩ := hrun
  exact ⟨_, x, y, z, e, rfl, rfl, rfl, ex, ey, ez, by rw [sx, hev], by rw [sy, hev]⟩

/-- A case of the theorem. -/
example : (runW id 9 (newW (.group (newSG 1)) (.group (newSG 1)) (.group (newSG 1))) [(.read, 5, 0), (.write, 6, 2), (.all, 7, 2)]).map
    (fun w => match w.read, w.write, w.all with | .group x, .group y, .group z => [x.stats.length, y.stats.length, z.stats.length] | _, _, _ => []) = .ok [1, 3, 1] := by decide +kernel

/-- C57. It is false of three groups: after `add(All)` as the first call every further one aborts, because the series of reads and writes are started again. -/
theorem rw_groups_false {d1 d2 d3 : Rat} (h3 : 0 < d3) (v t v' t' : Rat) (m : RW) (ops : List (RW × Rat × Rat)) {fuel : Nat} (hf : 0 < fuel) :
    runW id fuel (newW (.group (newSG d1)) (.group (newSG d2)) (.group (newSG d3))) ((.all, v, t) :: (m, v', t') :: ops) = .abort := by
  obtain ⟨s1, e1, i1, -, n1⟩ := setStart_ok (s := resetSG (addStat { (newSG d3) with last := some t, cur := some t, first := some t })) rfl rfl h3 t
  obtain ⟨s2, e2, -⟩ := addTime_ok i1 (v := v) (t := t) (le_refl _) (fuel := fuel) (by rw [sub_self, zero_div]; exact_mod_cast hf)
  have hadd : addTime id fuel (resetSG (addStat { (newSG d3) with last := some t, cur := some t, first := some t })) v t = .ok s2 := by
    rw [← e2]
    have hl1 : s1.last.isNone = false := by rw [i1.last]; rfl
    unfold addTime
    show (setStart (resetSG (addStat { (newSG d3) with last := some t, cur := some t, first := some t })) t >>= _) = _
    rw [e1, Res.bind_ok, hl1]
    rfl
  have hfirst : addW id fuel (newW (.group (newSG d1)) (.group (newSG d2)) (.group (newSG d3))) (.all, v, t) =
      .ok ⟨.group (addStat { (newSG d1) with last := some t, cur := some t, first := some t }), .group (addStat { (newSG d2) with last := some t, cur := some t, first := some t }), .group s2, false, true⟩ := by
    show ((addTime id fuel (resetSG (addStat { (newSG d3) with last := some t, cur := some t, first := some t })) v t >>= fun g => pure (Part.group g)) >>= _) = _
    rw [hadd]
    rfl
  rw [runW, hfirst, Res.bind_ok, runW]
  rfl

/-- C57. With three groups `all` keeps counting what was to be forgotten: of a read and one value added to all, `all` counts both. -/
theorem rw_stale_false : (runW id 9 (newW (.group (newSG 1)) (.group (newSG 1)) (.group (newSG 1))) [(.read, 5, 0), (.all, 7, 0)]).map (fun w => w.all.count) = .ok (.ok 2) ∧
    total [(.read, 5, 0), (.all, 7, 0)] = [7] := by decide +kernel

/-- C57. A component may be `NULL`, says the header, but then printing is undefined. -/
theorem rw_null_ub (write all : Part) : onlyAll (newW .null write all) = .ub := rfl

end Verif.Series
