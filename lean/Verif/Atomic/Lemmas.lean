import Verif.Atomic.Spec

namespace Verif.Atomic

theorem legal_snoc {c d : BitVec w} {es : List (Event w)} (h : Legal c es d) (e : Event w)
    (he : e.ret = (apply d e.op).2) : Legal c (es ++ [e]) (apply d e.op).1 := by
  induction h with
  | nil c => exact .cons c e [] _ he (.nil _)
  | cons c e' es c' h1 _ ih => exact .cons c e' _ _ h1 (ih he)

theorem negT_ok {ovf : Bool} {v n : BitVec w} (h : negT ovf v = .ok n) : n = -v := by
  unfold negT at h; split at h
  · cases h
  · cases h; rfl

theorem addT_ok {ovf : Bool} {a b n : BitVec w} (h : addT ovf a b = .ok n) : n = a + b := by
  unfold addT at h; split at h
  · cases h
  · cases h; rfl

theorem subT_ok {ovf : Bool} {a b n : BitVec w} (h : subT ovf a b = .ok n) : n = a - b := by
  unfold subT at h; split at h
  · cases h
  · cases h; rfl

/-- The counter an operation leaves when its last instruction finds `c`. -/
def newOf (m : Micro w) (c : BitVec w) : BitVec w :=
  match m with
  | .read => c
  | .xchg v => v
  | .cmpxchg e d => if c = e then d else c
  | .xadd v => c + v
  | .loop f => f c

theorem decode_apply {ovf : Bool} {op : Op w} {m : Micro w} (h : decode ovf op = .ok m) (c : BitVec w) :
    newOf m c = (apply c op).1 := by
  cases op <;> simp only [decode, Res.bind_eq_ok] at h
  all_goals first
    | (cases h; rfl)
    | (obtain ⟨n, hn, h⟩ := h
       cases h
       rw [negT_ok hn]
       simp only [newOf, apply, BitVec.sub_eq_add_neg])
    | (cases h; simp only [newOf, apply]; split <;> rfl)

theorem finish_apply {ovf : Bool} {op : Op w} {c : BitVec w} {r : Ret w} (h : finish ovf c op = .ok r) :
    r = (apply c op).2 := by
  cases op <;> simp only [finish, Res.bind_eq_ok, Res.ok.injEq] at h <;> simp only [apply]
  case isZero => rw [← h]; congr 1
  case cas e d =>
    subst h
    split
    · next h => simp [h]
    · next h => simp [h]
  case addA v => obtain ⟨n, hn, h⟩ := h; cases h; rw [addT_ok hn]
  case subA v => obtain ⟨n, hn, h⟩ := h; cases h; rw [subT_ok hn]
  case preInc => obtain ⟨n, hn, h⟩ := h; cases h; rw [addT_ok hn]
  case preDec => obtain ⟨n, hn, h⟩ := h; cases h; rw [subT_ok hn]
  all_goals exact h.symm

/-- What one step does: nothing anyone can see, or exactly one operation. -/
inductive Change (s s' : State w) (t : Nat) : Prop
  | quiet : s'.counter = s.counter → (∀ u, (s'.thr u).done = (s.thr u).done ∧ (s'.thr u).todo = (s.thr u).todo) → Change s s' t
  | completed (op : Op w) (rest : List (Op w)) : (s.thr t).todo = op :: rest → s'.counter = (apply s.counter op).1 →
      (s'.thr t).done = (s.thr t).done ++ [(op, (apply s.counter op).2)] → (s'.thr t).todo = rest →
      (∀ u, u ≠ t → s'.thr u = s.thr u) → Change s s' t

theorem set_same (s : State w) (c : BitVec w) (t : Nat) (x : Thread w) : (s.set c t x).thr t = x := by simp [State.set]
theorem set_other (s : State w) (c : BitVec w) (t : Nat) (x : Thread w) {u : Nat} (h : u ≠ t) : (s.set c t x).thr u = s.thr u := by
  simp [State.set, h]

theorem complete_change {ovf : Bool} {s s' : State w} {t : Nat} {op : Op w} {rest : List (Op w)} {new : BitVec w}
    (ht : (s.thr t).todo = op :: rest) (hn : new = (apply s.counter op).1)
    (h : complete ovf s t op rest s.counter new = .ok s') : Change s s' t := by
  simp only [complete, Res.bind_eq_ok] at h
  obtain ⟨r, hr, h⟩ := h
  cases h
  refine .completed op rest ht hn ?_ ?_ ?_
  · rw [set_same, finish_apply hr]
  · rw [set_same]
  · intro u hu; rw [set_other _ _ _ _ hu]

theorem quiet_change (s : State w) (t : Nat) (r : Option (BitVec w)) :
    Change s (s.set s.counter t { s.thr t with reg := r }) t := by
  refine .quiet rfl ?_
  intro u
  by_cases hu : u = t
  · subst hu; rw [set_same]; exact ⟨rfl, rfl⟩
  · rw [set_other _ _ _ _ hu]; exact ⟨rfl, rfl⟩

theorem step_change {ovf : Bool} {s s' : State w} {t : Nat} (h : step ovf s t = .ok s') : Change s s' t := by
  unfold step at h
  split at h
  · cases h; exact .quiet rfl (fun _ => ⟨rfl, rfl⟩)
  · next op rest ht =>
    simp only [Res.bind_eq_ok] at h
    obtain ⟨m, hm, h⟩ := h
    have hd := decode_apply hm
    cases m with
    | read => exact complete_change ht (hd _) h
    | xchg v => exact complete_change ht (hd _) h
    | cmpxchg e d => exact complete_change ht (hd _) h
    | xadd v => exact complete_change ht (hd _) h
    | loop f =>
      simp only [exec] at h
      split at h
      · cases h; exact quiet_change s t _
      · next e he =>
        split at h
        · next heq =>
          rw [← heq] at h
          exact complete_change ht (hd _) h
        · cases h; exact quiet_change s t _

theorem ofThread_snoc (t : Nat) (es : List (Event w)) (e : Event w) :
    ofThread t (es ++ [e]) = if e.tid = t then ofThread t es ++ [(e.op, e.ret)] else ofThread t es := by
  unfold ofThread
  by_cases h : e.tid = t <;> simp [h]

/-- A history explains a state. -/
structure Explains (c : BitVec w) (progs : Nat → List (Op w)) (es : List (Event w)) (s : State w) : Prop where
  legal : Legal c es s.counter
  each : ∀ t, ofThread t es = (s.thr t).done
  order : ∀ t, (ofThread t es).map Prod.fst ++ (s.thr t).todo = progs t

theorem explains_initial (c : BitVec w) (progs : Nat → List (Op w)) : Explains c progs [] (initial c progs) :=
  ⟨.nil c, fun _ => rfl, fun _ => rfl⟩

theorem explains_step {ovf : Bool} {c : BitVec w} {progs : Nat → List (Op w)} {es : List (Event w)} {s s' : State w}
    (h : Explains c progs es s) {t : Nat} (hs : step ovf s t = .ok s') :
    ∃ new, new.length ≤ 1 ∧ (∀ e ∈ new, e.tid = t) ∧ Explains c progs (es ++ new) s' := by
  cases step_change hs with
  | quiet h1 h2 =>
    refine ⟨[], by simp, by simp, ?_⟩
    rw [List.append_nil]
    exact ⟨by rw [h1]; exact h.legal, fun u => by rw [(h2 u).1]; exact h.each u, fun u => by rw [(h2 u).2]; exact h.order u⟩
  | completed op rest h1 h2 h3 h4 h5 =>
    refine ⟨[⟨t, op, (apply s.counter op).2⟩], by simp, by simp, ?_⟩
    refine ⟨?_, ?_, ?_⟩
    · rw [h2]; exact legal_snoc h.legal ⟨t, op, _⟩ rfl
    · intro u
      rw [ofThread_snoc]
      by_cases hu : t = u
      · subst hu; rw [if_pos rfl, h3, h.each]
      · rw [if_neg hu, h5 u (fun e => hu e.symm)]; exact h.each u
    · intro u
      rw [ofThread_snoc]
      by_cases hu : t = u
      · subst hu
        rw [if_pos rfl, h4]
        have := h.order t
        rw [h1] at this
        simp only [List.map_append, List.map_cons, List.map_nil, List.append_assoc, List.cons_append, List.nil_append]
        exact this
      · rw [if_neg hu, h5 u (fun e => hu e.symm)]; exact h.order u

theorem explains_run {ovf : Bool} {c : BitVec w} {progs : Nat → List (Op w)} :
    ∀ (ts : List Nat) (s s' : State w) (es : List (Event w)), Explains c progs es s → run ovf s ts = .ok s' →
      ∃ new, Explains c progs (es ++ new) s'
  | [], s, s', es, h, hr => by cases hr; exact ⟨[], by rw [List.append_nil]; exact h⟩
  | t :: ts, s, s', es, h, hr => by
    simp only [run, Res.bind_eq_ok] at hr
    obtain ⟨s1, h1, h2⟩ := hr
    obtain ⟨new, _, _, h3⟩ := explains_step h h1
    obtain ⟨new', h4⟩ := explains_run ts s1 s' _ h3 h2
    exact ⟨new ++ new', by rw [← List.append_assoc]; exact h4⟩

theorem run_append (ovf : Bool) (s : State w) (ts us : List Nat) :
    run ovf s (ts ++ us) = (run ovf s ts >>= fun s' => run ovf s' us) := by
  induction ts generalizing s with
  | nil => rfl
  | cons t ts ih =>
    simp only [List.cons_append, run]
    rw [Res.bind_assoc']
    congr 1
    funext s1
    exact ih s1

theorem bmod_fits {w : Nat} (hw : 0 < w) (x : Int) : x.bmod (2 ^ w) = x ↔ Fits w x := by
  obtain ⟨k, rfl⟩ : ∃ k, w = k + 1 := ⟨w - 1, by omega⟩
  have e : ((2 ^ (k + 1) : Nat) : Int) = 2 * 2 ^ k := by rw [Int.natCast_pow, Int.pow_succ]; simp only [Int.cast_ofNat_Int]; omega
  have hp : (0 : Int) < 2 ^ k := Int.pow_pos (by decide)
  unfold Fits
  rw [Nat.add_sub_cancel]
  constructor
  · intro h
    have h1 := Int.le_bmod (x := x) (m := 2 ^ (k + 1)) (Nat.two_pow_pos _)
    have h2 := Int.bmod_lt (x := x) (m := 2 ^ (k + 1)) (Nat.two_pow_pos _)
    rw [h, e] at h1 h2
    omega
  · rintro ⟨h1, h2⟩
    exact Int.bmod_eq_of_le (by rw [e]; omega) (by rw [e]; omega)

theorem addT_ub {w : Nat} (hw : 0 < w) (a b : BitVec w) : addT true a b = if ¬ Fits w (a.toInt + b.toInt) then .ub else .ok (a + b) := by
  unfold addT
  rw [BitVec.toInt_add]
  simp only [true_and, ne_eq, bmod_fits hw]

theorem subT_ub {w : Nat} (hw : 0 < w) (a b : BitVec w) : subT true a b = if ¬ Fits w (a.toInt - b.toInt) then .ub else .ok (a - b) := by
  unfold subT
  rw [BitVec.toInt_sub]
  simp only [true_and, ne_eq, bmod_fits hw]

theorem negT_ub {w : Nat} (v : BitVec w) : negT true v = if ¬ Fits w (-v.toInt) then .ub else .ok (-v) := by
  have h1 := BitVec.le_toInt v
  have h2 : v.toInt < 2 ^ (w - 1) := BitVec.toInt_lt
  have e : ((2 ^ (w - 1) : Nat) : Int) = 2 ^ (w - 1) := by rw [Int.natCast_pow]; rfl
  have : (v.toInt = -((2 ^ (w - 1) : Nat) : Int)) ↔ ¬ Fits w (-v.toInt) := by
    rw [e]
    unfold Fits
    omega
  unfold negT
  simp only [true_and, this]

end Verif.Atomic
