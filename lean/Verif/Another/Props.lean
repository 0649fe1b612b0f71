import Verif.Another.Model
import Verif.Histo.Props
import Verif.Histo.Accum
import Verif.LogHisto.Props
import Verif.LogHisto.Lemmas2
import Verif.Series.SerProps

/-!
# Another one, but fresh (C219)
-/

namespace Verif.Another

open Verif

/-! ## Uniform histograms -/

/-- What a fresh uniform histogram like `h` is: same bins and range, nothing counted. -/
structure FreshU (h h' : Histo.H) : Prop where
  scal : h'.scal = h.scal
  grow : h'.grow = h.grow
  n : h'.n = h.n
  low : h'.low = h.low
  high : h'.high = h.high
  bins : h'.bins = List.replicate h.n 0
  width : h'.width * h.n = h.high - h.low
  rescales : h'.rescales = 0
  st : h'.st = ⟨0, 0, 0, none, none⟩

theorem uniform_eq (r : Rat → Rat) {h : Histo.H} (hn : 0 < h.n) (he : h.n % 2 = 0) (hl : h.low ≤ h.high) (h1 : ¬(h.scal = true ∧ h.grow = true)) : uniform r h = .ok (Histo.reset r h) := by
  unfold uniform Histo.new
  rw [decide_eq_true hl, decide_eq_true hn, show (!(h.grow && h.scal)) = true by cases hs : h.scal <;> cases hg : h.grow <;> simp_all, show 2 * ((h.n + 1) / 2) = h.n by omega]
  rfl

theorem reset_fresh {h : Histo.H} (hn : 0 < h.n) : FreshU h (Histo.reset id h) := by
  refine ⟨rfl, rfl, rfl, rfl, rfl, rfl, ?_, rfl, rfl⟩
  have : (h.n : Rat) ≠ 0 := by exact_mod_cast hn.ne'
  show (h.high - h.low) / (h.n : Rat) * h.n = _
  exact div_mul_cancel₀ _ this

/-- C219. After any calls on a histogram of an even number of bins (which all histograms that do not grow are), `another_new` gives one with the same bins, range and flags and with nothing in it, and
whatever is called on it then has the results of the same calls on the first one after `reset`. -/
theorem another_uniform_partial {b : Nat} (hb : 0 < b) (hb' : b < 2 ^ 32 - 1) {low high : Rat} (hlh : low < high) {scal grow : Bool} (h1 : ¬(scal = true ∧ grow = true))
    {h0 : Histo.H} (h0e : Histo.new id b low high scal grow = .ok h0) {M : Nat} (ops : List Histo.Op) (hf : Histo.Fits h0 M ops) :
    ∃ h, Histo.run id h0 ops = .ok h ∧ (grow = false → h.n % 2 = 0) ∧ (h.n % 2 = 0 → ∃ h', uniform id h = .ok h' ∧ FreshU h h' ∧
      ∀ later, Histo.run id h' later = Histo.run id h0 (ops ++ .reset :: later)) := by
  obtain ⟨h0', e0, hI0, n0, l0, g0, s0, w0⟩ := Histo.new_ok hb hlh h1
  rw [h0e] at e0
  cases e0
  obtain ⟨h, e, hI, hR, -⟩ := Histo.run_ok hI0 (by rw [n0]; omega) ops hf
  refine ⟨h, e, fun hg => by rw [hR.n (w0.trans hg), n0]; omega, fun he => ⟨Histo.reset id h, uniform_eq id hI.n he ?_ hI.one, reset_fresh hI.n, fun later => ?_⟩⟩
  · have h2 := hI.span
    have h3 : (0 : Rat) ≤ h.n * h.width := mul_nonneg (by exact_mod_cast (Nat.zero_le _)) hI.width.le
    linarith
  · have hap : ∀ (a c : List Histo.Op) (g : Histo.H), Histo.run id g (a ++ c) = (Histo.run id g a >>= fun g => Histo.run id g c) := by
      intro a c
      induction a with
      | nil => intro g; rfl
      | cons o a ih =>
        intro g
        show (Histo.step id g o >>= fun g => Histo.run id g (a ++ c)) = ((Histo.step id g o >>= fun g => Histo.run id g a) >>= fun g => Histo.run id g c)
        cases Histo.step id g o with
        | ok g' => exact ih g'
        | abort => rfl
        | ub => rfl
    rw [hap, e]
    rfl

/-- The hypotheses of `another_uniform_partial`, with a histogram that has changed its range. -/
example : (do let h0 ← Histo.new id 3 0 4 true false; let h ← Histo.run id h0 [.add 1, .add 5]; let h' ← uniform id h; pure (h.bins, h.high, h'.bins, h'.high)) =
    .ok ([1, 0, 1, 0], 8, [0, 0, 0, 0], 8) := by decide +kernel

/-- C219. A histogram that has grown may have an odd number of bins; then `another_new` has one more, and of another width. -/
theorem another_grown_false : ∃ h0 h h', Histo.new id 2 0 2 false true = .ok h0 ∧ Histo.run id h0 [.add 4] = .ok h ∧ uniform id h = .ok h' ∧ h.n = 5 ∧ h'.n = 6 ∧ h.width = 1 ∧ h'.width = 5 / 6 ∧
    ¬FreshU h h' :=
  ⟨⟨false, true, 2, 0, 2, 1, [0, 0], 0, Stats.reset⟩, ⟨false, true, 5, 0, 5, 1, [0, 0, 0, 0, 1], 1, ⟨1, 4, 16, some 4, some 4⟩⟩, ⟨false, true, 6, 0, 5, 5 / 6, [0, 0, 0, 0, 0, 0], 0, Stats.reset⟩,
    by decide +kernel, by decide +kernel, by decide +kernel, rfl, rfl, rfl, rfl, fun h => absurd h.n (by decide)⟩

/-! ## Uniform histograms with sums -/

theorem scaleDownA_flags {r : Rat → Rat} {v : Rat} : ∀ {m : Nat} {a a' : Histo.A}, Histo.scaleDownA r v m a = .ok a' → a'.h.scal = a.h.scal ∧ a'.h.grow = a.h.grow
  | 0, a, a', h => by
    simp only [Histo.scaleDownA] at h
    split at h
    · cases h
    · cases h; exact ⟨rfl, rfl⟩
  | m + 1, a, a', h => by
    simp only [Histo.scaleDownA] at h
    split at h
    · obtain ⟨b, -, h⟩ := Res.bind_eq_ok.1 h
      obtain ⟨c, -, h⟩ := Res.bind_eq_ok.1 h
      have := scaleDownA_flags h
      exact this
    · cases h; exact ⟨rfl, rfl⟩

theorem scaleUpA_flags {r : Rat → Rat} {v : Rat} : ∀ {m : Nat} {a a' : Histo.A}, Histo.scaleUpA r v m a = .ok a' → a'.h.scal = a.h.scal ∧ a'.h.grow = a.h.grow
  | 0, a, a', h => by
    simp only [Histo.scaleUpA] at h
    split at h
    · cases h
    · cases h; exact ⟨rfl, rfl⟩
  | m + 1, a, a', h => by
    simp only [Histo.scaleUpA] at h
    split at h
    · obtain ⟨b, -, h⟩ := Res.bind_eq_ok.1 h
      obtain ⟨c, -, h⟩ := Res.bind_eq_ok.1 h
      have := scaleUpA_flags h
      exact this
    · cases h; exact ⟨rfl, rfl⟩

theorem stepA_flags {r : Rat → Rat} {a a' : Histo.A} {o : Histo.Op2} (h : Histo.stepA r a o = .ok a') : a'.h.scal = a.h.scal ∧ a'.h.grow = a.h.grow := by
  cases o with
  | add i d =>
    simp only [Histo.stepA, Histo.addA] at h
    obtain ⟨a1, h1, h⟩ := Res.bind_eq_ok.1 h
    have q : a1.h.scal = a.h.scal ∧ a1.h.grow = a.h.grow := by
      unfold Histo.addScaleA at h1
      split at h1
      · obtain ⟨a2, h2, h3⟩ := Res.bind_eq_ok.1 h1
        have p := scaleDownA_flags h2
        have p' := scaleUpA_flags h3
        exact ⟨p'.1.trans p.1, p'.2.trans p.2⟩
      · cases h1; exact ⟨rfl, rfl⟩
    obtain ⟨k, -, h⟩ := Res.bind_eq_ok.1 h
    obtain ⟨x, -, h⟩ := Res.bind_eq_ok.1 h
    obtain ⟨b, -, h⟩ := Res.bind_eq_ok.1 h
    obtain ⟨y, -, h⟩ := Res.bind_eq_ok.1 h
    obtain ⟨c, -, h⟩ := Res.bind_eq_ok.1 h
    cases h
    exact q
  | reset =>
    simp only [Histo.stepA, Histo.resetA] at h
    obtain ⟨v, -, h⟩ := Res.bind_eq_ok.1 h
    cases h
    exact ⟨rfl, rfl⟩

theorem runA_flags {r : Rat → Rat} : ∀ {ops : List Histo.Op2} {a a' : Histo.A}, Histo.runA r a ops = .ok a' → a'.h.scal = a.h.scal ∧ a'.h.grow = a.h.grow
  | [], a, a', h => by cases h; exact ⟨rfl, rfl⟩
  | o :: ops, a, a', h => by
    obtain ⟨a1, h1, h⟩ := Res.bind_eq_ok.1 (show (Histo.stepA r a o >>= fun a => Histo.runA r a ops) = .ok a' from h)
    have p := stepA_flags h1
    have q := runA_flags h
    exact ⟨q.1.trans p.1, q.2.trans p.2⟩

theorem runA_append (r : Rat → Rat) : ∀ (x y : List Histo.Op2) (a : Histo.A), Histo.runA r a (x ++ y) = (Histo.runA r a x >>= fun a => Histo.runA r a y)
  | [], _, _ => rfl
  | o :: x, y, a => by
    show (Histo.stepA r a o >>= fun a => Histo.runA r a (x ++ y)) = ((Histo.stepA r a o >>= fun a => Histo.runA r a x) >>= fun a => Histo.runA r a y)
    cases Histo.stepA r a o with
    | ok g' => exact runA_append r x y g'
    | abort => rfl
    | ub => rfl

/-- C219. The same of histograms with sums, which never grow. -/
theorem another_accum_partial {b : Nat} (hb : 0 < b) (hb' : b < 2 ^ 32) (heven : b % 2 = 0) {low high : Rat} (hlh : low < high) {scal grow : Bool} (h1 : ¬(scal = true ∧ grow = true)) {a0 : Histo.A}
    (a0e : Histo.newA id b low high scal grow = .ok a0) (ops : List Histo.Op2) :
    ∃ a a', Histo.runA id a0 ops = .ok a ∧ uniformAccum id a = .ok a' ∧ FreshU a.h a'.h ∧ a'.val = List.replicate a.h.n 0 ∧
      ∀ later, Histo.runA id a' later = Histo.runA id a0 (ops ++ .reset :: later) := by
  obtain ⟨a0', e0, hI0, n0, l0, g0, s0⟩ := Histo.newA_ok hb heven hlh h1
  rw [a0e] at e0
  cases e0
  obtain ⟨a, e, hI, n1, -⟩ := Histo.runA_ok hI0 (by omega) ops
  have hfl := runA_flags e
  have hg0 : a0.h.grow = grow := by
    unfold Histo.newA at a0e
    obtain ⟨h, e1, e2⟩ := Res.bind_eq_ok.1 a0e
    obtain ⟨v, -, e2⟩ := Res.bind_eq_ok.1 (show (Histo.zeroUp 0 0 h.n (List.replicate b (0 : Rat)) >>= fun v => (pure ⟨Histo.reset id h, v⟩ : Res Histo.A)) = _ from e2)
    cases e2
    obtain ⟨h', e3, -, -, -, -, -, w⟩ := Histo.new_ok hb hlh h1
    rw [e1] at e3
    cases e3
    exact w
  obtain ⟨m, hm⟩ := hI.even
  have hs : a.h.low ≤ a.h.high := by
    have h2 := hI.span
    have h3 : (0 : Rat) ≤ a.h.n * a.h.width := mul_nonneg (by exact_mod_cast (Nat.zero_le _)) hI.width.le
    linarith
  have hlen : a.val.length = a.h.n := by
    rw [hI.val]
    simp [Histo.sums]
  have hu : Histo.new id a.h.n a.h.low a.h.high a.h.scal a.h.grow = .ok (Histo.reset id a.h) := uniform_eq id hI.n (by omega) hs (by rw [hfl.1, hfl.2, s0, hg0]; exact h1)
  refine ⟨a, ⟨Histo.reset id a.h, List.replicate a.h.n 0⟩, e, ?_, reset_fresh hI.n, rfl, fun later => ?_⟩
  · unfold uniformAccum Histo.newA
    rw [hu, Res.bind_ok]
    unfold Histo.resetA
    rw [Histo.zeroUp_all _ _ (by rw [List.length_replicate]; rfl)]
    rfl
  · rw [runA_append, e]
    show _ = (Histo.resetA id a >>= fun a => Histo.runA id a later)
    unfold Histo.resetA
    rw [Histo.zeroUp_all _ _ hlen]
    rfl

example : (do let a0 ← Histo.newA id 4 0 4 true false; let a ← Histo.runA id a0 [.add 1 10, .add 5 3]; let a' ← uniformAccum id a; pure (a.val, a.h.high, a'.val, a'.h.high)) =
    .ok ([10, 0, 3, 0], 8, [0, 0, 0, 0], 8) := by decide +kernel

/-! ## Logarithmic histograms -/

/-- What a fresh logarithmic histogram like `h` is. -/
structure FreshL (h h' : LogHisto.L) : Prop where
  scal : h'.scal = h.scal
  n : h'.n = h.n
  small : h'.small = h.small
  high : h'.high = h.high
  bins : h'.bins = List.replicate h.n 0
  scaling : h'.scaling = h.scaling
  rescales : h'.rescales = 0
  count : h'.count = 0

theorem log_eq {h : LogHisto.L} (hS : LogHisto.Shape h) (hn : h.n < 2 ^ 32) (scal : Bool) : LogHisto.new LogHisto.exact h.n h.small h.high scal = .ok { LogHisto.reset h with scal := scal } := by
  obtain ⟨m, hm⟩ := hS.even
  have hm' : 2 * ((h.n + 1) / 2) % 2 ^ 32 = h.n := by rw [Nat.mod_eq_of_lt] <;> omega
  have hsc : (h.n : ℝ) / Real.log (h.high / h.small) = h.scaling := by
    have hnr : (h.n : ℝ) ≠ 0 := by exact_mod_cast hS.n.ne'
    have hcr : h.scaling ≠ 0 := hS.sc.ne'
    rw [← hS.span]
    field_simp
  unfold LogHisto.new
  rw [decide_eq_true hS.n, Res.require_true, Res.bind_ok, decide_eq_true hS.sm, Res.require_true, Res.bind_ok, decide_eq_true hS.hi.le, Res.require_true, Res.bind_ok, if_neg hS.hi.ne, hm']
  show Res.ok (LogHisto.reset ⟨scal, h.n, h.small, h.high, (h.n : ℝ) / Real.log (h.high / h.small), [], 0, 0⟩) = _
  rw [hsc]
  rfl

/-- C219. The same of logarithmic histograms. -/
theorem another_log_partial {b : Nat} (hb : 0 < b) (hb' : b < 2 ^ 32 - 1) {small high : ℝ} (hs : 0 < small) (hh : small < high) {scal : Bool} {h0 : LogHisto.L}
    (h0e : LogHisto.new LogHisto.exact b small high scal = .ok h0) (ops : List LogHisto.Op) (hl : ∀ o ∈ ops, LogHisto.Legal o)
    (hnear : scal = false → ∀ o ∈ ops, ∀ v ∈ LogHisto.given o, LogHisto.Near small high (2 * ((b + 1) / 2)) v) :
    ∃ h h', LogHisto.Runs LogHisto.exact h0 ops h ∧ log LogHisto.exact h = .ok h' ∧ FreshL h h' ∧
      ∃ m0, ∀ m, m0 ≤ m → ∀ later, LogHisto.run LogHisto.exact m h' later = LogHisto.run LogHisto.exact m h0 (ops ++ .reset :: later) := by
  obtain ⟨h, hr, -⟩ := LogHisto.log_counts_partial hb hb' hs hh h0e ops hl hnear
  obtain ⟨hI, hn⟩ := LogHisto.runs_inv hb hb' hs hh h0e hl hnear hr
  refine ⟨h, LogHisto.reset h, hr, log_eq hI.toShape hn h.scal, ⟨rfl, rfl, rfl, rfl, rfl, rfl, rfl, rfl⟩, ?_⟩
  obtain ⟨m0, e⟩ := hr
  refine ⟨m0, fun m hm later => ?_⟩
  have hap : ∀ (a c : List LogHisto.Op) (g : LogHisto.L), LogHisto.run LogHisto.exact m g (a ++ c) = (LogHisto.run LogHisto.exact m g a >>= fun g => LogHisto.run LogHisto.exact m g c) := by
    intro a c
    induction a with
    | nil => intro g; rfl
    | cons o a ih =>
      intro g
      show (LogHisto.step LogHisto.exact m g o >>= fun g => LogHisto.run LogHisto.exact m g (a ++ c)) = ((LogHisto.step LogHisto.exact m g o >>= fun g => LogHisto.run LogHisto.exact m g a) >>= _)
      cases LogHisto.step LogHisto.exact m g o with
      | ok g' => exact ih g'
      | abort => rfl
      | ub => rfl
  rw [hap, e m hm]
  rfl

/-- The hypotheses of `another_log_partial`, with calls that change the range. -/
example : ∃ h0, LogHisto.new LogHisto.exact 3 1 16 true = .ok h0 ∧ ∀ o ∈ [LogHisto.Op.add 2, .add (1 / 100), .add2 1000 1000], LogHisto.Legal o := by
  obtain ⟨h0, e, -⟩ := LogHisto.new_ok (b := 3) (by norm_num) (by norm_num) (small := 1) (high := 16) (by norm_num) (by norm_num) true
  refine ⟨h0, e, fun o ho => ?_⟩
  simp only [List.mem_cons, List.not_mem_nil, or_false] at ho
  rcases ho with rfl | rfl | rfl <;> simp [LogHisto.Legal]

theorem logBump_scal {A : LogHisto.Ar} {h : LogHisto.L} {v : ℝ} {x : Nat × LogHisto.L} (e : LogHisto.bump A h v = .ok x) : x.2.scal = h.scal := by
  unfold LogHisto.bump at e
  obtain ⟨i, -, e⟩ := Res.bind_eq_ok.1 e
  obtain ⟨y, -, e⟩ := Res.bind_eq_ok.1 e
  obtain ⟨c, -, e⟩ := Res.bind_eq_ok.1 e
  cases e
  rfl

theorem logRunA_scal {A : LogHisto.Ar} : ∀ {ops : List LogHisto.OpA} {a a' : LogHisto.LA}, LogHisto.runA A a ops = .ok a' → a'.h.scal = a.h.scal
  | [], a, a', h => by cases h; rfl
  | o :: ops, a, a', h => by
    obtain ⟨a1, h1, h⟩ := Res.bind_eq_ok.1 (show (LogHisto.stepA A a o >>= fun a => LogHisto.runA A a ops) = .ok a' from h)
    refine (logRunA_scal h).trans ?_
    cases o with
    | add i d =>
      obtain ⟨x, hx, h1⟩ := Res.bind_eq_ok.1 (show (LogHisto.bump A { a.h with count := a.h.count + 1 } i >>= fun x => _) = .ok a1 from h1)
      obtain ⟨y, -, h1⟩ := Res.bind_eq_ok.1 h1
      obtain ⟨c, -, h1⟩ := Res.bind_eq_ok.1 h1
      cases h1
      have := logBump_scal hx
      exact this
    | reset =>
      obtain ⟨v, -, h1⟩ := Res.bind_eq_ok.1 (show (Histo.zeroUp 0 0 a.h.n a.val >>= fun v => _) = .ok a1 from h1)
      cases h1
      rfl

theorem logRunA_append (A : LogHisto.Ar) : ∀ (x y : List LogHisto.OpA) (a : LogHisto.LA), LogHisto.runA A a (x ++ y) = (LogHisto.runA A a x >>= fun a => LogHisto.runA A a y)
  | [], _, _ => rfl
  | o :: x, y, a => by
    show (LogHisto.stepA A a o >>= fun a => LogHisto.runA A a (x ++ y)) = ((LogHisto.stepA A a o >>= fun a => LogHisto.runA A a x) >>= fun a => LogHisto.runA A a y)
    cases LogHisto.stepA A a o with
    | ok g' => exact logRunA_append A x y g'
    | abort => rfl
    | ub => rfl

/-- C219. The same of logarithmic histograms with sums. -/
theorem another_logaccum_partial {b : Nat} (hb : 0 < b) (hb' : b < 2 ^ 32 - 1) {small high : ℝ} (hs : 0 < small) (hh : small < high) {a0 : LogHisto.LA}
    (a0e : LogHisto.newA LogHisto.exact b small high = .ok a0) (ops : List LogHisto.OpA) (hnear : ∀ i d, LogHisto.OpA.add i d ∈ ops → LogHisto.Near small high (2 * ((b + 1) / 2)) i ∨ i < high) :
    ∃ a a', LogHisto.runA LogHisto.exact a0 ops = .ok a ∧ logAccum LogHisto.exact a = .ok a' ∧ FreshL a.h a'.h ∧ a'.val = List.replicate a.h.n 0 ∧
      ∀ later, LogHisto.runA LogHisto.exact a' later = LogHisto.runA LogHisto.exact a0 (ops ++ .reset :: later) := by
  obtain ⟨a0', e0, hI0, n0, s0, g0⟩ := LogHisto.newA_ok hb hb' hs hh
  rw [a0e] at e0
  cases e0
  obtain ⟨a, e, hI, n1, -⟩ := LogHisto.runA_ok hI0 (by omega) ops (by rw [n0, s0, g0]; exact hnear)
  have hsc : a.h.scal = false := by
    rw [logRunA_scal e]
    unfold LogHisto.newA at a0e
    obtain ⟨h, e1, e2⟩ := Res.bind_eq_ok.1 a0e
    obtain ⟨v, -, e2⟩ := Res.bind_eq_ok.1 (show (Histo.zeroUp 0 0 h.n (List.replicate h.n (0 : ℝ)) >>= fun v => (pure ⟨LogHisto.reset h, v⟩ : Res LogHisto.LA)) = _ from e2)
    cases e2
    obtain ⟨h', e3, -, -, -, -, w⟩ := LogHisto.new_ok hb hb' hs hh false
    rw [e1] at e3
    cases e3
    exact w
  have hlen : a.val.length = a.h.n := by rw [hI.val]; simp
  have hz : ∀ (l : List ℝ), l.length = a.h.n → Histo.zeroUp 0 0 a.h.n l = .ok (List.replicate a.h.n 0) := by
    intro l hl
    obtain ⟨b', e, l', h1, -⟩ := Histo.zeroUp_ok a.h.n 0 l (by omega)
    rw [e]
    congr 1
    apply List.ext_getElem?
    intro i
    by_cases hi : i < a.h.n
    · rw [h1 i (by omega) (by omega), List.getElem?_replicate_of_lt hi]
    · rw [List.getElem?_eq_none (by omega), List.getElem?_eq_none (by simp; omega)]
  have hu : LogHisto.new LogHisto.exact a.h.n a.h.small a.h.high false = .ok (LogHisto.reset a.h) := by
    rw [log_eq hI.core.toShape (by omega) false, ← hsc]
    rfl
  refine ⟨a, ⟨LogHisto.reset a.h, List.replicate a.h.n 0⟩, e, ?_, ⟨rfl, rfl, rfl, rfl, rfl, rfl, rfl, rfl⟩, rfl, fun later => ?_⟩
  · unfold logAccum LogHisto.newA
    rw [hu, Res.bind_ok]
    unfold LogHisto.resetA
    rw [show (LogHisto.reset a.h).n = a.h.n from rfl, hz _ (by rw [List.length_replicate])]
    rfl
  · rw [logRunA_append, e]
    show _ = (LogHisto.resetA a >>= fun a => LogHisto.runA LogHisto.exact a later)
    unfold LogHisto.resetA
    rw [hz _ hlen]
    rfl

/-- The hypotheses of `another_logaccum_partial`. -/
example : ∃ a0, LogHisto.newA LogHisto.exact 3 1 16 = .ok a0 ∧ ∀ i d, LogHisto.OpA.add i d ∈ [LogHisto.OpA.add 2 7, .reset, .add 15 1] → LogHisto.Near 1 16 (2 * ((3 + 1) / 2)) i ∨ i < 16 := by
  obtain ⟨a0, e, -⟩ := LogHisto.newA_ok (b := 3) (by norm_num) (by norm_num) (small := 1) (high := 16) (by norm_num) (by norm_num)
  refine ⟨a0, e, fun i d h => Or.inr ?_⟩
  simp only [List.mem_cons, List.not_mem_nil, or_false, LogHisto.OpA.add.injEq, reduceCtorEq, false_or] at h
  rcases h with ⟨rfl, -⟩ | ⟨rfl, -⟩ <;> norm_num

/-! ## Series -/

theorem zeros_all (n : Nat) (l : List Rat) (h : l.length = n) : Series.zeros 0 n l = .ok (List.replicate n 0) := by
  obtain ⟨l', e, e1, e2⟩ := Series.zeros_ok n 0 l (by omega)
  rw [e]
  congr 1
  apply List.ext_getElem
  · rw [e1, h, List.length_replicate]
  · intro i h1 h2
    have := e2 i
    rw [List.length_replicate] at h2
    rw [if_pos ⟨Nat.zero_le _, by omega⟩] at this
    unfold PQ.g at this
    rw [List.getD_eq_getElem?_getD, List.getElem?_eq_getElem h1] at this
    rw [List.getElem_replicate]
    exact this

theorem reset_eq {s : Series.Ser} (l1 : s.samples.length = s.maxLag + 1) (l2 : s.product.length = s.maxLag + 1) (l3 : s.first.length = s.maxLag + 1) :
    Series.resetSer s = .ok ⟨s.maxLag, List.replicate (s.maxLag + 1) 0, List.replicate (s.maxLag + 1) 0, List.replicate (s.maxLag + 1) 0, 0, Stats.reset⟩ := by
  unfold Series.resetSer
  rw [zeros_all _ _ l1, Res.bind_ok, zeros_all _ _ l2, Res.bind_ok, zeros_all _ _ l3, Res.bind_ok]
  rfl

/-- C219. The same of series: same lag, no sample, and the arrays as after `reset`, whatever was in the memory. -/
theorem another_series_partial (x : Rat) {maxLag : Nat} (h0 : 0 < maxLag) (h1 : maxLag < 2 ^ 32 - 1) (ops : List Series.SerOp) (hb : ops.length < 2 ^ 32) (y : Rat) :
    ∃ s0 s s', Series.newSer x maxLag = .ok s0 ∧ Series.runSer id s0 ops = .ok s ∧ series y s = .ok s' ∧
      s' = ⟨maxLag, List.replicate (maxLag + 1) 0, List.replicate (maxLag + 1) 0, List.replicate (maxLag + 1) 0, 0, ⟨0, 0, 0, none, none⟩⟩ ∧
      ∀ later, Series.runSer id s' later = Series.runSer id s0 (ops ++ .reset :: later) := by
  obtain ⟨s0, e0, hI0, m0⟩ := Series.newSer_ok x h0 h1
  obtain ⟨s, e, hI, m1⟩ := Series.runSer_ok hI0 ops hb
  have hm := m1.trans m0
  refine ⟨s0, s, _, e0, e, ?_, rfl, fun later => ?_⟩
  · unfold series Series.newSer
    rw [hm, decide_eq_true h0, Res.require_true, Res.bind_ok, Nat.mod_eq_of_lt (by omega : maxLag + 1 < 2 ^ 32)]
    exact reset_eq (by simp) (by simp) (by simp)
  · rw [Series.runSer_append, e, Res.bind_ok]
    show _ = (Series.resetSer s >>= fun s => Series.runSer id s later)
    rw [reset_eq hI.l1 hI.l2 hI.l3, hm]
    rfl

example : (do let s0 ← Series.newSer 9 2; let s ← Series.runSer id s0 [.add 1, .add 5]; let s' ← series 7 s; pure (s.samples, s'.samples)) = .ok ([5, 1, 0], [0, 0, 0]) := by decide +kernel

/-! ## The other classes -/

/-- The class of an object. -/
def cls : Obj → Nat
  | .plain _ => 0
  | .uniform _ => 1
  | .uniformAccum _ => 2
  | .log _ => 3
  | .logAccum _ => 4
  | .series _ => 5
  | .sequence _ => 6
  | .quantile _ => 7
  | .group _ => 8

/-- C219. For histograms and series the new object is of the same class; a plain statistic has another, empty one. -/
theorem another_class (r : Rat → Rat) (A : LogHisto.Ar) (x : Rat) {o o' : Obj} (h : cls o < 6) (he : another r A x o = .ok o') : cls o' = cls o ∧ (∀ s, o = .plain s → o' = .plain ⟨0, 0, 0, none, none⟩) := by
  cases o with
  | plain s => cases he; exact ⟨rfl, fun _ _ => rfl⟩
  | uniform a =>
    obtain ⟨b, -, he⟩ := Res.bind_eq_ok.1 (show (uniform r a >>= fun h => Res.ok (Obj.uniform h)) = .ok o' from he)
    cases he; exact ⟨rfl, fun _ h => by cases h⟩
  | uniformAccum a =>
    obtain ⟨b, -, he⟩ := Res.bind_eq_ok.1 (show (uniformAccum r a >>= fun h => Res.ok (Obj.uniformAccum h)) = .ok o' from he)
    cases he; exact ⟨rfl, fun _ h => by cases h⟩
  | log a =>
    obtain ⟨b, -, he⟩ := Res.bind_eq_ok.1 (show (log A a >>= fun h => Res.ok (Obj.log h)) = .ok o' from he)
    cases he; exact ⟨rfl, fun _ h => by cases h⟩
  | logAccum a =>
    obtain ⟨b, -, he⟩ := Res.bind_eq_ok.1 (show (logAccum A a >>= fun h => Res.ok (Obj.logAccum h)) = .ok o' from he)
    cases he; exact ⟨rfl, fun _ h => by cases h⟩
  | series a =>
    obtain ⟨b, -, he⟩ := Res.bind_eq_ok.1 (show (series x a >>= fun h => Res.ok (Obj.series h)) = .ok o' from he)
    cases he; exact ⟨rfl, fun _ h => by cases h⟩
  | sequence q => exact absurd h (by show ¬6 < 6; decide)
  | quantile q => exact absurd h (by show ¬7 < 6; decide)
  | group q => exact absurd h (by show ¬8 < 6; decide)

example : ∃ o', another id LogHisto.exact 0 (.series ⟨1, [3, 4], [0, 0], [0, 0], 2, ⟨2, 7, 25, some 3, some 4⟩⟩) = .ok o' ∧ cls o' = 5 := ⟨_, rfl, rfl⟩

/-- C219. For a sequence, a quantile or a group of histograms the new object is a plain statistic: what made the class is lost. -/
theorem another_plain_false (r : Rat → Rat) (A : LogHisto.Ar) (x : Rat) (o : Obj) (h : 6 ≤ cls o) : ∃ o', another r A x o = .ok o' ∧ cls o' = 0 := by
  cases o with
  | sequence q => exact ⟨_, rfl, rfl⟩
  | quantile q => exact ⟨_, rfl, rfl⟩
  | group q => exact ⟨_, rfl, rfl⟩
  | plain => exact absurd h (by show ¬6 ≤ 0; decide)
  | uniform => exact absurd h (by show ¬6 ≤ 1; decide)
  | uniformAccum => exact absurd h (by show ¬6 ≤ 2; decide)
  | log => exact absurd h (by show ¬6 ≤ 3; decide)
  | logAccum => exact absurd h (by show ¬6 ≤ 4; decide)
  | series => exact absurd h (by show ¬6 ≤ 5; decide)

example : 6 ≤ cls (.sequence ⟨4, .sum, [1, 2], 0, 1, 1, ⟨2, 3, 5, some 1, some 2⟩⟩) := by show 6 ≤ 6; decide

end Verif.Another
