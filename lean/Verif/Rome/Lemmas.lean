import Verif.Rome.Spec

/-!
# Lemmas on nested lists
-/

namespace Verif.Rome

open Verif

mutual

/-- The tokens of a list. -/
def flat : T → List Tok
  | .w s => [.word s]
  | .b l => .ob :: (flats l ++ [.cb])
  | .p l => .op :: (flats l ++ [.cp])

def flats : List T → List Tok
  | [] => []
  | t :: l => flat t ++ flats l

end

theorem flats_append (a b : List T) : flats (a ++ b) = flats a ++ flats b := by
  induction a with
  | nil => simp [flats]
  | cons t l ih => simp [flats, ih]

mutual

theorem parse_flat : ∀ (t : T) (ts : List Tok) (st : List (Bool × List T)) (cur : List T), parse (flat t ++ ts) st cur = parse ts st (t :: cur)
  | .w s, ts, st, cur => by rw [flat, List.singleton_append, parse]
  | .b l, ts, st, cur => by
    rw [flat, List.cons_append, parse, List.append_assoc, parse_flats l, List.singleton_append, parse]
    simp
  | .p l, ts, st, cur => by
    rw [flat, List.cons_append, parse, List.append_assoc, parse_flats l, List.singleton_append, parse]
    simp

theorem parse_flats : ∀ (l : List T) (ts : List Tok) (st : List (Bool × List T)) (cur : List T), parse (flats l ++ ts) st cur = parse ts st (l.reverse ++ cur)
  | [], ts, st, cur => by simp [flats]
  | t :: l, ts, st, cur => by
    rw [flats, List.append_assoc, parse_flat t, parse_flats l]
    simp

end

/-- The text `s` stands for the list `l`, whatever comes after. -/
def Tx (s : Txt) (l : List Tok) : Prop := ∀ u, toks (s ++ u) = l ++ toks u

theorem Tx.nil : Tx [] [] := fun _ => rfl

theorem Tx.app {s t : Txt} {l m : List Tok} (h : Tx s l) (k : Tx t m) : Tx (s ++ t) (l ++ m) := fun u => by
  rw [List.append_assoc, h, k, List.append_assoc]

theorem Tx.of {s : Txt} {l m : List Tok} (h : Tx s l) (e : l = m) : Tx s m := e ▸ h

theorem Tx.read {s : Txt} {l : List T} (h : Tx s (flats l)) : Rome.read s = some l := by
  have := h []
  rw [List.append_nil, show toks [] = [] from rfl] at this
  rw [Rome.read, this, parse_flats]
  simp [parse]

theorem Tx.sp (d : Nat) : Tx (sp d) [] := by
  intro u
  induction d with
  | zero => rfl
  | succ n ih =>
    rw [Rome.sp, List.replicate_succ, List.cons_append]
    exact ih

theorem toksFrom_lit (c : Char) (hc : delim c = true) (u : Txt) : ∀ (s w : Txt), toksFrom w (s ++ [c] ++ u) = toksFrom w (s ++ [c]) ++ toks u
  | [], w => by simp [toksFrom, hc, toks, flush]
  | x :: s, w => by
    simp only [List.cons_append, toksFrom]
    split
    · rw [toksFrom_lit c hc u s []]; simp
    · exact toksFrom_lit c hc u s _

/-- A literal that ends in a blank or a bracket. -/
theorem Tx.lit (s : Txt) (h : ∃ t c, s = t ++ [c] ∧ delim c = true) : Tx s (toks s) := by
  obtain ⟨t, c, rfl, hc⟩ := h
  exact fun u => toksFrom_lit c hc u t []

theorem toksFrom_word : ∀ (w v : Txt) (s : Txt), (∀ c ∈ w, delim c = false) → toksFrom v (w ++ s) = toksFrom (v ++ w) s
  | [], v, s, _ => by simp
  | c :: w, v, s, h => by
    rw [List.cons_append, toksFrom, if_neg (by rw [h c (by simp)]; simp), toksFrom_word w _ s fun x hx => h x (by simp [hx])]
    simp

/-- The text begins with a blank or a bracket. -/
def Begins (s : Txt) : Prop := ∃ c t, s = c :: t ∧ delim c = true

theorem Begins.app {s : Txt} (h : Begins s) (t : Txt) : Begins (s ++ t) := by
  obtain ⟨c, u, rfl, hc⟩ := h
  exact ⟨c, u ++ t, rfl, hc⟩

theorem Tx.word {w s : Txt} {l : List Tok} (hw : Word w) (hs : Begins s) (h : Tx s l) : Tx (w ++ s) (.word w :: l) := by
  intro u
  obtain ⟨c, t, rfl, hc⟩ := hs
  have h1 := h u
  unfold toks at *
  rw [List.append_assoc, toksFrom_word w [] _ hw.2, List.nil_append, List.cons_append, toksFrom, if_pos hc]
  rw [List.cons_append, toksFrom, if_pos hc] at h1
  have : flush w = [.word w] := by
    cases w with
    | nil => exact absurd rfl hw.1
    | cons _ _ => rfl
  rw [this]
  simpa [flush] using h1

/-- A name and its value. -/
def fld (name v : Txt) : T := .b [.w name, .w v]

theorem Tx.line {name v : Txt} (d : Nat) (hn : Word name) (hv : Word v) : Tx (line d name v) (flats [fld name v]) := by
  have h1 : Tx " }\n".toList [.cb] := Tx.lit _ ⟨" }".toList, '\n', rfl, rfl⟩
  have h2 := Tx.word hv ⟨' ', "}\n".toList, rfl, rfl⟩ h1
  have h3 : Tx " ".toList [] := Tx.lit _ ⟨[], ' ', rfl, rfl⟩
  have h4 := Tx.word hn (Begins.app (s := " ".toList) ⟨' ', [], rfl, rfl⟩ _) (h3.app h2)
  have h5 : Tx "{ ".toList [.ob] := Tx.lit _ ⟨"{".toList, ' ', rfl, rfl⟩
  have h6 := (Tx.sp d).app (h5.app h4)
  unfold Rome.line
  simp only [List.append_assoc]
  exact h6.of (by simp [flats, flat, fld])

theorem Tx.ite {s : Txt} {l : List T} (p : Prop) [Decidable p] (h : Tx s (flats l)) : Tx (if p then s else []) (flats (if p then l else [])) := by
  split
  · exact h
  · exact Tx.nil

/-- What `Stats::printRome` says. -/
def baseT (f : Fmt) (b : Base) : List T :=
  fld "count".toList (f.nat b.count) :: if 0 < b.count then [fld "min".toList (f.dbl b.min), fld "max".toList (f.dbl b.max), fld "mean".toList (f.dbl b.mean),
    fld "stddev".toList (f.dbl b.stddev), fld "variance".toList (f.dbl b.variance), fld "conf95".toList (f.dbl b.conf95), fld "total".toList (f.dbl b.total),
    fld "total_sq".toList (f.dbl b.totalSq)] else []

/-- A literal without blanks and brackets. -/
theorem word_lit (s : Txt) (h : (!s.isEmpty && s.all fun c => !delim c) = true) : Word s := by
  rw [Bool.and_eq_true, List.all_eq_true] at h
  refine ⟨fun e => by rw [e] at h; simp at h, fun c hc => by simpa using h.2 c hc⟩

theorem Tx.cast {s : Txt} {l m : List T} (h : Tx s (flats l)) (e : l = m) : Tx s (flats m) := e ▸ h

theorem Tx.apps {s t : Txt} {l m : List T} (h : Tx s (flats l)) (k : Tx t (flats m)) : Tx (s ++ t) (flats (l ++ m)) := by
  rw [flats_append]; exact h.app k

theorem Tx.base {f : Fmt} (hf : f.Ok) (d : Nat) (b : Base) : Tx (base f d b) (flats (baseT f b)) := by
  unfold Rome.base
  refine Tx.cast (Tx.apps (Tx.line d (word_lit _ rfl) (hf.nat _)) (Tx.ite _ (Tx.apps (Tx.apps (Tx.apps (Tx.apps (Tx.apps (Tx.apps (Tx.apps
    (Tx.line d (word_lit _ rfl) (hf.dbl _)) (Tx.line d (word_lit _ rfl) (hf.dbl _))) (Tx.line d (word_lit _ rfl) (hf.dbl _))) (Tx.line d (word_lit _ rfl) (hf.dbl _)))
    (Tx.line d (word_lit _ rfl) (hf.dbl _))) (Tx.line d (word_lit _ rfl) (hf.dbl _))) (Tx.line d (word_lit _ rfl) (hf.dbl _))) (Tx.line d (word_lit _ rfl) (hf.dbl _))))) ?_
  rfl

theorem Tx.cells (d per pad : Nat) {s : Txt} {m : List Tok} (hs : Begins s) (hm : Tx s m) : ∀ (l : List Txt) (j : Nat), (∀ x ∈ l, Word x) →
    Tx (cells d per pad j l ++ s) (flats (words l) ++ m) ∧ (0 < j → Begins (cells d per pad j l ++ s))
  | [], j, _ => ⟨hm, fun _ => hs⟩
  | x :: l, j, h => by
    obtain ⟨h1, h2⟩ := Tx.cells d per pad hs hm l (j + 1) fun y hy => h y (by simp [hy])
    have h3 := Tx.word (h x (by simp)) (h2 (by omega)) h1
    have h4 : Tx (if j % per = 0 ∧ 0 < j then "\n".toList ++ Rome.sp d ++ Rome.sp pad else if 0 < j then " ".toList else []) [] := by
      split
      · exact ((Tx.lit "\n".toList ⟨[], '\n', rfl, rfl⟩).app (Tx.sp d)).app (Tx.sp pad)
      · split
        · exact Tx.lit " ".toList ⟨[], ' ', rfl, rfl⟩
        · exact Tx.nil
    refine ⟨?_, fun hj => ?_⟩
    · have := h4.app h3
      rw [Rome.cells, List.append_assoc, List.append_assoc]
      exact this.of (by simp [words, flats, flat])
    · rw [Rome.cells]
      split
      · exact ⟨'\n', _, rfl, rfl⟩
      · exact ⟨' ', _, rfl, rfl⟩

theorem words_map {α : Type} (g : α → Txt) (h : ∀ a, Word (g a)) (l : List α) : ∀ x ∈ l.map g, Word x := fun x hx => by
  obtain ⟨a, _, rfl⟩ := List.mem_map.1 hx
  exact h a

/-- What is said of a number only if it is positive. -/
def positiveT (f : Fmt) (name : Txt) (n : Nat) : List T := if 0 < n then [fld name (f.nat n)] else []

theorem Tx.positive {f : Fmt} (hf : f.Ok) (d : Nat) {name : Txt} (hn : Word name) (n : Nat) : Tx (positive f d name n) (flats (positiveT f name n)) :=
  Tx.ite _ (Tx.line d hn (hf.nat n))

/-- The beginning of a histogram. -/
def headT (f : Fmt) (kind : Txt) (h : Hist) : List T :=
  [fld "type".toList kind, fld "low".toList (f.dbl h.low), fld "high".toList (f.dbl h.high), fld "bins".toList (f.nat h.counts.length)]

def countsT (f : Fmt) (h : Hist) : T := .b [.w "binCounts".toList, .p (words (h.counts.map f.nat))]

def meansT (r : Rat → Rat) (f : Fmt) (h : Hist) : T := .b [.w "binMeans".toList, .p (words ((h.vals.zip h.counts).map fun p => f.dbl (binMean r p.1 p.2)))]

theorem Tx.head {f : Fmt} (hf : f.Ok) (d : Nat) {kind : Txt} (hk : Word kind) (b : Base) (h : Hist) :
    Tx (histHead f d kind b h) (flats (baseT f b) ++ [.ob, .word "histogram".toList, .ob] ++ flats (headT f kind h)) := by
  unfold histHead
  refine Tx.of (Tx.app (Tx.app (Tx.app (Tx.app (Tx.app (Tx.app (Tx.base hf d b) (Tx.sp d)) (Tx.lit _ ⟨"{ histogram {".toList, '\n', rfl, rfl⟩)) (Tx.line _ (word_lit _ rfl) hk))
    (Tx.line _ (word_lit _ rfl) (hf.dbl _))) (Tx.line _ (word_lit _ rfl) (hf.dbl _))) (Tx.line _ (word_lit _ rfl) (hf.nat _))) ?_
  rw [show toks "{ histogram {\n".toList = [.ob, .word "histogram".toList, .ob] from rfl]
  simp [headT, flats, flat, fld]

theorem Tx.counts {f : Fmt} (hf : f.Ok) (d : Nat) (h : Hist) {s : Txt} {m : List Tok} (hs : Begins s) (hm : Tx s m) :
    Tx (countCells f d h ++ s) ([.ob, .word "binCounts".toList, .op] ++ flats (words (h.counts.map f.nat)) ++ m) := by
  unfold countCells
  rw [List.append_assoc, List.append_assoc]
  refine Tx.of (Tx.app (Tx.sp d) (Tx.app (Tx.lit _ ⟨"  { binCounts ".toList, '(', rfl, rfl⟩) (Tx.cells d 10 15 hs hm _ 0 (words_map _ hf.nat _)).1)) ?_
  rw [show toks "  { binCounts (".toList = [.ob, .word "binCounts".toList, .op] from rfl]
  simp

theorem Tx.means (r : Rat → Rat) {f : Fmt} (hf : f.Ok) (d : Nat) (h : Hist) {s : Txt} {m : List Tok} (hs : Begins s) (hm : Tx s m) :
    Tx (meanCells r f d h ++ s) ([.ob, .word "binMeans".toList, .op] ++ flats (words ((h.vals.zip h.counts).map fun p => f.dbl (binMean r p.1 p.2))) ++ m) := by
  unfold meanCells
  rw [List.append_assoc, List.append_assoc]
  refine Tx.of (Tx.app (Tx.sp d) (Tx.app (Tx.lit _ ⟨"  { binMeans ".toList, '(', rfl, rfl⟩) (Tx.cells d 5 14 hs hm _ 0 (words_map _ (fun _ => hf.dbl _) _)).1)) ?_
  rw [show toks "  { binMeans (".toList = [.ob, .word "binMeans".toList, .op] from rfl]
  simp

/-- What is said of the four kinds of histograms. -/
def uniformT (f : Fmt) (b : Base) (h : Hist) : List T :=
  baseT f b ++ [.b [.w "histogram".toList, .b (headT f "uniform".toList h ++ [fld "binwidth".toList (f.dbl h.width)] ++ positiveT f "rescales".toList h.rescales ++
    positiveT f "grows".toList h.grows ++ [countsT f h])]]

def logT (f : Fmt) (b : Base) (h : Hist) : List T := baseT f b ++ [.b [.w "histogram".toList, .b (headT f "log".toList h ++ [countsT f h])]]

def uniformAccumT (r : Rat → Rat) (f : Fmt) (b : Base) (h : Hist) : List T :=
  baseT f b ++ [.b [.w "histogram".toList, .b (headT f "uniformAccum".toList h ++ positiveT f "rescales".toList h.rescales ++ positiveT f "grows".toList h.grows ++
    [countsT f h, meansT r f h])]]

def logAccumT (r : Rat → Rat) (f : Fmt) (b : Base) (h : Hist) : List T :=
  baseT f b ++ [.b [.w "histogram".toList, .b (headT f "logAccum".toList h ++ [countsT f h, meansT r f h])]]

theorem tx_close3 : Tx " ) } } }\n".toList [.cp, .cb, .cb, .cb] := Tx.lit _ ⟨" ) } } }".toList, '\n', rfl, rfl⟩

theorem tx_close3' : Tx " ) } } } \n".toList [.cp, .cb, .cb, .cb] := Tx.lit _ ⟨" ) } } } ".toList, '\n', rfl, rfl⟩

theorem tx_close2 : Tx ")}\n".toList [.cp, .cb] := Tx.lit _ ⟨")}".toList, '\n', rfl, rfl⟩

theorem Tx.uniform {f : Fmt} (hf : f.Ok) (d : Nat) (b : Base) (h : Hist) : Tx (uniformText f d b h) (flats (uniformT f b h)) := by
  unfold uniformText
  rw [List.append_assoc _ (countCells f d h)]
  refine Tx.of (Tx.app (Tx.app (Tx.app (Tx.app (Tx.head hf d (word_lit _ rfl) b h) (Tx.line _ (word_lit _ rfl) (hf.dbl _))) (Tx.positive hf _ (word_lit _ rfl) _))
    (Tx.positive hf _ (word_lit _ rfl) _)) (Tx.counts hf d h ⟨' ', _, rfl, rfl⟩ tx_close3)) ?_
  simp [uniformT, flats, flat, flats_append, countsT]

theorem Tx.log {f : Fmt} (hf : f.Ok) (d : Nat) (b : Base) (h : Hist) : Tx (logText f d b h) (flats (logT f b h)) := by
  unfold logText
  rw [List.append_assoc]
  refine Tx.of (Tx.app (Tx.head hf d (word_lit _ rfl) b h) (Tx.counts hf d h ⟨' ', _, rfl, rfl⟩ tx_close3)) ?_
  simp [logT, flats, flat, flats_append, countsT]

theorem Tx.uniformAccum (r : Rat → Rat) {f : Fmt} (hf : f.Ok) (d : Nat) (b : Base) (h : Hist) : Tx (uniformAccumText r f d b h) (flats (uniformAccumT r f b h)) := by
  unfold uniformAccumText
  rw [List.append_assoc _ (meanCells r f d h), List.append_assoc _ (countCells f d h)]
  refine Tx.of (Tx.app (Tx.app (Tx.app (Tx.app (Tx.head hf d (word_lit _ rfl) b h) (Tx.positive hf _ (word_lit _ rfl) _)) (Tx.positive hf _ (word_lit _ rfl) _))
    (Tx.counts hf d h ⟨')', _, rfl, rfl⟩ tx_close2)) (Tx.means r hf d h ⟨' ', _, rfl, rfl⟩ tx_close3)) ?_
  simp [uniformAccumT, flats, flat, flats_append, countsT, meansT]

theorem Tx.logAccum (r : Rat → Rat) {f : Fmt} (hf : f.Ok) (d : Nat) (b : Base) (h : Hist) : Tx (logAccumText r f d b h) (flats (logAccumT r f b h)) := by
  unfold logAccumText
  rw [List.append_assoc _ (meanCells r f d h), List.append_assoc _ (countCells f d h)]
  refine Tx.of (Tx.app (Tx.app (Tx.head hf d (word_lit _ rfl) b h) (Tx.counts hf d h ⟨')', _, rfl, rfl⟩ tx_close2)) (Tx.means r hf d h ⟨' ', _, rfl, rfl⟩ tx_close3')) ?_
  simp [logAccumT, flats, flat, flats_append, countsT, meansT]

/-- The values of a sequence that are printed. -/
def printed (r : Rat → Rat) (s : Series.Q) : List Rat := s.values ++ if hasExtra s then [extraValue r s] else []

theorem Tx.values {f : Fmt} (hf : f.Ok) (r : Rat → Rat) (q : Series.Q) {s : Txt} {m : List Tok} (hs : Begins s) (hm : Tx s m) :
    Tx (valueCells f q.values ++ ((if hasExtra q then f.dbl (.q (extraValue r q)) else []) ++ s)) (flats (words ((printed r q).map fun v => f.dbl (.q v))) ++ m) := by
  have h0 : Tx ((if hasExtra q then f.dbl (.q (extraValue r q)) else []) ++ s) (flats (words ((if hasExtra q then [extraValue r q] else []).map fun v => f.dbl (.q v))) ++ m) := by
    split
    · exact (Tx.word (hf.dbl _) hs hm).of (by simp [words, flats, flat])
    · exact hm
  have : ∀ l : List Rat, Tx (valueCells f l ++ ((if hasExtra q then f.dbl (.q (extraValue r q)) else []) ++ s))
      (flats (words ((l ++ if hasExtra q then [extraValue r q] else []).map fun v => f.dbl (.q v))) ++ m) := by
    intro l
    induction l with
    | nil => exact h0
    | cons v l ih =>
      rw [valueCells, List.append_assoc, List.append_assoc]
      have h3 : Tx " ".toList [] := Tx.lit _ ⟨[], ' ', rfl, rfl⟩
      exact (Tx.word (hf.dbl (.q v)) (Begins.app (s := " ".toList) ⟨' ', [], rfl, rfl⟩ _) (h3.app ih)).of (by simp [words, flats, flat])
  exact this _

def sequenceT (r : Rat → Rat) (f : Fmt) (b : Base) (width : Rat) (s : Series.Q) (n : Nat) : List T :=
  baseT f b ++ [.b [.w "sequence".toList, .b [fld "intervalWidth".toList (f.dbl (.q (r (width * s.per)))), fld "numRescales".toList (f.nat n),
    .b [.w "values".toList, .p (words ((printed r s).map fun v => f.dbl (.q v)))]]]]

theorem rescaleLoop_ok (j : Nat) (hj : j < 31) : ∀ (k fuel : Nat), k ≤ j → j - k < fuel → rescaleLoop (2 ^ j) fuel (2 ^ k) k = .ok j := by
  intro k fuel
  induction fuel generalizing k with
  | zero => omega
  | succ n ih =>
    intro h1 h2
    rw [rescaleLoop]
    by_cases h : k < j
    · rw [if_pos (Nat.pow_lt_pow_right (by decide) h), ← Nat.pow_succ', if_neg (by
        rw [Nat.not_le]; exact Nat.pow_lt_pow_right (by decide) (by omega)), ih (k + 1) (by omega) (by omega)]
    · have : k = j := by omega
      rw [this, if_neg (Nat.lt_irrefl _)]

theorem Tx.sequence (r : Rat → Rat) {f : Fmt} (hf : f.Ok) (d : Nat) (b : Base) (w : Rat) (s : Series.Q) {j : Nat} (hj : j < 31) (hs : s.per = 2 ^ j) :
    ∃ t, sequenceText r f d b w s = .ok t ∧ Tx t (flats (sequenceT r f b w s j)) := by
  have := rescaleLoop_ok j hj 0 32 (by omega) (by omega)
  unfold sequenceText
  rw [hs, show rescaleLoop (2 ^ j) 32 1 0 = .ok j from this, Res.bind_ok]
  refine ⟨_, rfl, ?_⟩
  simp only [List.append_assoc]
  have h1 := Tx.values hf r s (s := ")}\n".toList ++ (Rome.sp d ++ "}}\n".toList)) ⟨')', _, rfl, rfl⟩
    (tx_close2.app ((Tx.sp d).app (Tx.lit "}}\n".toList ⟨"}}".toList, '\n', rfl, rfl⟩)))
  have h2 := (Tx.lit "  { values (".toList ⟨"  { values ".toList, '(', rfl, rfl⟩).app h1
  have h3 := Tx.line (d + 2) (word_lit "intervalWidth".toList rfl) (hf.dbl (.q (r (w * ((2 ^ j : Nat) : Rat)))))
  have h4 := Tx.line (d + 2) (word_lit "numRescales".toList rfl) (hf.nat j)
  have h5 := (Tx.lit "{ sequence {\n".toList ⟨"{ sequence {".toList, '\n', rfl, rfl⟩).app (h3.app (h4.app ((Tx.sp d).app h2)))
  refine ((Tx.base hf d b).app ((Tx.sp d).app h5)).of ?_
  rw [show toks "  { values (".toList = [.ob, .word "values".toList, .op] from rfl, show toks "{ sequence {\n".toList = [.ob, .word "sequence".toList, .ob] from rfl,
    show toks "}}\n".toList = [.cb, .cb] from rfl, sequenceT, hs]
  simp [flats, flat, flats_append, fld]

def quantileT (f : Fmt) (b : Base) (rows : List (Num × Num)) : List T :=
  baseT f b ++ if 0 < b.count then [.b [.w "quantiles".toList, .p (rows.map fun x => .b (words [f.dbl x.1, f.dbl x.2]))]] else []

theorem Tx.rows {f : Fmt} (hf : f.Ok) (d : Nat) (rows : List (Num × Num)) : Tx (rowCells f d rows) (flats (rows.map fun x => .b (words [f.dbl x.1, f.dbl x.2]))) := by
  induction rows with
  | nil => exact Tx.nil
  | cons x l ih =>
    have := Tx.line (d + 2) (hf.dbl x.1) (hf.dbl x.2)
    have h : Rome.sp d ++ "  { ".toList ++ f.dbl x.1 ++ " ".toList ++ f.dbl x.2 ++ " }\n".toList = Rome.line (d + 2) (f.dbl x.1) (f.dbl x.2) := by
      have : Rome.sp (d + 2) = Rome.sp d ++ [' ', ' '] := by rw [Rome.sp, List.replicate_add]; rfl
      rw [Rome.line, this]
      simp
    rw [rowCells, h, List.map_cons]
    exact (this.app ih).of (by simp [flats, flat, fld, words])

theorem Tx.quantile {f : Fmt} (hf : f.Ok) (d : Nat) (b : Base) (rows : List (Num × Num)) : Tx (quantileText f d b rows) (flats (quantileT f b rows)) := by
  unfold quantileText quantileT
  refine Tx.apps (Tx.base hf d b) (Tx.ite _ ?_)
  refine Tx.of (Tx.app (Tx.app (Tx.app (Tx.app (Tx.sp d) (Tx.lit "{ quantiles (\n".toList ⟨"{ quantiles (".toList, '\n', rfl, rfl⟩)) (Tx.rows hf d rows)) (Tx.sp d))
    (Tx.lit ") }\n".toList ⟨") }".toList, '\n', rfl, rfl⟩)) ?_
  rw [show toks "{ quantiles (\n".toList = [.ob, .word "quantiles".toList, .op] from rfl, show toks ") }\n".toList = [.cp, .cb] from rfl]
  simp [flats, flat]

mutual

/-- What is said of a statistic. -/
def stat (r : Rat → Rat) (f : Fmt) : Stat → List T
  | .plain b => baseT f b
  | .uniform b h => uniformT f b h
  | .log b h => logT f b h
  | .uniformAccum b h => uniformAccumT r f b h
  | .logAccum b h => logAccumT r f b h
  | .sequence b w s => sequenceT r f b w s (Nat.log2 s.per)
  | .quantile b rows => quantileT f b rows
  | .hgroup b low high hs => baseT f b ++ [.b [.w "histogramGroup".toList, .b [.b [.w "low".toList, .b (baseT f low)], .b [.w "high".toList, .b (baseT f high)],
      .b [.w "histograms".toList, .p ((hists r f hs).map T.b)]]]]
  | .series b interval first last parts => baseT f b ++ [fld "seriesInterval".toList (f.dbl (.q interval)), fld "seriesStart".toList (f.dbl (time first)),
      fld "seriesEnd".toList (f.dbl (time last)), .b [.w "series".toList, .p ((partsT r f interval first parts 0).map T.b)]]

def hists (r : Rat → Rat) (f : Fmt) : List Stat → List (List T)
  | [] => []
  | s :: l => stat r f s :: hists r f l

def partsT (r : Rat → Rat) (f : Fmt) (interval : Rat) (first : Option Rat) : List (Option Stat) → Nat → List (List T)
  | [], _ => []
  | o :: l, i => (partT r f o ++ [fld "interval_start".toList (f.dbl (startOf r interval first i))]) :: partsT r f interval first l (i + 1)

def partT (r : Rat → Rat) (f : Fmt) : Option Stat → List T
  | some s => stat r f s
  | none => [fld "count".toList "0".toList]

end

mutual

theorem render_ok (r : Rat → Rat) {f : Fmt} (hf : f.Ok) : ∀ (s : Stat) (d : Nat), Good s → ∃ t, render r f s d = .ok t ∧ Tx t (flats (stat r f s))
  | .plain b, d, _ => ⟨_, by rw [render], by rw [stat]; exact Tx.base hf d b⟩
  | .uniform b h, d, _ => ⟨_, by rw [render], by rw [stat]; exact Tx.uniform hf d b h⟩
  | .log b h, d, _ => ⟨_, by rw [render], by rw [stat]; exact Tx.log hf d b h⟩
  | .uniformAccum b h, d, _ => ⟨_, by rw [render], by rw [stat]; exact Tx.uniformAccum r hf d b h⟩
  | .logAccum b h, d, _ => ⟨_, by rw [render], by rw [stat]; exact Tx.logAccum r hf d b h⟩
  | .sequence b w s, d, hg => by
    rw [Good] at hg
    obtain ⟨j, hj, hs⟩ := hg
    obtain ⟨t, h1, h2⟩ := Tx.sequence r hf d b w s hj hs
    refine ⟨t, by rw [render, h1], ?_⟩
    rw [stat, hs, Nat.log2_two_pow]
    exact h2
  | .quantile b rows, d, _ => ⟨_, by rw [render], by rw [stat]; exact Tx.quantile hf d b rows⟩
  | .hgroup b low high hs, d, hg => by
    rw [Good] at hg
    obtain ⟨t, h1, h2⟩ := renderHists_ok r hf hs d hg
    refine ⟨_, by rw [render, h1, Res.bind_ok]; rfl, ?_⟩
    rw [stat]
    refine Tx.of (Tx.app (Tx.app (Tx.app (Tx.app (Tx.app (Tx.app (Tx.app (Tx.app (Tx.app (Tx.app (Tx.app (Tx.app (Tx.app (Tx.app (Tx.app (Tx.app (Tx.app (Tx.base hf d b) (Tx.sp d))
      (Tx.lit "{ histogramGroup {\n".toList ⟨"{ histogramGroup {".toList, '\n', rfl, rfl⟩)) (Tx.sp d)) (Tx.lit "  { low {\n".toList ⟨"  { low {".toList, '\n', rfl, rfl⟩))
      (Tx.base hf _ low)) (Tx.sp d)) (Tx.lit "  }}\n".toList ⟨"  }}".toList, '\n', rfl, rfl⟩)) (Tx.sp d)) (Tx.lit "  { high {\n".toList ⟨"  { high {".toList, '\n', rfl, rfl⟩))
      (Tx.base hf _ high)) (Tx.sp d)) (Tx.lit "  }}\n".toList ⟨"  }}".toList, '\n', rfl, rfl⟩)) (Tx.sp d))
      (Tx.lit "  { histograms (\n".toList ⟨"  { histograms (".toList, '\n', rfl, rfl⟩)) h2) (Tx.sp d)) tx_close3) ?_
    rw [show toks "{ histogramGroup {\n".toList = [.ob, .word "histogramGroup".toList, .ob] from rfl, show toks "  { low {\n".toList = [.ob, .word "low".toList, .ob] from rfl,
      show toks "  { high {\n".toList = [.ob, .word "high".toList, .ob] from rfl, show toks "  }}\n".toList = [.cb, .cb] from rfl,
      show toks "  { histograms (\n".toList = [.ob, .word "histograms".toList, .op] from rfl]
    simp [flats, flat, flats_append]
  | .series b interval first last parts, d, hg => by
    rw [Good] at hg
    obtain ⟨t, h1, h2⟩ := renderParts_ok r hf interval first parts d 0 hg
    refine ⟨_, by rw [render, h1, Res.bind_ok]; rfl, ?_⟩
    rw [stat]
    refine Tx.of (Tx.app (Tx.app (Tx.app (Tx.app (Tx.app (Tx.app (Tx.app (Tx.app (Tx.base hf d b) (Tx.line d (word_lit _ rfl) (hf.dbl _))) (Tx.line d (word_lit _ rfl) (hf.dbl _)))
      (Tx.line d (word_lit _ rfl) (hf.dbl _))) (Tx.sp d)) (Tx.lit "{ series (\n".toList ⟨"{ series (".toList, '\n', rfl, rfl⟩)) h2) (Tx.sp d)) tx_close2) ?_
    rw [show toks "{ series (\n".toList = [.ob, .word "series".toList, .op] from rfl]
    simp [flats, flat, flats_append]

theorem renderHists_ok (r : Rat → Rat) {f : Fmt} (hf : f.Ok) : ∀ (l : List Stat) (d : Nat), GoodHists l → ∃ t, renderHists r f l d = .ok t ∧ Tx t (flats ((hists r f l).map T.b))
  | [], d, _ => ⟨[], by rw [renderHists], by rw [hists]; exact Tx.nil⟩
  | s :: l, d, hg => by
    rw [GoodHists] at hg
    obtain ⟨t, h1, h2⟩ := render_ok r hf s (d + 6) hg.1
    obtain ⟨u, h3, h4⟩ := renderHists_ok r hf l d hg.2
    refine ⟨_, by rw [renderHists, h1, Res.bind_ok, h3, Res.bind_ok]; rfl, ?_⟩
    rw [hists]
    refine Tx.of (Tx.app (Tx.app (Tx.app (Tx.app (Tx.app (Tx.sp d) (Tx.lit "    {\n".toList ⟨"    {".toList, '\n', rfl, rfl⟩)) h2) (Tx.sp d))
      (Tx.lit "    }\n".toList ⟨"    }".toList, '\n', rfl, rfl⟩)) h4) ?_
    rw [show toks "    {\n".toList = [.ob] from rfl, show toks "    }\n".toList = [.cb] from rfl]
    simp [flats, flat]

theorem renderParts_ok (r : Rat → Rat) {f : Fmt} (hf : f.Ok) (interval : Rat) (first : Option Rat) : ∀ (l : List (Option Stat)) (d i : Nat), GoodParts l →
    ∃ t, renderParts r f interval first l d i = .ok t ∧ Tx t (flats ((partsT r f interval first l i).map T.b))
  | [], d, i, _ => ⟨[], by rw [renderParts], by rw [partsT]; exact Tx.nil⟩
  | o :: l, d, i, hg => by
    rw [GoodParts] at hg
    obtain ⟨t, h1, h2⟩ := renderPart_ok r hf o d hg.1
    obtain ⟨u, h3, h4⟩ := renderParts_ok r hf interval first l d (i + 1) hg.2
    refine ⟨_, by rw [renderParts, h1, Res.bind_ok, h3, Res.bind_ok]; rfl, ?_⟩
    rw [partsT]
    refine Tx.of (Tx.app (Tx.app (Tx.app (Tx.app (Tx.app (Tx.app (Tx.sp d) (Tx.lit "  {\n".toList ⟨"  {".toList, '\n', rfl, rfl⟩)) h2) (Tx.line _ (word_lit _ rfl) (hf.dbl _))) (Tx.sp d))
      (Tx.lit "  }\n".toList ⟨"  }".toList, '\n', rfl, rfl⟩)) h4) ?_
    rw [show toks "  {\n".toList = [.ob] from rfl, show toks "  }\n".toList = [.cb] from rfl]
    simp [flats, flat, flats_append]

theorem renderPart_ok (r : Rat → Rat) {f : Fmt} (hf : f.Ok) : ∀ (o : Option Stat) (d : Nat), GoodPart o → ∃ t, renderPart r f o d = .ok t ∧ Tx t (flats (partT r f o))
  | some s, d, hg => by
    rw [GoodPart] at hg
    obtain ⟨t, h1, h2⟩ := render_ok r hf s (d + 4) hg
    exact ⟨t, by rw [renderPart, h1], by rw [partT]; exact h2⟩
  | none, d, _ => ⟨_, by rw [renderPart], by rw [partT]; exact Tx.line _ (word_lit _ rfl) (word_lit _ rfl)⟩

end

end Verif.Rome
