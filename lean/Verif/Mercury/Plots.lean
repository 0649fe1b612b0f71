import Verif.Mercury.Sql

/-!
# Model and properties of the list of plots of `mercury-plot` (C181; src/mercury-plot.in, lines 350-374, 1304-1480)
-/

namespace Verif.Mercury.Plots

/-! ## Model -/

/-- An entry of `@plots` (lines 1318-1326, 1429). -/
structure Plot where
  data : Option Text := none
  sql : Option Text := none
  title : Option Text := none
  how : Option Text := none
  axes : Option Text := none
  function : Option Text := none
  explicit : Option Text := none
deriving DecidableEq, Repr

/-- Used in the model of `mercury-plot.in:354-360` (`entry`). -/
def kAxes : Text := [' ', 'a', 'x', 'e', 's', ' ']
/-- Used in the model of `mercury-plot.in:354-360` (`entry`). -/
def kTitle : Text := ['t', 'i', 't', 'l', 'e', ' ', '"']
/-- Used in the model of `mercury-plot.in:354-360` (`entry`). -/
def kNotitle : Text := ['n', 'o', 't', 'i', 't', 'l', 'e']
/-- Used in the model of `mercury-plot.in:354-360` (`entry`). -/
def kWith : Text := [' ', 'w', 'i', 't', 'h', ' ']

/-- The block of the `map` in `refresh_plot` (lines 354-360): the new value of `$t`, which is also the text for the entry. `$t` is declared outside of the block. -/
def entry (t : Text) (p : Plot) : Text :=
  let t := match p.data with | some d => d ++ [' '] | none => t
  let t := match p.function with | some f => f ++ [' '] | none => t
  let t := match p.axes with | some a => t ++ kAxes ++ a ++ [' '] | none => t
  let t := t ++ (match p.title with | some x => kTitle ++ x ++ ['"'] | none => kNotitle)
  let t := match p.how with | some w => t ++ kWith ++ w | none => t
  match p.explicit with | some e => e | none => t

/-- `refresh_plot` (lines 352-360): the texts of the entries. -/
def refresh : Text → List Plot → List Text
  | _, [] => []
  | t, p :: ps => entry t p :: refresh (entry t p) ps

/-- An entry without anything, as perl makes it when it is used (`$plots[$i]->{..}`). Used in the model of `mercury-plot.in:1412-1480` (`step`). -/
def empty : Plot := {}

/-- `$plots[$i] = p`: entries up to it come into being. Used in the model of `mercury-plot.in:1412-1480` (`step`). -/
def put (l : List Plot) (i : Nat) (p : Plot) : List Plot :=
  if i < l.length then l.set i p else l ++ List.replicate (i - l.length) empty ++ [p]

/-- The number of an entry in a command: `_` or a number (lines 1452, 1466). -/
inductive Which where
  | last
  | num (n : Nat)
deriving DecidableEq, Repr

/-- The check of lines 1452-1453 and 1466-1467: `none` is the error. -/
def index (w : Which) (n : Nat) : Option Nat :=
  match w with
  | .last => if n = 0 then none else some (n - 1)
  | .num k => if k > n then none else some k

/-- The list and the default of `plotwith *`. Not a function of the code; stands for the uses of `mercury-plot.in:1318-1480`. -/
structure St where
  plots : List Plot
  how : Option Text

/-- Used in the model of `mercury-plot.in:1412-1480` (`step`). -/
inductive Cmd where
  /-- a plot of a query, a function or bars, as it is put at the end (lines 500, 710, 1429) -/
  | add (p : Plot)
  | unplot (n : Option Nat)
  | plotwith (w : Which) (how : Text)
  | plotwithAll (how : Text)
  | plottitle (w : Which) (title : Text)

/-- Used in the model of `mercury-plot.in:1412-1480` (`step`). -/
def kUndef : Text := ['u', 'n', 'd', 'e', 'f']

/-- The commands (lines 1412-1480). -/
def step (s : St) : Cmd → St
  | .add p => { s with plots := s.plots ++ [p] }
  | .unplot (some n) => { s with plots := s.plots.eraseIdx n }
  | .unplot none => { s with plots := [] }
  | .plotwith w how =>
    match index w s.plots.length with
    | none => s
    | some i => { s with plots := put s.plots i { (s.plots[i]?.getD empty) with how := some how } }
  | .plotwithAll how =>
    if how = kUndef then { s with how := none }
    else { plots := s.plots.map fun p => if p.how.isSome then p else { p with how := some how }, how := some how }
  | .plottitle w title =>
    match index w s.plots.length with
    | none => s
    | some i =>
      if title.contains '"' then s
      else { s with plots := put s.plots i { (s.plots[i]?.getD empty) with title := if title = kNotitle then none else some title } }

/-- Not a function of the code; stands for the uses of `mercury-plot.in:1412-1480`. -/
def run : St → List Cmd → St
  | s, [] => s
  | s, c :: cs => run (step s c) cs

/-- The loop of `replot` (lines 1307-1313); `query i sql`: the new entry that `sqlplot` puts at the end, `none` if it fails. -/
def replotLoop (query : Nat → Text → Option Plot) : Nat → List Plot → List Plot → List Plot
  | _, [], plots => plots
  | i, p :: ps, plots =>
    match p.sql with
    | none => replotLoop query (i + 1) ps plots
    | some sql =>
      let plots := match query i sql with | some f => plots ++ [f] | none => plots
      replotLoop query (i + 1) ps (put plots i { p with data := plots[i]?.bind Plot.data })

/-- `replot` (lines 1304-1315). -/
def replot (query : Nat → Text → Option Plot) (plots : List Plot) : List Plot := replotLoop query 0 plots []

/-! ## Specification -/

/-- There is something to draw. -/
def Plot.Drawable (p : Plot) : Prop := p.data.isSome = true ∨ p.function.isSome = true ∨ p.explicit.isSome = true

/-- How an entry is drawn: it depends on the entry only. -/
def Plot.desc (p : Plot) : Text :=
  match p.explicit with
  | some e => e
  | none =>
    (p.function.or p.data).getD [] ++ [' '] ++ (match p.axes with | some a => kAxes ++ a ++ [' '] | none => []) ++
      (match p.title with | some x => kTitle ++ x ++ ['"'] | none => kNotitle) ++ (match p.how with | some w => kWith ++ w | none => [])

/-- Entry `i` of `n` is the one meant. -/
def named (w : Which) (n i : Nat) : Bool :=
  match w with
  | .last => i + 1 == n
  | .num k => i == k

/-- The commands change the entries they name, those that are there. -/
def specStep (s : St) : Cmd → St
  | .add p => { s with plots := s.plots ++ [p] }
  | .unplot (some n) => { s with plots := s.plots.take n ++ s.plots.drop (n + 1) }
  | .unplot none => { s with plots := [] }
  | .plotwith w how => { s with plots := s.plots.mapIdx fun i p => if named w s.plots.length i then { p with how := some how } else p }
  | .plotwithAll how =>
    if how = kUndef then { s with how := none }
    else { plots := s.plots.map fun p => if p.how = none then { p with how := some how } else p, how := some how }
  | .plottitle w title =>
    if '"' ∈ title then s
    else { s with plots := s.plots.mapIdx fun i p => if named w s.plots.length i then { p with title := if title = kNotitle then none else some title } else p }

/-- Every added entry can be drawn, and no command names the entry after the last. -/
def Proper : St → List Cmd → Prop
  | _, [] => True
  | s, c :: cs =>
    (match c with
      | .add p => p.Drawable
      | .plotwith (.num n) _ => n ≠ s.plots.length
      | .plottitle (.num n) _ => n ≠ s.plots.length
      | _ => True) ∧ Proper (specStep s c) cs

def specRun : St → List Cmd → St
  | s, [] => s
  | s, c :: cs => specRun (specStep s c) cs

/-! ## Proofs -/

theorem entry_desc {p : Plot} (h : p.Drawable) (t : Text) : entry t p = p.desc := by
  unfold entry Plot.desc
  obtain ⟨d, q, ti, w, a, f, e⟩ := p
  unfold Plot.Drawable at h
  cases e with
  | some e => rfl
  | none =>
    cases f with
    | some f => cases a <;> cases ti <;> cases w <;> simp
    | none =>
      cases d with
      | none => simp at h
      | some d => cases a <;> cases ti <;> cases w <;> simp

/-- What is drawn for entries that can be drawn depends on each entry only. -/
theorem refresh_desc {ps : List Plot} (h : ∀ p ∈ ps, p.Drawable) (t : Text) : refresh t ps = ps.map Plot.desc := by
  induction ps generalizing t with
  | nil => rfl
  | cons p ps ih =>
    rw [refresh, entry_desc (h p (List.mem_cons_self ..)), ih (fun q hq => h q (List.mem_cons_of_mem _ hq))]
    rfl

theorem put_mapIdx (l : List Plot) (i : Nat) (f : Plot → Plot) (hi : i < l.length) :
    put l i (f (l[i]?.getD empty)) = l.mapIdx fun j p => if j = i then f p else p := by
  unfold put
  rw [if_pos hi]
  apply List.ext_getElem?
  intro j
  rw [List.getElem?_mapIdx, List.getElem?_set]
  by_cases hj : i = j
  · subst hj
    rw [if_pos rfl, if_pos hi]
    rw [List.getElem?_eq_getElem hi]
    simp
  · rw [if_neg hj]
    cases l[j]? with
    | none => rfl
    | some p => simp [Ne.symm hj]

theorem mapIdx_id (l : List Plot) (c : Nat → Prop) [DecidablePred c] (f : Plot → Plot) (h : ∀ i, i < l.length → ¬ c i) :
    (l.mapIdx fun j p => if c j then f p else p) = l := by
  apply List.ext_getElem?
  intro j
  rw [List.getElem?_mapIdx]
  by_cases hj : j < l.length
  · rw [List.getElem?_eq_getElem hj]
    simp [h j hj]
  · rw [List.getElem?_eq_none (by omega)]; rfl

theorem which_eq (s : St) (w : Which) (f : Plot → Plot) (hw : ∀ n, w = .num n → n ≠ s.plots.length) :
    (match index w s.plots.length with
      | none => s
      | some i => { s with plots := put s.plots i (f (s.plots[i]?.getD empty)) }) =
    { s with plots := s.plots.mapIdx fun i p => if named w s.plots.length i then f p else p } := by
  unfold index
  cases w with
  | last =>
    simp only []
    by_cases h : s.plots.length = 0
    · rw [if_pos h]
      have : s.plots = [] := List.length_eq_zero_iff.mp h
      cases s with
      | mk plots how => subst this; rfl
    · rw [if_neg h]
      simp only []
      rw [put_mapIdx _ _ _ (by omega)]
      congr 2
      funext i p
      by_cases hi : i + 1 = s.plots.length
      · rw [if_pos (by omega), if_pos (by simpa [named] using hi)]
      · rw [if_neg (by omega), if_neg (by simpa [named] using hi)]
  | num n =>
    simp only []
    have hn := hw n rfl
    by_cases h : n > s.plots.length
    · rw [if_pos h]
      simp only []
      rw [mapIdx_id s.plots (fun i => named (.num n) s.plots.length i = true) f (fun i hi => by simp only [named, beq_iff_eq]; omega)]
    · rw [if_neg h]
      simp only []
      rw [put_mapIdx _ _ _ (by omega)]
      simp [named]

theorem step_spec (s : St) (c : Cmd) (h : Proper s [c]) : step s c = specStep s c := by
  cases c with
  | add p => rfl
  | unplot n =>
    cases n with
    | none => rfl
    | some n =>
      show ({ s with plots := s.plots.eraseIdx n } : St) = { s with plots := s.plots.take n ++ s.plots.drop (n + 1) }
      rw [List.eraseIdx_eq_take_drop_succ]
  | plotwith w how =>
    refine which_eq s w (fun p => { p with how := some how }) ?_
    intro n hn
    subst hn
    exact h.1
  | plotwithAll how =>
    show (if how = kUndef then _ else _) = (if how = kUndef then _ else _)
    split
    · rfl
    · congr 1
      apply List.map_congr_left
      intro p _
      cases hp : p.how <;> simp
  | plottitle w title =>
    show (match index w s.plots.length with | none => s | some i => _) = (if '"' ∈ title then s else _)
    by_cases hq : '"' ∈ title
    · rw [if_pos hq]
      cases index w s.plots.length with
      | none => rfl
      | some i => exact if_pos (by simpa using hq)
    · rw [if_neg hq]
      have he := which_eq s w (fun p => { p with title := if title = kNotitle then none else some title }) (by intro n hn; subst hn; exact h.1)
      rw [← he]
      cases index w s.plots.length with
      | none => rfl
      | some i => exact if_neg (by simpa using hq)

theorem drawable_spec {s : St} {c : Cmd} (h : Proper s [c]) (hs : ∀ p ∈ s.plots, p.Drawable) : ∀ p ∈ (specStep s c).plots, p.Drawable := by
  have hmap : ∀ (g : Nat → Plot → Plot), (∀ i p, p.Drawable → (g i p).Drawable) → ∀ p ∈ s.plots.mapIdx g, p.Drawable := by
    intro g hg p hp
    obtain ⟨i, hi, rfl⟩ := List.mem_mapIdx.mp hp
    exact hg _ _ (hs _ (List.getElem_mem _))
  cases c with
  | add p =>
    intro q hq
    rcases List.mem_append.mp hq with hq | hq
    · exact hs q hq
    · rw [List.mem_singleton] at hq; subst hq; exact h.1
  | unplot n =>
    cases n with
    | none => intro q hq; cases hq
    | some n =>
      intro q hq
      rcases List.mem_append.mp hq with hq | hq
      · exact hs q (List.mem_of_mem_take hq)
      · exact hs q (List.mem_of_mem_drop hq)
  | plotwith w how =>
    refine hmap _ fun i p hp => ?_
    by_cases hc : named w s.plots.length i = true
    · rw [if_pos hc]; exact hp
    · rw [if_neg hc]; exact hp
  | plotwithAll how =>
    show ∀ p ∈ (if how = kUndef then ({ s with how := none } : St) else _).plots, p.Drawable
    split
    · exact hs
    · intro q hq
      obtain ⟨p, hp, rfl⟩ := List.mem_map.mp hq
      split
      · exact hs p hp
      · exact hs p hp
  | plottitle w title =>
    show ∀ p ∈ (if '"' ∈ title then s else _).plots, p.Drawable
    split
    · exact hs
    · refine hmap _ fun i p hp => ?_
      by_cases hc : named w s.plots.length i = true
      · rw [if_pos hc]; exact hp
      · rw [if_neg hc]; exact hp

/-- C181: after any commands in which no number of `plotwith` or `plottitle` is the number of entries, the list is as the commands say, numbers of entries that are not there change nothing, and every entry
is drawn by itself. -/
theorem plots_partial (cs : List Cmd) (s : St) (hs : ∀ p ∈ s.plots, p.Drawable) (h : Proper s cs) (t : Text) :
    run s cs = specRun s cs ∧ refresh t (run s cs).plots = (specRun s cs).plots.map Plot.desc := by
  induction cs generalizing s with
  | nil => exact ⟨rfl, refresh_desc hs t⟩
  | cons c cs ih =>
    have h1 : Proper s [c] := ⟨h.1, trivial⟩
    rw [run, specRun, step_spec s c h1]
    exact ih (specStep s c) (drawable_spec h1 hs) h.2

/-- C181 is false in general: `plotwith 1` with one plot makes a second entry without data, and the text of the first is drawn once more with two titles. -/
theorem plotwith_false :
    (run ⟨[{ data := some ['"', 'f', '"'], title := some ['t'] }], none⟩ [.plotwith (.num 1) ['l']]).plots.length = 2 ∧
    refresh [] (run ⟨[{ data := some ['"', 'f', '"'], title := some ['t'] }], none⟩ [.plotwith (.num 1) ['l']]).plots =
      ["\"f\" title \"t\"".toList, "\"f\" title \"t\"notitle with l".toList] := by decide +kernel

/-! ### `replot` -/

theorem replotLoop_eq (query : Nat → Text → Option Plot) (file : Nat → Text) (ps done : List Plot)
    (h : ∀ i p, ps[i]? = some p → ∃ sql f, p.sql = some sql ∧ query (done.length + i) sql = some f ∧ f.data = some (file (done.length + i))) :
    replotLoop query done.length ps done = done ++ ps.mapIdx fun i p => { p with data := some (file (done.length + i)) } := by
  induction ps generalizing done with
  | nil => simp [replotLoop]
  | cons p ps ih =>
    obtain ⟨sql, f, h1, h2, h3⟩ := h 0 p rfl
    rw [replotLoop, h1]
    simp only []
    rw [Nat.add_zero] at h2 h3
    rw [h2]
    simp only []
    have hput : put (done ++ [f]) done.length { p with data := (done ++ [f])[done.length]?.bind Plot.data } = done ++ [{ p with data := some (file done.length) }] := by
      unfold put
      rw [if_pos (by simp), List.getElem?_append_right (Nat.le_refl _), Nat.sub_self]
      simp [h3]
    rw [← h1, hput]
    have hl : (done ++ [{ p with data := some (file done.length) }]).length = done.length + 1 := by simp
    have := ih (done ++ [{ p with data := some (file done.length) }]) ?_
    · rw [hl] at this
      rw [this, List.mapIdx_cons, List.append_assoc]
      simp only [Nat.add_zero, List.singleton_append]
      congr 2
      congr 1
      funext i q
      rw [show done.length + 1 + i = done.length + (i + 1) by omega]
    · intro i q hq
      obtain ⟨sql, f, g1, g2, g3⟩ := h (i + 1) q hq
      rw [hl, show done.length + 1 + i = done.length + (i + 1) by omega]
      exact ⟨sql, f, g1, g2, g3⟩

/-- C181: `replot` of plots that all come from queries that succeed again keeps every entry with its title and style in its place, with the new data. -/
theorem replot_partial (query : Nat → Text → Option Plot) (file : Nat → Text) (ps : List Plot)
    (h : ∀ i p, ps[i]? = some p → ∃ sql f, p.sql = some sql ∧ query i sql = some f ∧ f.data = some (file i)) :
    replot query ps = ps.mapIdx fun i p => { p with data := some (file i) } := by
  have := replotLoop_eq query file ps [] (by simpa using h)
  simpa [replot] using this

/-- C181 is false in general: with the plot of a function first, `replot` loses the function, draws the query that comes after it with its first title, and the entry has no data. -/
theorem replot_function_false (q d t : Text) :
    replot (fun _ s => some { data := some d, sql := some s, title := some s }) [{ function := some ['x'], title := some ['x'] }, { data := some d, sql := some q, title := some t }] =
      [{ data := some d, sql := some q, title := some q }, { data := none, sql := some q, title := some t }] := by
  simp [replot, replotLoop, put, empty]

/-- C181 is false in general: if a query fails at `replot`, the entry stays without data and is drawn as a title only. -/
theorem replot_fail_false (q d : Text) :
    replot (fun _ _ => none) [{ data := some d, sql := some q, title := some ['t'] }] = [{ data := none, sql := some q, title := some ['t'] }] ∧
    refresh [] (replot (fun _ _ => none) [{ data := some d, sql := some q, title := some ['t'] }]) = [kTitle ++ ['t'] ++ ['"']] := by
  constructor
  · simp [replot, replotLoop, put, empty]
  · simp [replot, replotLoop, put, refresh, entry]

example : Proper ⟨[], none⟩ [.add { data := some ['d'], sql := some ['q'] }, .add { function := some ['x'] }, .plotwith .last ['l'], .plottitle (.num 0) ['u'], .unplot (some 0), .plotwith (.num 7) ['l']] :=
  ⟨.inl rfl, .inr (.inl rfl), trivial, (by decide), trivial, (by decide), trivial⟩

example : ∃ sql f, ({ data := some ['d'], sql := some ['q'] } : Plot).sql = some sql ∧ (fun (_ : Nat) s => some ({ data := some ['e'], sql := some s } : Plot)) 0 sql = some f ∧ f.data = some ['e'] :=
  ⟨_, _, rfl, rfl, rfl⟩

end Verif.Mercury.Plots
