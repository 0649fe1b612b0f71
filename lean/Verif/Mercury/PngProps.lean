import Verif.Mercury.Png

/-! # C244: psplot and pngplot -/

namespace Verif.Mercury.Png

/-! ## Specification -/

/-- The state of gnuplot: where the output goes, the terminal (`none` is the usual one), and what has been drawn. -/
structure Gnuplot where
  output : Option Text
  terminal : Option (Text × Bool × Text)
  drawn : List (Option Text × Option (Text × Bool × Text))

/-- What gnuplot does with a command. -/
def Gnuplot.does (g : Gnuplot) : Cmd → Gnuplot
  | .setOutput f => { g with output := f }
  | .terminalPs m c s => { g with terminal := some (m, c, s) }
  | .terminalBack => { g with terminal := none }
  | .replot => { g with drawn := g.drawn ++ [(g.output, g.terminal)] }

/-- The three documented modes. -/
def modes : List Text := [['e', 'p', 's'], ['p', 'o', 'r', 't', 'r', 'a', 'i', 't'], ['l', 'a', 'n', 'd', 's', 'c', 'a', 'p', 'e']]

/-- A number as it is written. -/
def Number (t : Text) : Prop := t ≠ [] ∧ ∀ c ∈ t, c.isDigit = true

/-- Everything went well and the pictures are large enough for the size asked for. -/
def Good (savePs : Bool) (w h : Nat) (e : Env) : Prop :=
  e.psOk = true ∧ e.toPnmOk = true ∧ (∃ n, e.ppm1 = some n ∧ 2 * w * (2 * h) * 3 ≤ n) ∧ e.ppm2 = false ∧ e.scaleOk = true ∧ e.toPngOk = true ∧ 1000 ≤ e.png ∧ (savePs = true → e.renameOk = true)

/-! ## Lemmas -/

theorem digits_iff (t : Text) : digits t = true ↔ Number t := by
  cases t with
  | nil => simp [digits, Number]
  | cons c t => simp [digits, Number]

theorem second_size (w h n : Nat) (hn : ¬ n < w * 2 * (h * 2) * 3) : ¬ n < w * h * 3 := by
  have : w * 2 * (h * 2) = 4 * (w * h) := by
    rw [Nat.mul_mul_mul_comm, Nat.mul_comm]
  rw [this] at hn
  omega

theorem size_eq (w h : Nat) : w * 2 * (h * 2) * 3 = 2 * w * (2 * h) * 3 := by rw [Nat.mul_comm w 2, Nat.mul_comm h 2]

theorem png_ok_iff (savePs : Bool) (w h : Nat) (e : Env) : (pngplot savePs w h e).ok = true ↔ Good savePs w h e := by
  obtain ⟨a, b, c, d, s, sz, t, p, r⟩ := e
  simp only [pngplot, Good]
  cases a
  · simp
  cases b
  · simp
  cases c with
  | none => simp
  | some n =>
    by_cases hn : n < w * 2 * (h * 2) * 3
    · have : ¬ 2 * w * (2 * h) * 3 ≤ n := by rw [← size_eq]; omega
      simp [hn, this]
    · have h2 := second_size w h n hn
      have : 2 * w * (2 * h) * 3 ≤ n := by rw [← size_eq]; omega
      cases d
      · cases s
        · simp [hn]
        cases t
        · simp [hn, h2]
        by_cases hp : p < 1000
        · have : ¬ 1000 ≤ p := by omega
          simp [hn, h2, hp, this]
        · have hp' : 1000 ≤ p := by omega
          cases savePs
          · simp [hn, h2, hp, hp', this]
          · cases r
            · simp [hn, h2, hp]
            · simp [hn, h2, hp, hp', this]
      · simp [hn]

theorem png_files (savePs : Bool) (w h : Nat) (e : Env) (hg : Good savePs w h e) : pngplot savePs w h e = ⟨true, false, { png := some e.png, saved := savePs }⟩ := by
  obtain ⟨h1, h2, ⟨n, h3, h4⟩, h5, h6, h7, h8, h9⟩ := hg
  have hn : ¬ n < w * 2 * (h * 2) * 3 := by rw [size_eq]; omega
  have hn2 := second_size w h n hn
  have hp : ¬ e.png < 1000 := by omega
  cases savePs
  · simp [pngplot, h1, h2, h3, hn, h5, h6, hn2, h7, hp]
  · simp [pngplot, h1, h2, h3, hn, h5, h6, hn2, h7, hp, h9]

theorem contains_self (t : Text) (h : t ≠ []) : contains t t = true := by
  cases t with
  | nil => exact absurd rfl h
  | cons c t => simp [contains]

/-! ## The claims -/

/-- C244: `psplot` draws once, to the file and with the terminal asked for, and leaves gnuplot with its usual terminal and no file, whatever state it was in; the three documented modes are accepted. -/
theorem psplot_draws (m : Text) (c : Bool) (s f : Text) (hm : m ∈ modes) (hf : '"' ∉ f) (g : Gnuplot) :
    ∃ cs, psplot m c s [f] = some cs ∧ (cs.foldl Gnuplot.does g).drawn = g.drawn ++ [(some f, some (m, c, s))] ∧ (cs.foldl Gnuplot.does g).output = none ∧ (cs.foldl Gnuplot.does g).terminal = none := by
  refine ⟨[.setOutput (some f), .terminalPs m c s, .replot, .setOutput none, .terminalBack], ?_, rfl, rfl, rfl⟩
  have h1 : f.contains '"' = false := by simpa using hf
  have h2 : modeOk m = true := by
    simp only [modes, List.mem_cons, List.not_mem_nil, or_false] at hm
    rcases hm with rfl | rfl | rfl <;> decide
  simp only [psplot, h1, h2]
  rfl

/-- C244: whatever the arguments, nothing is sent or all of it; without exactly one name of a file, or with a quote in it, nothing is. -/
theorem psplot_refuses (m : Text) (c : Bool) (s : Text) (args : List Text) : (∀ cs, psplot m c s args = some cs → ∃ f, args = [f] ∧ '"' ∉ f ∧ cs = [.setOutput (some f), .terminalPs m c s, .replot, .setOutput none, .terminalBack]) ∧
    (args.length ≠ 1 → psplot m c s args = none) := by
  constructor
  · intro cs h
    match args, h with
    | [f], h =>
      simp only [psplot] at h
      split at h
      · cases h
      · rename_i hn
        cases h
        rw [not_or] at hn
        exact ⟨f, rfl, by simpa using hn.1, rfl⟩
  · intro h
    match args, h with
    | [], _ => rfl
    | [f], h => exact absurd rfl h
    | _ :: _ :: _, _ => rfl

/-- C244: other modes than the three are accepted too: all that begin with `eps`, contain `portrait` or end with `landscape`. -/
theorem mode_false (t : Text) : modeOk (['e', 'p', 's'] ++ t) = true ∧ modeOk (t ++ ['l', 'a', 'n', 'd', 's', 'c', 'a', 'p', 'e']) = true ∧
    ['e', 'p', 's', ';', 'x'] ∉ modes ∧ psplot ['e', 'p', 's', ';', 'x'] true ['1'] [['f']] ≠ none := by
  refine ⟨?_, ?_, by decide, by decide⟩
  · simp [modeOk, tEps]
  · have : tLandscape.isSuffixOf (t ++ tLandscape) = true := by simp
    show (_ || _ || tLandscape.isSuffixOf (t ++ tLandscape)) = true
    rw [this, Bool.or_true]

/-- C244: the words of `pngplot`: options, a filename, and maybe width and height, are told apart if the word before the filename is not a number. -/
theorem args_read_partial (opts : List Text) (f w h : Text) (hw : Number w) (hh : Number h) (ho : ∀ o, opts.getLast? = some o → ¬ Number o) :
    pngArgs (opts ++ [f]) = some (opts, f, none) ∧ pngArgs (opts ++ [f, w, h]) = some (opts, f, some (w, h)) := by
  constructor
  · rw [pngArgs, List.reverse_append]
    cases hr : opts.reverse with
    | nil =>
      have : opts = [] := by simpa using hr
      subst this
      rfl
    | cons o r =>
      have h1 : opts = r.reverse ++ [o] := by rw [← List.reverse_cons, ← hr, List.reverse_reverse]
      have h2 : digits o = false := by
        have := ho o (by rw [h1]; simp)
        rw [← digits_iff] at this
        simpa using this
      cases r with
      | nil => simp [h1]
      | cons q r =>
        simp only [List.reverse_cons, List.reverse_nil, List.nil_append, List.cons_append]
        rw [h2, Bool.and_false]
        simp [h1]
  · rw [pngArgs, List.reverse_append]
    simp only [List.reverse_cons, List.reverse_nil, List.nil_append, List.cons_append]
    rw [(digits_iff w).2 hw, (digits_iff h).2 hh]
    simp

/-- C244: otherwise not: with `--fontsize 12 34` the file named 34 is taken for a height. -/
theorem args_false : pngArgs [['-', '-', 'f', 'o', 'n', 't', 's', 'i', 'z', 'e'], ['1', '2'], ['3', '4']] = some ([], ['-', '-', 'f', 'o', 'n', 't', 's', 'i', 'z', 'e'], some (['1', '2'], ['3', '4'])) := by decide

/-- C244: `pngplot` says that it worked exactly if all commands did and the picture before scaling and the final one are large enough. -/
theorem png_works_iff (savePs : Bool) (w h : Nat) (e : Env) : (pngplot savePs w h e).ok = true ↔ Good savePs w h e := png_ok_iff savePs w h e

/-- C244: and then the picture is there, the postscript file is kept exactly if asked for, and none of the other files is left. -/
theorem png_leaves (savePs : Bool) (w h : Nat) (e : Env) (hok : (pngplot savePs w h e).ok = true) : (pngplot savePs w h e).files = { png := some e.png, saved := savePs } ∧ 1000 ≤ e.png := by
  have hg := (png_ok_iff savePs w h e).1 hok
  rw [png_files savePs w h e hg]
  exact ⟨rfl, hg.2.2.2.2.2.2.1⟩

/-- C244: the picture after scaling is not looked at: the check that should do so looks at the one before and never fails; a picture with no content at all is accepted if the last command makes 1000 bytes of it. -/
theorem scaled_false (savePs : Bool) (w h : Nat) (e : Env) (hg : Good savePs w h e) : (pngplot savePs w h { e with scaled := 0 }).ok = true :=
  (png_ok_iff savePs w h _).2 hg

/-- C244: a failure is noted as an error of the command only if it is that of the first conversion; after all others a script goes on and the program ends as if nothing had happened. -/
theorem silent_false (savePs : Bool) (w h : Nat) (e : Env) : (pngplot savePs w h e).error = true ↔ e.psOk = true ∧ e.toPnmOk = false := by
  obtain ⟨a, b, c, d, s, sz, t, p, r⟩ := e
  simp only [pngplot]
  cases a
  · simp
  cases b
  · simp
  simp only [Bool.true_eq_false, if_false, and_false, iff_false]
  split
  · simp
  split
  · simp
  split
  · simp
  split
  · simp
  split
  · simp
  split
  · simp
  split
  · simp
  split
  · split <;> simp
  · simp

/-- C244: after a failure files are left behind, always the postscript file if there was one. -/
theorem leftover_false (savePs : Bool) (w h : Nat) (e : Env) (hok : (pngplot savePs w h e).ok = false) (hps : e.psOk = true) : (pngplot savePs w h e).files.ps = true := by
  obtain ⟨a, b, c, d, s, sz, t, p, r⟩ := e
  simp only [pngplot] at hok ⊢
  dsimp only at hps
  subst hps
  simp only [Bool.true_eq_false, if_false] at hok ⊢
  split
  · rfl
  split
  · rfl
  split
  · rfl
  split
  · rfl
  split
  · rfl
  split
  · rfl
  split
  · rfl
  split
  · rfl
  rename_i h1 h2 h3 h4 h5 h6 h7 h8
  rw [if_neg h1, if_neg h2, if_neg h3, if_neg h4, if_neg h5, if_neg h6, if_neg h7, if_neg h8] at hok
  split
  · rename_i hs
    rw [if_pos hs] at hok
    split
    · rename_i hr
      rw [if_pos hr] at hok
      cases hok
    · rfl
  · rename_i hs
    rw [if_neg hs] at hok
    cases hok

example : Good true 10 10 ⟨true, true, some 1300, false, true, 300, true, 2000, true⟩ := ⟨rfl, rfl, ⟨1300, rfl, by decide⟩, rfl, rfl, rfl, by decide, fun _ => rfl⟩
example : Number ['1', '0'] := by refine ⟨by decide, by decide⟩

end Verif.Mercury.Png
