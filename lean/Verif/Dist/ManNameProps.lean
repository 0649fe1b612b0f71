import Verif.Dist.ManName

/-! # fix-install: the NAME lines of the manual pages (C260) -/

namespace Verif.Dist.ManName

open Verif.Deptool.Deps (Text)

/-! ## Specification -/

/-- A line that begins the section, as the program sees it. -/
def Heading (t : Text) : Prop := ∃ (c : Char) (r : Text), t = c :: ("SH NAME".toList ++ r)

/-- The sign between the name and the description. -/
def sign : Text := " \\-".toList

/-- A text without blanks. -/
def squeezed (a : Text) : Text := a.filter (· ≠ ' ')

/-! ## Lemmas -/

theorem heading_iff (t : Text) : heading t = true ↔ Heading t := by
  constructor
  · intro h
    unfold heading at h
    split at h
    · rename_i c r
      exact ⟨c, r, rfl⟩
    · cases h
  · rintro ⟨c, r, rfl⟩
    rfl

theorem dash_iff (t : Text) : dash t = true ↔ ∃ c r, t = sign ++ c :: r := by
  constructor
  · intro h
    unfold dash at h
    split at h
    · rename_i c r
      exact ⟨c, r, rfl⟩
    · cases h
  · rintro ⟨c, r, rfl⟩
    rfl

theorem cut_none (t : Text) (h : ¬ sign <:+: t) : cut t = none := by
  induction t with
  | nil => rfl
  | cons c t ih =>
    have h1 : ¬ sign <:+: t := fun hi => h (List.infix_cons hi)
    have h2 : ¬ dash (c :: t) = true := fun hd => by
      obtain ⟨x, r, e⟩ := (dash_iff _).mp hd
      exact h (e ▸ (List.prefix_append _ _).isInfix)
    rw [cut, ih h1]
    exact if_neg h2

theorem cut_sign (d : Text) (hd : d ≠ []) (hs : ¬ sign <:+: d) : cut (sign ++ d) = some ([], sign ++ d) := by
  have e : sign ++ d = ' ' :: '\\' :: '-' :: d := rfl
  have h0 := cut_none d hs
  have h1 : cut ('-' :: d) = none := by
    rw [cut, h0]
    exact if_neg (by simp [dash])
  have h2 : cut ('\\' :: '-' :: d) = none := by
    rw [cut, h1]
    exact if_neg (by simp [dash])
  rw [e, cut, h2]
  cases d with
  | nil => exact absurd rfl hd
  | cons x d => rfl

theorem cut_append (a t l r : Text) (h : cut t = some (l, r)) : cut (a ++ t) = some (a ++ l, r) := by
  induction a with
  | nil => exact h
  | cons c a ih => rw [List.cons_append, cut, ih]; rfl

theorem cut_right (t l r : Text) (h : cut t = some (l, r)) : dash r = true := by
  induction t generalizing l with
  | nil => cases h
  | cons c t ih =>
    rw [cut] at h
    split at h
    · rename_i l' r' e
      cases h
      exact ih _ e
    · split at h
      · rename_i hd
        cases h
        exact hd
      · cases h

theorem not_heading (a r : Text) (ha : ' ' ∉ a) (hr : dash r = true) : ¬ Heading (a ++ r) := by
  obtain ⟨c, q, rfl⟩ := (dash_iff r).mp hr
  rintro ⟨x, s, e⟩
  have e : a ++ (' ' :: '\\' :: '-' :: c :: q) = x :: 'S' :: 'H' :: ' ' :: 'N' :: ('A' :: 'M' :: 'E' :: s) := e
  match a, ha with
  | [], _ => simp at e
  | [_], _ => simp at e
  | [_, _], _ => simp at e
  | [_, _, _], _ => simp at e
  | _ :: _ :: _ :: y :: a, ha =>
    simp only [List.cons_append, List.cons.injEq] at e
    exact ha (by simp [e.2.2.2.1])

theorem fixLine_not_heading (t : Text) : heading (fixLine t) = false := by
  unfold fixLine
  split
  · rename_i c l r h
    rw [← Bool.not_eq_true, heading_iff]
    exact not_heading _ r (by simp) (cut_right t _ r h)
  · rfl

theorem fixLine_name (a d : Text) (ha : a ≠ []) (hd : d ≠ []) (hs : ¬ sign <:+: d) : fixLine (a ++ sign ++ d) = squeezed a ++ sign ++ d := by
  have h := cut_append a (sign ++ d) [] (sign ++ d) (cut_sign d hd hs)
  rw [List.append_nil] at h
  unfold fixLine
  rw [List.append_assoc, h]
  cases a with
  | nil => exact absurd rfl ha
  | cons c a =>
    rw [List.append_assoc]
    have e : ((c :: a).filter (· != ' ')) = squeezed (c :: a) := by
      unfold squeezed
      congr 1
      funext x
      by_cases hx : x = ' ' <;> simp [hx]
    exact congrArg (· ++ (sign ++ d)) e

theorem fix_plain (ts rest : List Text) (h : ∀ t ∈ ts, ¬ Heading t) : fix false (ts ++ rest) = ts ++ fix false rest := by
  induction ts with
  | nil => rfl
  | cons t ts ih =>
    have ht : heading t = false := by
      rw [← Bool.not_eq_true, heading_iff]
      exact h t (by simp)
    rw [List.cons_append, fix, ht, ih fun x hx => h x (by simp [hx])]
    rfl

/-! ## C260 -/

/-- In a page with one such section, whose line has a name and a description, exactly the blanks in the name are taken away, and the program is ready for the next page. -/
theorem page_fixed_partial (pre post : List Text) (h a d : Text) (rest : List Text) (hp : ∀ t ∈ pre, ¬ Heading t) (hh : Heading h) (hq : ∀ t ∈ post, ¬ Heading t)
    (ha : a ≠ []) (hd : d ≠ []) (hs : ¬ sign <:+: d) :
    fix false (pre ++ [h, a ++ sign ++ d] ++ post ++ rest) = pre ++ [h, squeezed a ++ sign ++ d] ++ post ++ fix false rest := by
  have e : pre ++ [h, a ++ sign ++ d] ++ post ++ rest = pre ++ (h :: (a ++ sign ++ d) :: (post ++ rest)) := by simp
  rw [e, fix_plain pre _ hp, fix, (heading_iff h).mpr hh, fix, fixLine_not_heading, fix_plain post rest hq, fixLine_name a d ha hd hs]
  simp

/-- Whatever the pages are: no line comes or goes, and only lines right after a heading change. -/
theorem others_kept (ts : List Text) : (fix false ts).length = ts.length ∧
    ∀ (i : Nat) (t : Text), ts[i]? = some t → (∀ j u, i = j + 1 → ts[j]? = some u → ¬ Heading u) → (fix false ts)[i]? = some t := by
  have hl : ∀ b, (fix b ts).length = ts.length := by
    induction ts with
    | nil => intro b; cases b <;> rfl
    | cons t ts ih => intro b; cases b <;> simp [fix, ih]
  refine ⟨hl false, ?_⟩
  have key : ∀ (b : Bool) (i : Nat) (t : Text), ts[i]? = some t → (i = 0 → b = false) → (∀ j u, i = j + 1 → ts[j]? = some u → ¬ Heading u) → (fix b ts)[i]? = some t := by
    clear hl
    induction ts with
    | nil => intro b i t h; simp at h
    | cons x ts ih =>
      intro b i t h hb hn
      cases i with
      | zero =>
        rw [hb rfl, fix]
        exact h
      | succ i =>
        have h' : ts[i]? = some t := h
        have hn' : ∀ j u, i = j + 1 → ts[j]? = some u → ¬ Heading u := fun j u e hu => hn (j + 1) u (by omega) hu
        cases b with
        | true =>
          rw [fix, fixLine_not_heading]
          exact ih false i t h' (fun _ => rfl) hn'
        | false =>
          rw [fix]
          refine ih (heading x) i t h' (fun hi => ?_) hn'
          rw [← Bool.not_eq_true, heading_iff]
          exact hn 0 x (by omega) rfl
  exact fun i t h hn => key false i t h (fun _ => rfl) hn

/-- False: that a line without the sign stays: it is lost. -/
theorem line_lost_false (h t : Text) (hh : Heading h) (hs : ¬ sign <:+: t) : fix false [h, t] = [h, []] := by
  rw [fix, (heading_iff h).mpr hh, fix, fix]
  have : fixLine t = [] := by
    unfold fixLine
    rw [cut_none t hs]
  rw [this]

/-- False: that the description stays: with the sign in it, its blanks go too, up to the last sign. -/
theorem description_false : fix false [".SH NAME".toList, "a b \\- c d \\- e f".toList] = [".SH NAME".toList, "ab\\-cd \\- e f".toList] := by decide

/-- False: that pages do not matter to each other: a heading at the end of one changes the first line of the next. -/
theorem next_page_false : fix false ([".SH NAME".toList] ++ [".TH x".toList]) ≠ fix false [".SH NAME".toList] ++ fix false [".TH x".toList] := by decide

/-! ### The hypotheses are met -/

example : Heading ".SH NAME".toList := ⟨'.', [], by decide⟩

example : fix false [".SH NAME".toList, "lintel::Clock < T > \\- a clock".toList, ".PP".toList] = [".SH NAME".toList, "lintel::Clock<T> \\- a clock".toList, ".PP".toList] := by decide

example : ¬ sign <:+: " a clock".toList := fun h => absurd (h.subset (show '\\' ∈ sign by decide)) (by decide)

end Verif.Dist.ManName
