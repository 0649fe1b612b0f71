import Verif.DepVC.CheckoutRun
import Verif.Deptool.DepsProps

/-! # C233: deptool checkout checks out what is needed and touches nothing else -/

namespace Verif.DepVC.Checkout

open Verif.Deptool.Deps (Text isWord)

/-! ## Specification -/

/-- An argument means a branch, which belongs at a path. -/
def Means (w : World) (r b : Text) (i : Info) : Prop := choose w r = some b ∧ w.list.info b = some i

/-- A directory of the right kind. -/
def OfKind : VC → Dir → Prop
  | .git, .git _ _ _ _ _ => True
  | .mtn, .mtn _ _ => True
  | _, _ => False

/-- What a complete checkout of a branch gives. -/
def Complete (w : World) (b : Text) (i : Info) (d : Dir) : Prop :=
  match i.vc with
  | .git => ∃ f p, w.origin i.src = some (f, p) ∧ d = .git i.src i.sub (some f) (some p) true
  | .mtn => d = .mtn i.src b

/-- The arguments, and what needed ones depend on. -/
inductive Needed (w : World) (args : List Text) (fs : FS) : Text → Prop
  | arg {r} : r ∈ args → Needed w args fs r
  | dep {r b i d deps x} : Needed w args fs r → Means w r b i → fs (pathOf b i) = some d → w.config (pathOf b i) d = some deps → x ∈ deps → Needed w args fs x

/-! ## Lemmas -/

theorem git_keeps (o : Option (Text × Text)) (g : Nat) (fs : FS) (b : Text) (i : Info) {p : Text} {d : Dir} (h : fs p = some d) : (gitCheckout o g fs b i).1 p = some d := by
  have hs : ∀ d', fs (pathOf b i) = none → (fs.set (pathOf b i) d') p = some d := by
    intro d' hn
    unfold FS.set
    rw [if_neg (by rintro rfl; rw [hn] at h; cases h)]
    exact h
  unfold gitCheckout
  split
  · exact h
  · exact h
  · rename_i hn
    split
    · exact h
    · split
      · exact hs _ hn
      · split
        · exact hs _ hn
        · split
          · exact hs _ hn
          · split
            · exact hs _ hn
            · exact hs _ hn

theorem mtn_keeps (g : Nat) (fs : FS) (b : Text) (i : Info) {p : Text} {d : Dir} (h : fs p = some d) : (mtnCheckout g fs b i).1 p = some d := by
  unfold mtnCheckout
  split
  · exact h
  · exact h
  · rename_i hn
    split
    · exact h
    · show (fs.set (pathOf b i) _) p = some d
      unfold FS.set
      rw [if_neg (by rintro rfl; rw [hn] at h; cases h)]
      exact h

theorem branch_keeps (w : World) (fs : FS) (b : Text) (i : Info) {p : Text} {d : Dir} (h : fs p = some d) : (checkoutBranch w fs b i).1 p = some d := by
  unfold checkoutBranch
  split
  · exact git_keeps _ _ _ _ _ h
  · exact mtn_keeps _ _ _ _ h

theorem one_keeps (w : World) (fs : FS) (r : Text) {p : Text} {d : Dir} (h : fs p = some d) : (one w fs r).1 p = some d := by
  unfold one
  split
  · exact h
  · rename_i b _
    split
    · exact h
    · rename_i i _
      have := branch_keeps w fs b i h
      split
      · rename_i e; rw [e] at this; exact this
      · rename_i e; rw [e] at this; exact this

/-- A checkout that succeeded. -/
theorem branch_ok {w : World} {fs fs' : FS} {b : Text} {i : Info} {p : Text} (h : checkoutBranch w fs b i = (fs', some p)) :
    p = pathOf b i ∧ (∃ d, fs' p = some d ∧ OfKind i.vc d) ∧ (fs' = fs ∨ (fs p = none ∧ ∃ d, Complete w b i d ∧ fs' = fs.set p d)) := by
  unfold checkoutBranch at h
  split at h
  · rename_i hv
    unfold gitCheckout at h
    split at h
    · rename_i hd
      obtain ⟨rfl, e⟩ := Prod.mk.inj h
      obtain rfl := Option.some.inj e
      exact ⟨rfl, ⟨_, hd, by rw [hv]; trivial⟩, Or.inl rfl⟩
    · cases (Prod.mk.inj h).2
    · rename_i hn
      split at h
      · cases (Prod.mk.inj h).2
      · split at h
        · cases (Prod.mk.inj h).2
        · rename_i f p' ho
          split at h
          · cases (Prod.mk.inj h).2
          · split at h
            · cases (Prod.mk.inj h).2
            · split at h
              · cases (Prod.mk.inj h).2
              · obtain ⟨rfl, e⟩ := Prod.mk.inj h
                obtain rfl := Option.some.inj e
                refine ⟨rfl, ⟨.git i.src i.sub (some f) (some p') true, by simp [FS.set], by rw [hv]; trivial⟩, Or.inr ⟨hn, _, ?_, rfl⟩⟩
                unfold Complete
                rw [hv]
                exact ⟨f, p', ho, rfl⟩
  · rename_i hv
    unfold mtnCheckout at h
    split at h
    · rename_i hd
      obtain ⟨rfl, e⟩ := Prod.mk.inj h
      obtain rfl := Option.some.inj e
      exact ⟨rfl, ⟨_, hd, by rw [hv]; trivial⟩, Or.inl rfl⟩
    · cases (Prod.mk.inj h).2
    · rename_i hn
      split at h
      · cases (Prod.mk.inj h).2
      · obtain ⟨rfl, e⟩ := Prod.mk.inj h
        obtain rfl := Option.some.inj e
        refine ⟨rfl, ⟨.mtn i.src b, by simp [FS.set], by rw [hv]; trivial⟩, Or.inr ⟨hn, _, ?_, rfl⟩⟩
        unfold Complete
        rw [hv]

theorem one_ok {w : World} {fs fs' : FS} {r : Text} {deps : List Text} (h : one w fs r = (fs', some deps)) :
    ∃ b i d, Means w r b i ∧ fs' (pathOf b i) = some d ∧ OfKind i.vc d ∧ w.config (pathOf b i) d = some deps ∧
      (fs' = fs ∨ (fs (pathOf b i) = none ∧ Complete w b i d ∧ fs' = fs.set (pathOf b i) d)) := by
  unfold one at h
  split at h
  · cases (Prod.mk.inj h).2
  · rename_i b hb
    split at h
    · cases (Prod.mk.inj h).2
    · rename_i i hi
      split at h
      · cases (Prod.mk.inj h).2
      · rename_i fs1 p hc
        obtain ⟨rfl, hd⟩ := Prod.mk.inj h
        obtain ⟨rfl, ⟨d, e1, e2⟩, e3⟩ := branch_ok hc
        unfold depsOf at hd
        rw [e1] at hd
        refine ⟨b, i, d, ⟨hb, hi⟩, e1, e2, hd, ?_⟩
        rcases e3 with rfl | ⟨hn, d', hcm, rfl⟩
        · exact Or.inl rfl
        · have : d' = d := by simpa [FS.set] using e1
          subst this
          exact Or.inr ⟨hn, hcm, rfl⟩

theorem Needed.mono {w : World} {args : List Text} {fs fs' : FS} (h : ∀ p d, fs p = some d → fs' p = some d) {r : Text} (hr : Needed w args fs r) : Needed w args fs' r := by
  induction hr with
  | arg h1 => exact .arg h1
  | dep _ h2 h3 h4 h5 ih => exact .dep ih h2 (h _ _ h3) h4 h5

/-- The state of the loop. -/
structure LInv (w : World) (args : List Text) (fs0 : FS) (q did : List Text) (fs : FS) : Prop where
  keeps : ∀ p d, fs0 p = some d → fs p = some d
  asked : ∀ r ∈ args, r ∈ did ∨ r ∈ q
  needed : ∀ r, r ∈ did ∨ r ∈ q → Needed w args fs r
  done : ∀ r ∈ did, ∃ b i d deps, Means w r b i ∧ fs (pathOf b i) = some d ∧ OfKind i.vc d ∧ w.config (pathOf b i) d = some deps ∧ ∀ x ∈ deps, x ∈ did ∨ x ∈ q
  fresh : ∀ p d, fs p = some d → fs0 p = some d ∨ ∃ r ∈ did, ∃ b i, Means w r b i ∧ p = pathOf b i ∧ fs0 p = none ∧ Complete w b i d

theorem LInv.skip {w : World} {args : List Text} {fs0 : FS} {q did : List Text} {fs : FS} {r : Text} (h : LInv w args fs0 (r :: q) did fs) (hr : r ∈ did) : LInv w args fs0 q did fs := by
  have hc : ∀ x, x ∈ did ∨ x ∈ r :: q → x ∈ did ∨ x ∈ q := by
    rintro x (hx | hx)
    · exact Or.inl hx
    · rcases List.mem_cons.1 hx with rfl | hx
      · exact Or.inl hr
      · exact Or.inr hx
  refine ⟨h.keeps, fun x hx => hc x (h.asked x hx), fun x hx => h.needed x (hx.imp id (List.mem_cons_of_mem _)), ?_, h.fresh⟩
  intro x hx
  obtain ⟨b, i, d, deps, h1, h2, h3, h4, h5⟩ := h.done x hx
  exact ⟨b, i, d, deps, h1, h2, h3, h4, fun y hy => hc y (h5 y hy)⟩

theorem LInv.step {w : World} {args : List Text} {fs0 : FS} {q did : List Text} {fs fs' : FS} {r : Text} {deps : List Text} (h : LInv w args fs0 (r :: q) did fs)
    (ho : one w fs r = (fs', some deps)) : LInv w args fs0 (q ++ deps) (r :: did) fs' := by
  have hk : ∀ p d, fs p = some d → fs' p = some d := by
    intro p d hp
    have := one_keeps w fs r hp
    rw [ho] at this
    exact this
  have hc : ∀ x, x ∈ did ∨ x ∈ r :: q → x ∈ r :: did ∨ x ∈ q ++ deps := by
    rintro x (hx | hx)
    · exact Or.inl (List.mem_cons_of_mem _ hx)
    · rcases List.mem_cons.1 hx with rfl | hx
      · exact Or.inl (List.mem_cons_self ..)
      · exact Or.inr (List.mem_append_left _ hx)
  obtain ⟨b, i, d, hm, hd, hkind, hcfg, hfs⟩ := one_ok ho
  have hr : Needed w args fs' r := (h.needed r (Or.inr (List.mem_cons_self ..))).mono hk
  refine ⟨fun p d hp => hk p d (h.keeps p d hp), fun x hx => hc x (h.asked x hx), ?_, ?_, ?_⟩
  · intro x hx
    rcases hx with hx | hx
    · rcases List.mem_cons.1 hx with rfl | hx
      · exact hr
      · exact (h.needed x (Or.inl hx)).mono hk
    · rcases List.mem_append.1 hx with hx | hx
      · exact (h.needed x (Or.inr (List.mem_cons_of_mem _ hx))).mono hk
      · exact .dep hr hm hd hcfg hx
  · intro x hx
    rcases List.mem_cons.1 hx with rfl | hx
    · exact ⟨b, i, d, deps, hm, hd, hkind, hcfg, fun y hy => Or.inr (List.mem_append_right _ hy)⟩
    · obtain ⟨b', i', d', deps', h1, h2, h3, h4, h5⟩ := h.done x hx
      exact ⟨b', i', d', deps', h1, hk _ _ h2, h3, h4, fun y hy => hc y (h5 y hy)⟩
  · intro p e hp
    rcases hfs with rfl | ⟨hn, hcm, rfl⟩
    · rcases h.fresh p e hp with h0 | ⟨x, hx, rest⟩
      · exact Or.inl h0
      · exact Or.inr ⟨x, List.mem_cons_of_mem _ hx, rest⟩
    · unfold FS.set at hp
      split at hp
      · rename_i hpp
        obtain rfl := Option.some.inj hp
        subst hpp
        refine Or.inr ⟨r, List.mem_cons_self .., b, i, hm, rfl, ?_, hcm⟩
        cases h0 : fs0 (pathOf b i) with
        | none => rfl
        | some d0 => have := h.keeps _ _ h0; rw [hn] at this; cases this
      · rcases h.fresh p e hp with h0 | ⟨x, hx, rest⟩
        · exact Or.inl h0
        · exact Or.inr ⟨x, List.mem_cons_of_mem _ hx, rest⟩

theorem loop_inv (w : World) (args : List Text) (fs0 : FS) : ∀ (n : Nat) (q did : List Text) (fs fs' : FS) (did' : List Text), LInv w args fs0 q did fs →
    loop w n q did fs = (fs', did', .done) → LInv w args fs0 [] did' fs'
  | 0, _, _, _, _, _, _, h => by cases (Prod.mk.inj (Prod.mk.inj h).2).2
  | _ + 1, [], did, fs, fs', did', hI, h => by
    have h1 : fs = fs' := congrArg (·.1) h
    have h2 : did = did' := congrArg (·.2.1) h
    rw [← h1, ← h2]
    exact hI
  | n + 1, r :: q, did, fs, fs', did', hI, h => by
    rw [loop] at h
    split at h
    · rename_i hr
      exact loop_inv w args fs0 n q did fs fs' did' (hI.skip hr) h
    · split at h
      · cases (Prod.mk.inj (Prod.mk.inj h).2).2
      · rename_i ho
        exact loop_inv w args fs0 n _ _ _ fs' did' (hI.step ho) h

/-! ## Theorems -/

/-- C233: whatever happens, no directory that was there is changed or replaced. -/
theorem checkout_keeps (w : World) : ∀ (n : Nat) (q did : List Text) (fs : FS) (p : Text) (d : Dir), fs p = some d → (loop w n q did fs).1 p = some d
  | 0, _, _, _, _, _, h => h
  | _ + 1, [], _, _, _, _, h => h
  | n + 1, r :: q, did, fs, p, d, h => by
    rw [loop]
    split
    · exact checkout_keeps w n q did fs p d h
    · have := one_keeps w fs r h
      split
      · rename_i e; rw [e] at this; exact this
      · rename_i e; rw [e] at this; exact checkout_keeps w n _ _ _ p d this

/-- C233: when checkout ends, all that is needed means a branch, whose directory is there, with the right version control and a deptool.config. -/
theorem checkout_all_partial (w : World) (n : Nat) (args : List Text) (fs fs' : FS) (did : List Text) (h : loop w n args [] fs = (fs', did, .done)) (r : Text)
    (hr : Needed w args fs' r) : ∃ b i d deps, Means w r b i ∧ fs' (pathOf b i) = some d ∧ OfKind i.vc d ∧ w.config (pathOf b i) d = some deps := by
  have hI : LInv w args fs [] did fs' := loop_inv w args fs n args [] fs fs' did ⟨fun _ _ h => h, fun _ h => Or.inr h, fun r hr => .arg (hr.resolve_left (by simp)), by simp, fun _ _ h => Or.inl h⟩ h
  have hd : r ∈ did := by
    induction hr with
    | arg h1 => exact (hI.asked _ h1).resolve_right (by simp)
    | dep _ h2 h3 h4 h5 ih =>
      obtain ⟨b', i', d', deps', g1, g2, _, g4, g5⟩ := hI.done _ ih
      have e1 := Option.some.inj (h2.1.symm.trans g1.1)
      subst e1
      have e2 := Option.some.inj (h2.2.symm.trans g1.2)
      subst e2
      have e3 := Option.some.inj (h3.symm.trans g2)
      subst e3
      have e4 := Option.some.inj (h4.symm.trans g4)
      subst e4
      exact (g5 _ h5).resolve_right (by simp)
  obtain ⟨b, i, d, deps, h1, h2, h3, h4, _⟩ := hI.done r hd
  exact ⟨b, i, d, deps, h1, h2, h3, h4⟩

/-- C233: and each directory that is new is a complete checkout of a branch that was needed: cloned from the local repository, with origin's urls for fetching and pushing, and following origin. -/
theorem checkout_new (w : World) (n : Nat) (args : List Text) (fs fs' : FS) (did : List Text) (h : loop w n args [] fs = (fs', did, .done)) (p : Text) (d : Dir)
    (hp : fs' p = some d) (hn : fs p = none) : ∃ r b i, Needed w args fs' r ∧ Means w r b i ∧ p = pathOf b i ∧ Complete w b i d := by
  have hI : LInv w args fs [] did fs' := loop_inv w args fs n args [] fs fs' did ⟨fun _ _ h => h, fun _ h => Or.inr h, fun r hr => .arg (hr.resolve_left (by simp)), by simp, fun _ _ h => Or.inl h⟩ h
  rcases hI.fresh p d hp with h0 | ⟨r, hr, b, i, h1, h2, _, h4⟩
  · rw [hn] at h0; cases h0
  · exact ⟨r, b, i, hI.needed r (Or.inl hr), h1, h2, h4⟩

theorem countP_step (U did : List Text) (r : Text) (hU : r ∈ U) (hr : r ∉ did) : U.countP (fun x => decide (x ∉ r :: did)) < U.countP (fun x => decide (x ∉ did)) := by
  induction U with
  | nil => cases hU
  | cons u U ih =>
    have hle : ∀ V : List Text, V.countP (fun x => decide (x ∉ r :: did)) ≤ V.countP (fun x => decide (x ∉ did)) := fun V =>
      List.countP_mono_left fun x _ h => by simp only [List.mem_cons, not_or, decide_eq_true_eq] at h ⊢; exact h.2
    rw [List.countP_cons, List.countP_cons]
    by_cases hur : u = r
    · subst hur
      have := hle U
      simp only [List.mem_cons, true_or, not_true_eq_false, decide_false, hr, not_false_eq_true, decide_true, if_true]
      simp only [List.mem_cons] at this
      simp only [Bool.false_eq_true, if_false]
      omega
    · have hU' : r ∈ U := by
        rcases List.mem_cons.1 hU with h | h
        · exact absurd h.symm hur
        · exact h
      have := ih hU'
      by_cases hud : u ∈ did
      · have h1 : decide (u ∉ r :: did) = false := by simp [hud]
        have h2 : decide (u ∉ did) = false := by simp [hud]
        rw [h1, h2]; simpa using this
      · have h1 : decide (u ∉ r :: did) = true := by simp [hud, hur]
        have h2 : decide (u ∉ did) = true := by simp [hud]
        rw [h1, h2]
        simp only [if_true]
        omega

/-- C233: if the deptool.config files name only finitely many dependencies, checkout ends, also when they depend on each other. -/
theorem checkout_ends (w : World) (U : List Text) (hU : ∀ p d deps, w.config p d = some deps → ∀ x ∈ deps, x ∈ U) (args : List Text) (fs : FS) :
    ∃ n, (loop w n args [] fs).2.2 ≠ .more := by
  have key : ∀ (m : Nat) (q did : List Text) (fs : FS), (∀ x ∈ q, x ∈ args ++ U) → (args ++ U).countP (fun x => decide (x ∉ did)) ≤ m → ∃ n, (loop w n q did fs).2.2 ≠ .more := by
    intro m
    induction m with
    | zero =>
      intro q
      induction q with
      | nil => intro did fs _ _; exact ⟨1, by simp [loop]⟩
      | cons r q ih =>
        intro did fs hq hm
        have hr : r ∈ did := by
          by_cases h : r ∈ did
          · exact h
          · have := countP_step _ did r (hq r (List.mem_cons_self ..)) h
            omega
        obtain ⟨n, hn⟩ := ih did fs (fun x hx => hq x (List.mem_cons_of_mem _ hx)) hm
        exact ⟨n + 1, by rw [loop, if_pos hr]; exact hn⟩
    | succ m ihm =>
      intro q
      induction q with
      | nil => intro did fs _ _; exact ⟨1, by simp [loop]⟩
      | cons r q ih =>
        intro did fs hq hm
        by_cases hr : r ∈ did
        · obtain ⟨n, hn⟩ := ih did fs (fun x hx => hq x (List.mem_cons_of_mem _ hx)) hm
          exact ⟨n + 1, by rw [loop, if_pos hr]; exact hn⟩
        · cases ho : one w fs r with
          | mk fs' o =>
            cases o with
            | none => exact ⟨1, by rw [loop, if_neg hr, ho]; simp⟩
            | some deps =>
              have hdeps : ∀ x ∈ deps, x ∈ U := by
                obtain ⟨b, i, d, _, _, _, hc, _⟩ := one_ok ho
                exact hU _ _ _ hc
              have hlt := countP_step _ did r (hq r (List.mem_cons_self ..)) hr
              obtain ⟨n, hn⟩ := ihm (q ++ deps) (r :: did) fs' (by
                intro x hx
                rcases List.mem_append.1 hx with hx | hx
                · exact hq x (List.mem_cons_of_mem _ hx)
                · exact List.mem_append_right _ (hdeps x hx)) (by omega)
              exact ⟨n + 1, by rw [loop, if_neg hr, ho]; exact hn⟩
  exact key _ args [] fs (fun x hx => List.mem_append_left _ hx) (Nat.le_refl _)

/-- C233: if what is needed means branches, nothing of another kind is in the way, all commands succeed and all deptool.config files can be read, checkout does not die. -/
theorem checkout_works (w : World) (fs0 : FS) (S : Text → Prop) (hsel : ∀ r, S r → ∃ b i, Means w r b i ∧ (∀ d, fs0 (pathOf b i) = some d → OfKind i.vc d) ∧ 4 ≤ w.good b ∧ (i.vc = .git → w.origin i.src ≠ none))
    (hpath : ∀ b i b' i', w.list.info b = some i → w.list.info b' = some i' → pathOf b i = pathOf b' i' → i.vc = i'.vc) (hcfg : ∀ p d, ∃ deps, w.config p d = some deps ∧ ∀ x ∈ deps, S x) :
    ∀ (n : Nat) (q did : List Text) (fs : FS), (∀ x ∈ q, S x) → (∀ p d, fs p = some d → fs0 p = some d ∨ ∃ b i, w.list.info b = some i ∧ p = pathOf b i ∧ OfKind i.vc d) →
      (loop w n q did fs).2.2 ≠ .died
  | 0, _, _, _, _, _ => by simp [loop]
  | _ + 1, [], _, _, _, _ => by simp [loop]
  | n + 1, r :: q, did, fs, hq, hI => by
    rw [loop]
    split
    · exact checkout_works w fs0 S hsel hpath hcfg n q did fs (fun x hx => hq x (List.mem_cons_of_mem _ hx)) hI
    · obtain ⟨b, i, hm, hk, hg, ho⟩ := hsel r (hq r (List.mem_cons_self ..))
      have hin : ∀ d, fs (pathOf b i) = some d → OfKind i.vc d := by
        intro d hd
        rcases hI _ _ hd with h | ⟨b', i', h1, h2, h3⟩
        · exact hk d h
        · rw [hpath b i b' i' hm.2 h1 h2]; exact h3
      have hco : ∃ fs', checkoutBranch w fs b i = (fs', some (pathOf b i)) := by
        unfold checkoutBranch
        cases hv : i.vc with
        | git =>
          simp only []
          unfold gitCheckout
          cases hf : fs (pathOf b i) with
          | none =>
            simp only []
            rw [if_neg (by omega)]
            cases hor : w.origin i.src with
            | none => exact absurd hor (ho hv)
            | some x =>
              simp only []
              rw [if_neg (by omega), if_neg (by omega), if_neg (by omega)]
              exact ⟨_, rfl⟩
          | some d =>
            have hk' := hin d hf
            rw [hv] at hk'
            cases d with
            | git => exact ⟨_, rfl⟩
            | plain => exact hk'.elim
            | mtn => exact hk'.elim
        | mtn =>
          simp only []
          unfold mtnCheckout
          cases hf : fs (pathOf b i) with
          | none =>
            simp only []
            rw [if_neg (by omega)]
            exact ⟨_, rfl⟩
          | some d =>
            have hk' := hin d hf
            rw [hv] at hk'
            cases d with
            | mtn => exact ⟨_, rfl⟩
            | plain => exact hk'.elim
            | git => exact hk'.elim
      obtain ⟨fs', hco⟩ := hco
      obtain ⟨_, ⟨d, e1, e2⟩, e3⟩ := branch_ok hco
      obtain ⟨deps, hc, hS⟩ := hcfg (pathOf b i) d
      have hone : one w fs r = (fs', some deps) := by
        unfold one
        rw [hm.1]
        simp only []
        rw [hm.2]
        simp only []
        rw [hco]
        simp only [depsOf, e1, hc]
      rw [hone]
      refine checkout_works w fs0 S hsel hpath hcfg n _ _ fs' ?_ ?_
      · intro x hx
        rcases List.mem_append.1 hx with hx | hx
        · exact hq x (List.mem_cons_of_mem _ hx)
        · exact hS x hx
      intro p e hp
      rcases e3 with rfl | ⟨hn, d', _, rfl⟩
      · exact hI p e hp
      · have hdd : d' = d := by simpa [FS.set] using e1
        subst hdd
        unfold FS.set at hp
        split at hp
        · rename_i hpp
          obtain rfl := Option.some.inj hp
          exact Or.inr ⟨b, i, hm.2, hpp, e2⟩
        · exact hI p e hp

/-- C233: a clone belongs at the last part of the repository's path. -/
theorem path_git (b a p : Text) (i : Info) (hv : i.vc = .git) (hp : '/' ∉ p) : i.coPath = a ++ '/' :: p → pathOf b i = p := by
  intro h
  unfold pathOf
  rw [hv]
  simp only [lastPart, h, Verif.Deptool.Deps.cutLast_append '/' a p hp]

theorem dotted_words : ∀ (ws : List Text), ws ≠ [] → (∀ x ∈ ws, x ≠ [] ∧ ∀ c ∈ x, isWord c = true) → dotted (List.intercalate ['.'] ws) = true := by
  have hdot : isWord '.' = false := by decide
  have one : ∀ (x rest : Text), x ≠ [] → (∀ c ∈ x, isWord c = true) → (rest = [] ∨ ∃ r, rest = '.' :: r ∧ dotted r = true) → dotted (x ++ rest) = true := by
    intro x
    induction x with
    | nil => intro _ h; exact absurd rfl h
    | cons c x ih =>
      intro rest _ hx hr
      have hc := hx c (List.mem_cons_self ..)
      cases x with
      | nil =>
        rcases hr with rfl | ⟨r, rfl, hr⟩
        · simpa [dotted] using hc
        · simp [dotted, hc, hr]
      | cons d x =>
        have hd := hx d (by simp)
        have hne : d ≠ '.' := by rintro rfl; rw [hdot] at hd; cases hd
        have := ih rest (by simp) (fun y hy => hx y (List.mem_cons_of_mem _ hy)) hr
        simp only [List.cons_append] at this ⊢
        simp only [dotted, hc, if_neg hne, Bool.true_and, this]
  intro ws
  induction ws with
  | nil => intro h; exact absurd rfl h
  | cons x ws ih =>
    intro _ h
    have hx := h x (List.mem_cons_self ..)
    cases ws with
    | nil =>
      have := one x [] hx.1 hx.2 (Or.inl rfl)
      simpa [List.intercalate, List.intersperse] using this
    | cons y ws =>
      have hr := ih (by simp) (fun z hz => h z (List.mem_cons_of_mem _ hz))
      have e : List.intercalate ['.'] (x :: y :: ws) = x ++ '.' :: List.intercalate ['.'] (y :: ws) := by
        simp [List.intercalate, List.intersperse]
      rw [e]
      exact one x _ hx.1 hx.2 (Or.inr ⟨_, rfl, hr⟩)

/-- C233: a branch of monotone belongs at its name without the unique prefix, words with dots between them. -/
theorem path_mtn (ws : List Text) (r : Text) (i : Info) (hv : i.vc = .mtn) (hne : ws ≠ []) (hw : ∀ x ∈ ws, x ≠ [] ∧ ∀ c ∈ x, isWord c = true) :
    pathOf (List.intercalate ['.'] ws ++ '/' :: r) i = r := by
  have hd := dotted_words ws hne hw
  have hall : ∀ c ∈ List.intercalate ['.'] ws, (c != '/') = true := by
    have hs : isWord '/' = false := by decide
    intro c hc
    have : c = '.' ∨ ∃ x ∈ ws, c ∈ x := by
      clear hd hne hw
      induction ws with
      | nil => simp [List.intercalate] at hc
      | cons x ws ih =>
        cases ws with
        | nil => simp [List.intercalate, List.intersperse] at hc; exact Or.inr ⟨x, by simp, hc⟩
        | cons y ws =>
          have e : List.intercalate ['.'] (x :: y :: ws) = x ++ '.' :: List.intercalate ['.'] (y :: ws) := by
            simp [List.intercalate, List.intersperse]
          rw [e] at hc
          rcases List.mem_append.1 hc with hc | hc
          · exact Or.inr ⟨x, by simp, hc⟩
          · rcases List.mem_cons.1 hc with rfl | hc
            · exact Or.inl rfl
            · rcases ih hc with h | ⟨z, hz, hzc⟩
              · exact Or.inl h
              · exact Or.inr ⟨z, List.mem_cons_of_mem _ hz, hzc⟩
    rcases this with rfl | ⟨x, hx, hcx⟩
    · decide
    · have := (hw x hx).2 c hcx
      simp only [bne_iff_ne, ne_eq]
      rintro rfl
      rw [hs] at this; cases this
  unfold pathOf
  rw [hv]
  simp only [stripUnique]
  rw [List.takeWhile_append_of_pos hall, List.dropWhile_append_of_pos hall]
  simp [hd]

/-- C233: with --sub-branch, the sub branch is taken where there is one, else the branch itself. -/
theorem choose_sub (w : World) (r b : Text) (h : select w.list r = some b) :
    (w.sub = none → choose w r = some b) ∧
    (∀ s t, w.sub = some s → select w.list (r ++ '/' :: s) = some t → choose w r = some t) ∧
    (∀ s, w.sub = some s → select w.list (r ++ '/' :: s) = none → choose w r = some b) := by
  refine ⟨fun h1 => ?_, fun s t h1 h2 => ?_, fun s h1 h2 => ?_⟩
  · simp [choose, h, h1]
  · simp [choose, h, h1, h2]
  · simp [choose, h, h1, h2]

/-- C233: an argument that means no branch is fatal, whatever else there is. -/
theorem checkout_unknown (w : World) (r : Text) (q : List Text) (fs : FS) (n : Nat) (h : select w.list r = none) : loop w (n + 1) (r :: q) [] fs = (fs, [r], .died) := by
  have : one w fs r = (fs, none) := by simp [one, choose, h]
  rw [loop, if_neg (by simp), this]

/-! ## What does not hold -/

/-- Two repositories, /a/L and /b/L, each with its master. -/
def twoRepos : Listing := ⟨[['/', 'a', '/', 'L'], ['/', 'b', '/', 'L']],
  [(['/', 'b', '/', 'L'], ⟨.git, ['B'], ['/', 'b', '/', 'L'], []⟩), (['/', 'a', '/', 'L'], ⟨.git, ['A'], ['/', 'a', '/', 'L'], []⟩)]⟩

/-- All goes well, no dependencies. -/
def fine (l : Listing) (good : Nat) : World := ⟨l, none, fun _ => some (['f'], ['p']), fun _ => good, fun _ _ => some []⟩

/-- Two repositories whose paths end alike belong at the same path: asked for both, checkout ends well with the first only. -/
theorem checkout_samename_false : (loop (fine twoRepos 9) 9 [['a', '/', 'L'], ['b', '/', 'L']] [] (fun _ => none)).2.2 = .done ∧
    (loop (fine twoRepos 9) 9 [['a', '/', 'L'], ['b', '/', 'L']] [] (fun _ => none)).1 ['L'] = some (.git ['A'] [] (some ['f']) (some ['p']) true) := by decide

/-- A checkout that was interrupted after the clone is taken as complete by the next one: origin stays missing. -/
theorem checkout_interrupted_false :
    (loop (fine twoRepos 1) 9 [['a', '/', 'L']] [] (fun _ => none)).2.2 = .died ∧
    (loop (fine twoRepos 9) 9 [['a', '/', 'L']] [] (loop (fine twoRepos 1) 9 [['a', '/', 'L']] [] (fun _ => none)).1).2.2 = .done ∧
    (loop (fine twoRepos 9) 9 [['a', '/', 'L']] [] (loop (fine twoRepos 1) 9 [['a', '/', 'L']] [] (fun _ => none)).1).1 ['L'] = some (.git ['A'] [] none none false) := by decide

/-- Asked for another branch of a project that is checked out, checkout ends well and leaves the branch that was there. -/
theorem checkout_branch_false : ∃ l, addGits [] [(['/', 'L'], some [['*', ' ', 'm'], [' ', ' ', 'n']])] ⟨[], []⟩ = some l ∧
    select l ['L', '/', 'n'] = some ['/', 'L', '/', 'n'] ∧
    (loop (fine l 9) 9 [['L', '/', 'n']] [] (loop (fine l 9) 9 [['L', '/', 'm']] [] (fun _ => none)).1).2.2 = .done ∧
    (loop (fine l 9) 9 [['L', '/', 'n']] [] (loop (fine l 9) 9 [['L', '/', 'm']] [] (fun _ => none)).1).1 ['L'] = some (.git ['/', 'L'] ['m'] (some ['f']) (some ['p']) true) :=
  ⟨_, rfl, by decide, by decide, by decide⟩

/-! ## The hypotheses can be met -/

example : pathOf ['s', 's', 'd', '.', 'o', 'r', 'g', '/', 'L', '/', 'x'] ⟨.mtn, [], [], []⟩ = ['L', '/', 'x'] := by decide

example : pathOf [] ⟨.git, [], ['/', 'a', '/', 'L'], []⟩ = ['L'] := by decide

example : (loop (fine twoRepos 9) 9 [['a', '/', 'L']] [] (fun _ => none)).2.2 = .done := by decide

example : (loop (fine twoRepos 9) 9 [['a', '/', 'L']] [] (fun p => if p = ['x'] then some .plain else none)).1 ['x'] = some .plain := by decide

example : ∃ b i, Means (fine twoRepos 9) ['a', '/', 'L'] b i ∧ 4 ≤ (fine twoRepos 9).good b ∧ (i.vc = .git → (fine twoRepos 9).origin i.src ≠ none) :=
  ⟨['/', 'a', '/', 'L'], ⟨.git, ['A'], ['/', 'a', '/', 'L'], []⟩, ⟨by decide, by decide⟩, by decide, fun _ => by decide⟩

example : ∀ p d deps, (fine twoRepos 9).config p d = some deps → ∀ x ∈ deps, x ∈ ([] : List Text) := by
  intro p d deps h
  obtain rfl := Option.some.inj h
  exact fun x hx => hx

end Verif.DepVC.Checkout
