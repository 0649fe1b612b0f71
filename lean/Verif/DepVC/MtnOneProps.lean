import Verif.DepVC.MtnLogProps

/-!
# One revision, and its reviews (C223, C224)
-/

namespace Verif.DepVC.MtnLog

open Verif.Deptool.Deps (Text isWord)

/-! ## One revision -/

/-- Values of at least two characters, and no key more than twice. -/
structure OneOk (c : Commit) : Prop where
  fields : ∀ f ∈ c.fields, FieldOk f
  long : ∀ f ∈ c.fields, 2 ≤ f.val.length
  twice : ∀ k, (valuesOf k (⟨"Revision".toList, [' '], c.rev⟩ :: c.fields)).length ≤ 2
  author : valuesOf "Author" c.fields ≠ []
  date : valuesOf "Date" c.fields ≠ []
  branch : valuesOf "Branch" c.fields ≠ []

theorem field1_show {f : Field} (h : FieldOk f) (hl : 2 ≤ f.val.length) : field1 (showField f) = some (f.key, f.val) := by
  obtain ⟨k, p, v⟩ := f
  obtain ⟨h1, h2, h3, h4, h5⟩ := h
  have hs := span_word k (p ++ v) h2
  unfold field1 showField
  simp only
  rw [hs.1, hs.2]
  cases k with
  | nil => exact absurd rfl h1
  | cons a k =>
    cases p with
    | nil => exact absurd rfl h3
    | cons s p =>
      have hsp := (isSpace_iff s).mpr (h4 s (by simp))
      have e := drop_pad p v (fun c hc => h4 c (List.mem_cons_of_mem _ hc)) h5
      show (if isSpace s = true then _ else none) = _
      rw [if_pos hsp]
      show (match (p ++ v).dropWhile isSpace with | x :: y :: w => some (a :: k, x :: y :: w) | _ => none) = _
      rw [e]
      match v, hl with
      | x :: y :: w, _ => rfl

theorem show_facts {f : Field} (h : FieldOk f) : showField f ≠ [] ∧ dashes (showField f) = false := by
  cases hk : f.key with
  | nil => exact absurd hk h.key
  | cons a k =>
    have ha := h.word a (by simp [hk])
    have e : showField f = a :: (k ++ ':' :: (f.pad ++ f.val)) := by simp [showField, hk]
    rw [e]
    refine ⟨by simp, ?_⟩
    unfold dashes
    rw [List.all_cons]
    have : (a == '-') = false := by
      simp only [beq_eq_false_iff_ne, ne_eq]
      rintro rfl
      exact absurd ha (by decide)
    rw [this]; rfl

theorem values_append (k : Text) (a b : List (Text × Text)) : values k (a ++ b) = values k a ++ values k b := by
  simp [values]

theorem header1_show (fs : List Field) (hf : ∀ f ∈ fs, FieldOk f) (hl : ∀ f ∈ fs, 2 ≤ f.val.length) (rest : List Text) : ∀ acc : List (Text × Text),
    (∀ k, (values k (acc ++ fs.map fun f => (f.key, f.val))).length ≤ 2) → header1 acc (fs.map showField ++ [] :: rest) = some (acc ++ fs.map fun f => (f.key, f.val), rest) := by
  induction fs with
  | nil => intro acc _; simp [header1]
  | cons f fs ih =>
    intro acc hk
    have h := hf f (by simp)
    have h2 := hl f (by simp)
    rw [List.map_cons, List.cons_append, header1, if_neg (show_facts h).1, (show_facts h).2]
    simp only [Bool.false_eq_true, if_false, field1_show h h2]
    have hlt : ¬ 2 ≤ (values f.key acc).length := by
      have := hk f.key
      rw [values_append, List.length_append] at this
      have h3 : 1 ≤ (values f.key (List.map (fun f => (f.key, f.val)) (f :: fs))).length := by simp [values]
      omega
    rw [if_neg hlt, ih (fun g hg => hf g (List.mem_cons_of_mem _ hg)) (fun g hg => hl g (List.mem_cons_of_mem _ hg)) _ (by simpa using hk)]
    simp

theorem valuesOf_cons_ne {k : String} {f : Field} {fs : List Field} (h : f.key ≠ k.toList) : valuesOf k (f :: fs) = valuesOf k fs := by
  simp [valuesOf, h]

theorem revField_ok {r : Text} (hh : ∀ c ∈ r, Hex c) : FieldOk ⟨"Revision".toList, [' '], r⟩ := by
  refine ⟨fun h => (by cases h), (show ∀ c ∈ "Revision".toList, isWord c = true by decide), fun h => (by cases h), (show ∀ c ∈ [' '], Space c by unfold Space; decide), fun c hc hs => ?_⟩
  have := hh c (List.mem_of_mem_head? hc)
  rcases hs with rfl | rfl | rfl | rfl | rfl | rfl <;> exact absurd this (by unfold Hex; decide)

/-- C223. What is shown of a revision in a code review is what monotone says about it, and its changelog as it was written, if all values have two characters and no key is there three times. -/
theorem mtninfo_partial (c : Commit) (hlen : c.rev.length = 40) (hhex : ∀ x ∈ c.rev, Hex x) (h : OneOk c) :
    ∃ i, parse1 (showCommit c) = some i ∧ i.revision = c.rev :: valuesOf "Revision" c.fields ∧ i.ancestor = valuesOf "Parent" c.fields ∧ i.author = valuesOf "Author" c.fields ∧
      i.date = valuesOf "Date" c.fields ∧ i.branch = valuesOf "Branch" c.fields ∧ i.changelog = c.log.flatMap (· ++ ['\n']) := by
  have e : showCommit c = line65 :: ((⟨"Revision".toList, [' '], c.rev⟩ :: c.fields : List Field).map showField ++ [] :: "Changelog: ".toList :: [] :: c.log) := rfl
  have hv : ∀ k : String, values k.toList ((⟨"Revision".toList, [' '], c.rev⟩ :: c.fields : List Field).map fun f => (f.key, f.val)) = valuesOf k (⟨"Revision".toList, [' '], c.rev⟩ :: c.fields) :=
    fun k => values_eq k _
  have hh := header1_show (⟨"Revision".toList, [' '], c.rev⟩ :: c.fields)
    (fun f hf => by rcases List.mem_cons.mp hf with rfl | hf; exact revField_ok hhex; exact h.fields f hf)
    (fun f hf => by rcases List.mem_cons.mp hf with rfl | hf; (show 2 ≤ c.rev.length; omega); exact h.long f hf)
    ("Changelog: ".toList :: [] :: c.log) [] (fun k => by
      have := h.twice (String.ofList k)
      rw [← hv (String.ofList k), String.toList_ofList] at this
      exact this)
  have h1 : header1 [] (showCommit c) = some ((⟨"Revision".toList, [' '], c.rev⟩ :: c.fields : List Field).map (fun f => (f.key, f.val)), "Changelog: ".toList :: [] :: c.log) := by
    rw [e, header1, if_neg (by decide), if_pos (rule_dashes line65_rule)]
    exact hh
  unfold parse1
  rw [h1]
  have hr := hv "Revision"
  have hp := hv "Parent"
  have ha := hv "Author"
  have hd := hv "Date"
  have hb := hv "Branch"
  have hr' : valuesOf "Revision" (⟨"Revision".toList, [' '], c.rev⟩ :: c.fields) = c.rev :: valuesOf "Revision" c.fields := rfl
  rw [hr'] at hr
  rw [valuesOf_cons_ne (show "Revision".toList ≠ "Parent".toList by decide)] at hp
  rw [valuesOf_cons_ne (show "Revision".toList ≠ "Author".toList by decide)] at ha
  rw [valuesOf_cons_ne (show "Revision".toList ≠ "Date".toList by decide)] at hd
  rw [valuesOf_cons_ne (show "Revision".toList ≠ "Branch".toList by decide)] at hb
  have hr2 : values ['R', 'e', 'v', 'i', 's', 'i', 'o', 'n'] ((⟨"Revision".toList, [' '], c.rev⟩ :: c.fields : List Field).map fun f => (f.key, f.val)) = c.rev :: valuesOf "Revision" c.fields := hr
  have hp2 : values ['P', 'a', 'r', 'e', 'n', 't'] ((⟨"Revision".toList, [' '], c.rev⟩ :: c.fields : List Field).map fun f => (f.key, f.val)) = valuesOf "Parent" c.fields := hp
  have ha2 : values ['A', 'u', 't', 'h', 'o', 'r'] ((⟨"Revision".toList, [' '], c.rev⟩ :: c.fields : List Field).map fun f => (f.key, f.val)) = valuesOf "Author" c.fields := ha
  have hd2 : values ['D', 'a', 't', 'e'] ((⟨"Revision".toList, [' '], c.rev⟩ :: c.fields : List Field).map fun f => (f.key, f.val)) = valuesOf "Date" c.fields := hd
  have hb2 : values ['B', 'r', 'a', 'n', 'c', 'h'] ((⟨"Revision".toList, [' '], c.rev⟩ :: c.fields : List Field).map fun f => (f.key, f.val)) = valuesOf "Branch" c.fields := hb
  simp only [hr2, hp2, ha2, hd2, hb2]
  rw [if_pos]
  · exact ⟨_, rfl, rfl, rfl, rfl, rfl, rfl, text_eq c.log⟩
  · simp only [Bool.and_eq_true, Bool.not_eq_true', decide_eq_true_eq]
    refine ⟨⟨⟨⟨⟨rfl, trivial⟩, rfl⟩, ?_⟩, ?_⟩, ?_⟩
    · cases hx : valuesOf "Author" c.fields with | nil => exact absurd hx h.author | cons => rfl
    · cases hx : valuesOf "Date" c.fields with | nil => exact absurd hx h.date | cons => rfl
    · cases hx : valuesOf "Branch" c.fields with | nil => exact absurd hx h.branch | cons => rfl

def date : Field := ⟨"Date".toList, "     ".toList, "2009-07-14T00:00:00".toList⟩
def parent : Field := ⟨"Parent".toList, "   ".toList, rev2⟩
def third : Field := ⟨"Branch".toList, "   ".toList, "x/Lintel.old".toList⟩

/-- A revision in two branches. -/
example : OneOk ⟨rev1, [parent, who, date, branch, merged], ["fix".toList]⟩ where
  fields := by
    intro f hf
    simp only [List.mem_cons, List.not_mem_nil, or_false] at hf
    rcases hf with rfl | rfl | rfl | rfl | rfl <;> exact ⟨by decide, by decide, by decide, by unfold Space; decide, by unfold Space; decide⟩
  long := by decide
  twice := by
    intro k
    unfold valuesOf
    have h : ∀ t : Text, (List.filterMap (fun f : Field => if f.key = t then some f.val else none) [⟨"Revision".toList, [' '], rev1⟩, parent, who, date, branch, merged]).length ≤ 2 := by
      intro t
      by_cases h : t ∈ ["Revision".toList, "Parent".toList, "Author".toList, "Date".toList, "Branch".toList]
      · simp only [List.mem_cons, List.not_mem_nil, or_false] at h
        rcases h with rfl | rfl | rfl | rfl | rfl <;> decide
      · have h0 : (List.filterMap (fun f : Field => if f.key = t then some f.val else none) [⟨"Revision".toList, [' '], rev1⟩, parent, who, date, branch, merged]) = [] := by
          rw [List.filterMap_eq_nil_iff]
          intro f hf
          rw [if_neg]
          rintro rfl
          apply h
          simp only [List.mem_cons, List.not_mem_nil, or_false] at hf
          rcases hf with rfl | rfl | rfl | rfl | rfl | rfl <;> decide
        rw [h0]; decide
    exact h k.toList
  author := by decide
  date := by decide
  branch := by decide

set_option maxRecDepth 8000 in
/-- C223 is false for the first revision of a project, whose parent is empty: the review does not start. -/
theorem mtninfo_first_false : ∃ c, CommitOk c ∧ c.fields = [root, who, date, branch] ∧ parse1 (showCommit c) = none ∧ ∃ e, parse (showLog [c]) = .ok [e] ∧ e.ancestor = [[]] := by
  refine ⟨⟨rev1, [root, who, date, branch], ["first".toList]⟩, ⟨rfl, ?_, ?_, by decide, ?_⟩, rfl, rfl, _, rfl, rfl⟩
  · intro x hx; rw [List.eq_of_mem_replicate hx]; unfold Hex; decide
  · intro f hf
    simp only [List.mem_cons, List.not_mem_nil, or_false] at hf
    rcases hf with rfl | rfl | rfl | rfl <;> exact ⟨by decide, by decide, by decide, by unfold Space; decide, by unfold Space; decide⟩
  · intro a d r b e
    have := congrArg List.length e
    simp only [List.length_cons, List.length_nil, List.length_append] at this
    omega

/-- All of them. -/
theorem mtninfo_empty_false (c : Commit) (fs gs : List Field) (h : c.fields = fs ++ ⟨"Parent".toList, "   ".toList, []⟩ :: gs) (hf : ∀ f ∈ fs, FieldOk f) (hh : ∀ x ∈ c.rev, Hex x) : parse1 (showCommit c) = none := by
  have key : ∀ (fs : List Field) (acc : List (Text × Text)) (rest : List Text), (∀ f ∈ fs, FieldOk f) → header1 acc (fs.map showField ++ showField ⟨"Parent".toList, "   ".toList, []⟩ :: rest) = none := by
    intro fs
    induction fs with
    | nil => intro acc rest _; rfl
    | cons f fs ih =>
      intro acc rest hf
      have h := hf f (by simp)
      rw [List.map_cons, List.cons_append, header1, if_neg (show_facts h).1, (show_facts h).2]
      simp only [Bool.false_eq_true, if_false]
      cases field1 (showField f) with
      | none => rfl
      | some kv =>
        obtain ⟨k, v⟩ := kv
        simp only
        split
        · rfl
        · exact ih _ _ fun g hg => hf g (List.mem_cons_of_mem _ hg)
  have e : showCommit c = line65 :: ((⟨"Revision".toList, [' '], c.rev⟩ :: fs : List Field).map showField ++ showField ⟨"Parent".toList, "   ".toList, []⟩ :: (gs.map showField ++ [] :: "Changelog: ".toList :: [] :: c.log)) := by
    unfold showCommit
    rw [h]
    simp [showField]
  unfold parse1
  rw [e, header1, if_neg (by decide), if_pos (rule_dashes line65_rule), key]
  intro f hf'
  rcases List.mem_cons.mp hf' with rfl | hf'
  · exact revField_ok hh
  · exact hf f hf'

set_option maxRecDepth 8000 in
/-- … and for one that is in three branches. -/
theorem mtninfo_three_false : ∃ c : Commit, c.fields = [parent, who, date, branch, merged, third] ∧ parse1 (showCommit c) = none ∧ ∃ e, parse (showLog [c]) = .ok [e] ∧ e.branch.length = 3 :=
  ⟨⟨rev1, [parent, who, date, branch, merged, third], ["first".toList]⟩, rfl, rfl, _, rfl, rfl⟩

/-! ## Reviews -/

/-- What is certified of a revision: by whom, whether the signature is right, what, and the lines of the value. -/
structure Cert where
  key : Text
  sig : Text
  name : Text
  val : Text
  more : List Text
deriving DecidableEq, Repr

/-- What `mtn list certs` prints. -/
def showCert (c : Cert) : List Text :=
  line65 :: ("Key   : ".toList ++ c.key) :: ("Sig   : ".toList ++ c.sig) :: ("Name  : ".toList ++ c.name) :: ("Value : ".toList ++ c.val) :: c.more.map ("      : ".toList ++ ·)

/-- The reviews among them: who, and the (first line of the) comment. -/
def reviewsOf (cs : List Cert) : List (Text × Text) := cs.filterMap fun c => if c.name = "review".toList then some (c.key, c.val) else none

theorem cert_key (k : Text) (h : k ≠ []) : cert ['K', 'e', 'y'] ("Key   : ".toList ++ k) = some k := by
  cases k with
  | nil => exact absurd rfl h
  | cons a k => rfl

theorem cert_val (v : Text) (h : v ≠ []) : value ("Value : ".toList ++ v) = some v := by
  cases v with
  | nil => exact absurd rfl h
  | cons a k =>
    unfold value
    rw [if_pos]; rfl
    rw [Bool.and_eq_true, decide_eq_true_eq]
    refine ⟨rfl, ?_⟩
    rw [List.length_append]
    have : "Value : ".toList.length = 8 := rfl
    simp only [List.length_cons]; omega

theorem isReview_name (n : Text) : isReview ("Name  : ".toList ++ n) = decide (n = "review".toList) := by
  have e : cert ['N', 'a', 'm', 'e'] ("Name  : ".toList ++ n) = if n = [] then none else some n := by
    cases n with
    | nil => rfl
    | cons a n => rfl
  unfold isReview
  rw [e]
  by_cases h : n = []
  · rw [if_pos h, h]; rfl
  · rw [if_neg h]
    rw [Bool.eq_iff_iff]
    simp only [beq_iff_eq, Option.some.injEq, decide_eq_true_eq]
    exact Iff.rfl

theorem not_review (l : Text) (h : l.head? ≠ some 'N') : isReview l = false := by
  unfold isReview cert
  cases l with
  | nil => rfl
  | cons c l =>
    have : c ≠ 'N' := fun e => h (by rw [e]; rfl)
    rw [if_neg]; rfl
    simp [List.isPrefixOf, this.symm]

theorem skip (certs : List Text) (ls : List Text) (hl : ∀ l ∈ ls, isReview l = false) : ∀ (pre post : List Text) (n : Nat), certs = pre ++ ls ++ post →
    reviews certs (ls.length + n) pre.length = reviews certs n (pre.length + ls.length) := by
  induction ls with
  | nil => intro pre post n _; simp
  | cons l ls ih =>
    intro pre post n e
    have hi : certs[pre.length]? = some l := by rw [e]; simp
    rw [show (l :: ls).length + n = (ls.length + n) + 1 by simp; omega, reviews, hi]
    simp only [hl l (by simp), Bool.not_false, if_true]
    have := ih (fun x hx => hl x (List.mem_cons_of_mem _ hx)) (pre ++ [l]) post n (by rw [e]; simp)
    rw [List.length_append] at this
    rw [show pre.length + 1 = pre.length + [l].length from rfl, this]
    congr 1
    simp; omega

theorem reviews_all (certs : List Text) (cs : List Cert) (hk : ∀ c ∈ cs, c.name = "review".toList → c.key ≠ [] ∧ c.val ≠ []) : ∀ (pre : List Text), certs = pre ++ cs.flatMap showCert →
    reviews certs (cs.flatMap showCert).length pre.length = some (reviewsOf cs) := by
  induction cs with
  | nil => intro pre _; rfl
  | cons c cs ih =>
    intro pre e
    have hd := hk c (by simp)
    have e1 : certs = pre ++ [line65, "Key   : ".toList ++ c.key, "Sig   : ".toList ++ c.sig] ++ (("Name  : ".toList ++ c.name) :: ("Value : ".toList ++ c.val) :: (c.more.map ("      : ".toList ++ ·) ++ cs.flatMap showCert)) := by
      rw [e]; simp [showCert]
    have hlen : ((c :: cs).flatMap showCert).length = [line65, "Key   : ".toList ++ c.key, "Sig   : ".toList ++ c.sig].length + (1 + ((("Value : ".toList ++ c.val) :: c.more.map ("      : ".toList ++ ·)).length + (cs.flatMap showCert).length)) := by
      simp [showCert]; omega
    rw [hlen, skip certs _ (by
      intro l hl
      simp only [List.mem_cons, List.not_mem_nil, or_false] at hl
      rcases hl with rfl | rfl | rfl <;> exact not_review _ (fun h => absurd (Option.some.inj h) (by decide))) pre _ _ e1]
    generalize hN : ((("Value : ".toList ++ c.val) :: c.more.map ("      : ".toList ++ ·)).length + (cs.flatMap showCert).length) = N
    have hname : certs[pre.length + 3]? = some ("Name  : ".toList ++ c.name) := by rw [e1]; simp
    have hkey : certs[pre.length + 1]? = some ("Key   : ".toList ++ c.key) := by rw [e1]; simp
    have hval : certs[pre.length + 4]? = some ("Value : ".toList ++ c.val) := by rw [e1]; simp
    have hrest : reviews certs N (pre.length + 4) = some (reviewsOf cs) := by
      have e2 : certs = (pre ++ [line65, "Key   : ".toList ++ c.key, "Sig   : ".toList ++ c.sig, "Name  : ".toList ++ c.name]) ++ (("Value : ".toList ++ c.val) :: c.more.map ("      : ".toList ++ ·)) ++ cs.flatMap showCert := by
        rw [e]; simp [showCert]
      have h1 := skip certs _ (by
        intro l hl
        rcases List.mem_cons.mp hl with rfl | hl
        · exact not_review _ (fun h => absurd (Option.some.inj h) (by decide))
        · obtain ⟨m, -, rfl⟩ := List.mem_map.mp hl
          exact not_review _ (fun h => absurd (Option.some.inj h) (by decide))) _ _ (cs.flatMap showCert).length e2
      have h2 := ih (fun x hx => hk x (List.mem_cons_of_mem _ hx)) _ e2
      rw [← hN]
      rw [List.length_append] at h2
      have h3 : (pre ++ [line65, "Key   : ".toList ++ c.key, "Sig   : ".toList ++ c.sig, "Name  : ".toList ++ c.name]).length = pre.length + 4 := by simp
      rw [h3] at h1 h2
      rw [h1, h2]
    show reviews certs (1 + N) (pre.length + 3) = _
    rw [Nat.add_comm 1 N, reviews, hname]
    simp only [isReview_name]
    by_cases hr : c.name = "review".toList
    · have hd := hd hr
      rw [show (if pre.length + 3 < 2 then certs.length + (pre.length + 3) - 2 else pre.length + 3 - 2) = pre.length + 1 by rw [if_neg (by omega)]; omega, hkey, hval, decide_eq_true hr]
      simp only [Bool.not_true, Bool.false_eq_true, if_false, Option.bind_some, cert_key _ hd.1, cert_val _ hd.2, hrest]
      simp [reviewsOf, hr]
    · rw [decide_eq_false hr]
      simp only [Bool.not_false, if_true]
      rw [show pre.length + 3 + 1 = pre.length + 4 from rfl, hrest]
      unfold reviewsOf
      rw [List.filterMap_cons, if_neg hr]

/-- C224. The reviews of a revision are those that were recorded: all of them, in their order, with the right author and comment, whatever is in other certificates. -/
theorem mtnreviews_partial (cs : List Cert) (hk : ∀ c ∈ cs, c.name = "review".toList → c.key ≠ [] ∧ c.val ≠ []) : getReviews (cs.flatMap showCert) = some (reviewsOf cs) :=
  reviews_all _ cs hk [] (by simp)

/-- A changelog that quotes a review is not one. -/
def quoted : Cert := ⟨"eric@x".toList, "ok".toList, "changelog".toList, "a".toList, ["Name  : review".toList, "review".toList]⟩
def good : Cert := ⟨"jay@x".toList, "ok".toList, "review".toList, "fine".toList, []⟩

set_option maxRecDepth 8000 in
example : getReviews ([quoted, good].flatMap showCert) = some [("jay@x".toList, "fine".toList)] := by rfl
example : ∀ c ∈ [quoted, good], c.name = "review".toList → c.key ≠ [] ∧ c.val ≠ [] := by decide

set_option maxRecDepth 8000 in
/-- C224 is false if there is a review without a comment: then there is no answer at all. -/
theorem mtnreviews_empty_false : ∃ cs : List Cert, good ∈ cs ∧ getReviews (cs.flatMap showCert) = none :=
  ⟨[good, ⟨"eric@x".toList, "ok".toList, "review".toList, [], []⟩], by decide, rfl⟩

set_option maxRecDepth 8000 in
/-- … and reviews count whose signature is wrong or unknown. -/
theorem mtnreviews_signature_false : ∃ c : Cert, c.sig = "bad".toList ∧ getReviews (showCert c) = some [(c.key, c.val)] :=
  ⟨⟨"jay@x".toList, "bad".toList, "review".toList, "fine".toList, []⟩, rfl, rfl⟩

end Verif.DepVC.MtnLog
