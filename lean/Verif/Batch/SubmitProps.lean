import Verif.Batch.Submit

/-! # batch-parallel: the commands given to the batch systems (C261) -/

namespace Verif.Batch.Submit

open Verif.Deptool.Deps (Text)

/-! ## Specification -/

/-- A text that the shell takes as it is, as part of a word. -/
def Plain (t : Text) : Prop := t ≠ [] ∧ ∀ c ∈ t, c.isAlphanum = true ∨ c ∈ "/._-+,:=@%".toList

/-- A text that may stand in quotes. -/
def Quotable (t : Text) : Prop := '\'' ∉ t

/-- The words of a command for the batch system. -/
def shell (cmd : Text) : List Text := sh none false cmd

def Job.Good (j : Job) : Prop :=
  Plain j.njobs ∧ Plain j.size ∧ Plain j.width ∧ Plain j.workdir ∧ Plain j.prog ∧ Plain j.module ∧ Plain j.host ∧ Plain j.pid ∧ Quotable j.usage ∧ ∀ q, j.queue = some q → Plain q

/-- What qsub is to be given: the tasks of the array, the place of the logs, and the program for one group. -/
def qsubWords (j : Job) : List Text :=
  ["qsub".toList, "-b".toList, ['y'], "-r".toList, ['y'], "-cwd".toList, "-t".toList, "1-".toList ++ j.njobs, "-o".toList, j.workdir ++ "/log.$TASK_ID".toList, "-j".toList, ['y'],
    j.prog, "--codineexec=".toList ++ j.size, j.module, "--".toList, j.workdir]

def queueWords : Option Text → List Text
  | some q => ["-q".toList, q]
  | none => []

def usageWords (u : Text) : List Text := if u = [] then [] else ["-R".toList, u]

/-- The name of the array: who it is from, its tasks, and how many of them run at a time. -/
def arrayName (j : Job) : Text :=
  "batch-parallel:".toList ++ j.host ++ ":".toList ++ j.pid ++ ":".toList ++ j.module ++ ":".toList ++ j.host ++ ":[1-".toList ++ j.njobs ++ "]%".toList ++ j.width

/-- The program for one group, with the place of the logs. -/
def groupWords (j : Job) : List Text :=
  ["-o".toList, j.workdir ++ "/log.%I".toList, j.prog, "--lsfexec=".toList ++ j.size, j.module, "--".toList, j.workdir]

/-- What bsub is to be given: a queue and what the jobs need, if there are any; an array of tasks of which so many run at a time; the place of the logs, and the program for one group. -/
def bsubWords (j : Job) : List Text :=
  "bsub".toList :: (queueWords j.queue ++ "-r".toList :: (usageWords j.usage ++ "-J".toList :: arrayName j :: groupWords j))

/-! ## Lemmas -/

/-- No blank and no quote. -/
def Solid (t : Text) : Prop := ' ' ∉ t ∧ '\'' ∉ t

theorem plain_solid {t : Text} (h : Plain t) : Solid t := by
  constructor <;> intro hm <;> rcases h.2 _ hm with h | h <;> revert h <;> decide

theorem sh_solid (cur : Option Text) (a t : Text) (hn : a ≠ []) (ha : Solid a) : sh cur false (a ++ t) = sh (some (cur.getD [] ++ a)) false t := by
  induction a generalizing cur with
  | nil => exact absurd rfl hn
  | cons c a ih =>
    have h1 : c ≠ '\'' := fun e => ha.2 (by simp [e])
    have h2 : c ≠ ' ' := fun e => ha.1 (by simp [e])
    rw [List.cons_append, sh, if_neg h1, if_neg h2]
    by_cases hz : a = []
    · subst hz
      rfl
    · rw [ih _ hz ⟨fun h => ha.1 (by simp [h]), fun h => ha.2 (by simp [h])⟩]
      simp

theorem sh_end (cur : Option Text) (a : Text) (hn : a ≠ []) (ha : Solid a) : sh cur false a = [cur.getD [] ++ a] := by
  have := sh_solid cur a [] hn ha
  rw [List.append_nil] at this
  rw [this, sh]
  rfl

theorem sh_blank (cur : Option Text) (t : Text) : sh cur false (' ' :: t) = cur.toList ++ sh none false t := by
  rw [sh, if_neg (by decide), if_pos rfl]

theorem sh_quoted' (cur : Text) (a t : Text) (ha : '\'' ∉ a) : sh (some cur) true (a ++ '\'' :: t) = sh (some (cur ++ a)) false t := by
  induction a generalizing cur with
  | nil => rw [List.nil_append, sh, if_pos rfl, List.append_nil]
  | cons c a ih =>
    have h1 : c ≠ '\'' := fun e => ha (by simp [e])
    rw [List.cons_append, sh, if_neg h1, ih _ fun h => ha (by simp [h])]
    simp

theorem sh_quoted (cur : Option Text) (a t : Text) (ha : '\'' ∉ a) : sh cur false ('\'' :: (a ++ '\'' :: t)) = sh (some (cur.getD [] ++ a)) false t := by
  rw [sh, if_pos rfl, sh_quoted' _ a t ha]

/-! ## C261 -/

/-- With Codine, the shell gives qsub exactly the words meant. -/
theorem codine_words_partial (j : Job) (h : j.Good) : shell (codineCmd j) = qsubWords j := by
  obtain ⟨h1, h2, -, h4, h5, h6, -⟩ := h
  have e : codineCmd j = ['q', 's', 'u', 'b'] ++ ' ' :: (['-', 'b'] ++ ' ' :: (['y'] ++ ' ' :: (['-', 'r'] ++ ' ' :: (['y'] ++ ' ' :: (['-', 'c', 'w', 'd'] ++ ' ' :: (['-', 't'] ++ ' ' ::
    (['1', '-'] ++ (j.njobs ++ ' ' :: (['-', 'o'] ++ ' ' :: (j.workdir ++ (['/'] ++ '\'' :: ("log.$TASK_ID".toList ++ '\'' :: (' ' :: (['-', 'j'] ++ ' ' :: (['y'] ++ ' ' ::
    (j.prog ++ ' ' :: ("--codineexec=".toList ++ (j.size ++ ' ' :: (j.module ++ ' ' :: (['-', '-'] ++ ' ' :: j.workdir)))))))))))))))))))) := rfl
  unfold shell
  rw [e, sh_solid none _ _ (by decide) (by unfold Solid; decide), sh_blank, sh_solid none _ _ (by decide) (by unfold Solid; decide), sh_blank,
    sh_solid none _ _ (by decide) (by unfold Solid; decide), sh_blank, sh_solid none _ _ (by decide) (by unfold Solid; decide), sh_blank,
    sh_solid none _ _ (by decide) (by unfold Solid; decide), sh_blank, sh_solid none _ _ (by decide) (by unfold Solid; decide), sh_blank,
    sh_solid none _ _ (by decide) (by unfold Solid; decide), sh_blank, sh_solid none _ _ (by decide) (by unfold Solid; decide),
    sh_solid _ _ _ h1.1 (plain_solid h1), sh_blank, sh_solid none _ _ (by decide) (by unfold Solid; decide), sh_blank,
    sh_solid none _ _ h4.1 (plain_solid h4), sh_solid _ _ _ (by decide) (by unfold Solid; decide), sh_quoted _ _ _ (by decide), sh_blank,
    sh_solid none _ _ (by decide) (by unfold Solid; decide), sh_blank, sh_solid none _ _ (by decide) (by unfold Solid; decide), sh_blank,
    sh_solid none _ _ h5.1 (plain_solid h5), sh_blank, sh_solid none _ _ (by decide) (by unfold Solid; decide), sh_solid _ _ _ h2.1 (plain_solid h2), sh_blank,
    sh_solid none _ _ h6.1 (plain_solid h6), sh_blank, sh_solid none _ _ (by decide) (by unfold Solid; decide), sh_blank, sh_end none _ h4.1 (plain_solid h4)]
  simp [qsubWords]

theorem sh_queue (q : Option Text) (t : Text) (h : ∀ x, q = some x → Plain x) :
    sh none false (queueArg q ++ ' ' :: t) = queueWords q ++ sh none false t := by
  cases q with
  | none => exact sh_blank none t
  | some x =>
    have hx := h x rfl
    have e : queueArg (some x) ++ ' ' :: t = ['-', 'q'] ++ ' ' :: (x ++ ' ' :: t) := rfl
    rw [e, sh_solid none _ _ (by decide) (by unfold Solid; decide), sh_blank, sh_solid none _ _ hx.1 (plain_solid hx), sh_blank]
    rfl

theorem sh_usage (u t : Text) (h : Quotable u) : sh none false (usageArg u ++ ' ' :: t) = usageWords u ++ sh none false t := by
  unfold usageArg usageWords
  split
  · exact sh_blank none t
  · have e : "-R '".toList ++ (u ++ ['\'']) ++ ' ' :: t = ['-', 'R'] ++ ' ' :: ('\'' :: (u ++ '\'' :: (' ' :: t))) := by
      rw [List.append_assoc, List.append_assoc]
      rfl
    rw [e, sh_solid none _ _ (by decide) (by unfold Solid; decide), sh_blank, sh_quoted _ _ _ h, sh_blank]
    rfl

theorem jobname_quotable (j : Job) (h : j.Good) : '\'' ∉ jobname j := by
  obtain ⟨h1, -, h3, -, -, h6, h7, h8, -⟩ := h
  have a1 := (plain_solid h1).2
  have a3 := (plain_solid h3).2
  have a6 := (plain_solid h6).2
  have a7 := (plain_solid h7).2
  have a8 := (plain_solid h8).2
  unfold jobname
  simp [a1, a3, a6, a7, a8]

theorem lsf_form (j : Job) : lsfCmd j = ['b', 's', 'u', 'b'] ++ ' ' :: (queueArg j.queue ++ ' ' :: (['-', 'r'] ++ ' ' :: (usageArg j.usage ++ ' ' :: (['-', 'J'] ++ ' ' :: ('\'' :: (jobname j ++ '\'' :: (' ' ::
    (['-', 'o'] ++ ' ' :: (j.workdir ++ ("/log.%I".toList ++ ' ' :: (j.prog ++ ' ' :: ("--lsfexec=".toList ++ (j.size ++ ' ' :: (j.module ++ ' ' :: (['-', '-'] ++ ' ' :: j.workdir))))))))))))))) := by
  unfold lsfCmd
  generalize queueArg j.queue = q
  generalize usageArg j.usage = u
  generalize jobname j = n
  simp

theorem sh_tail (j : Job) (n : Text) (hn : '\'' ∉ n) (h2 : Plain j.size) (h4 : Plain j.workdir) (h5 : Plain j.prog) (h6 : Plain j.module) :
    sh none false (['-', 'J'] ++ ' ' :: ('\'' :: (n ++ '\'' :: (' ' :: (['-', 'o'] ++ ' ' :: (j.workdir ++ ("/log.%I".toList ++ ' ' :: (j.prog ++ ' ' :: ("--lsfexec=".toList ++
      (j.size ++ ' ' :: (j.module ++ ' ' :: (['-', '-'] ++ ' ' :: j.workdir)))))))))))) =
    "-J".toList :: n :: groupWords j := by
  unfold groupWords
  rw [sh_solid none _ _ (by decide) (by unfold Solid; decide), sh_blank, sh_quoted _ _ _ hn, sh_blank, sh_solid none _ _ (by decide) (by unfold Solid; decide), sh_blank,
    sh_solid none _ _ h4.1 (plain_solid h4), sh_solid _ _ _ (by decide) (by unfold Solid; decide), sh_blank, sh_solid none _ _ h5.1 (plain_solid h5), sh_blank,
    sh_solid none _ _ (by decide) (by unfold Solid; decide), sh_solid _ _ _ h2.1 (plain_solid h2), sh_blank, sh_solid none _ _ h6.1 (plain_solid h6), sh_blank,
    sh_solid none _ _ (by decide) (by unfold Solid; decide), sh_blank, sh_end none _ h4.1 (plain_solid h4)]
  simp

theorem jobname_eq (j : Job) : jobname j = arrayName j := by
  unfold jobname arrayName
  simp

/-- With LSF, the shell gives bsub exactly the words meant, with the number of tasks that may run at a time. -/
theorem lsf_words_partial (j : Job) (h : j.Good) : shell (lsfCmd j) = bsubWords j := by
  have hq := jobname_quotable j h
  obtain ⟨-, h2, -, h4, h5, h6, -, -, h9, h10⟩ := h
  have e1 : (none : Option Text).getD [] ++ ['b', 's', 'u', 'b'] = "bsub".toList := by decide
  have e2 : (none : Option Text).getD [] ++ ['-', 'r'] = "-r".toList := by decide
  unfold shell
  rw [lsf_form, sh_solid none _ _ (by decide) (by unfold Solid; decide), sh_blank, sh_queue _ _ h10, sh_solid none _ _ (by decide) (by unfold Solid; decide), sh_blank, sh_usage _ _ h9,
    sh_tail j _ hq h2 h4 h5 h6, jobname_eq, e1, e2]
  rw [bsubWords, Option.toList_some, Option.toList_some, List.singleton_append, List.singleton_append]

/-- Something is run exactly if it is not to be only shown and there is a batch system; Codine comes first and takes no queue. -/
theorem runs_iff (sge lsf noExec : Bool) (j : Job) (c : Text) :
    submit sge lsf noExec j = .run c ↔ noExec = false ∧ ((sge = true ∧ j.queue = none ∧ c = codineCmd j) ∨ (sge = false ∧ lsf = true ∧ c = lsfCmd j)) := by
  unfold submit
  cases sge <;> cases lsf <;> cases noExec <;> cases j.queue <;> simp [eq_comm]

/-- False: that the width bounds the jobs that run at a time (documented for both systems): with Codine it does not go into the command. -/
theorem codine_width_false (noExec lsf : Bool) (j : Job) (w : Text) : submit true lsf noExec { j with width := w } = submit true lsf noExec j := rfl

/-- False: that the place of the lists may be any directory: with a blank in it, the words are others. -/
theorem blank_false (j : Job) (h : j.Good) : shell (codineCmd { j with workdir := "a b".toList }) ≠ qsubWords { j with workdir := "a b".toList } := by
  obtain ⟨h1, h2, -, -, h5, h6, -⟩ := h
  have e : codineCmd { j with workdir := "a b".toList } = ['q', 's', 'u', 'b'] ++ ' ' :: (['-', 'b'] ++ ' ' :: (['y'] ++ ' ' :: (['-', 'r'] ++ ' ' :: (['y'] ++ ' ' :: (['-', 'c', 'w', 'd'] ++ ' ' ::
    (['-', 't'] ++ ' ' :: (['1', '-'] ++ (j.njobs ++ ' ' :: (['-', 'o'] ++ ' ' :: (['a'] ++ ' ' :: (['b', '/'] ++ '\'' :: ("log.$TASK_ID".toList ++ '\'' :: (' ' :: (['-', 'j'] ++ ' ' :: (['y'] ++ ' ' ::
    (j.prog ++ ' ' :: ("--codineexec=".toList ++ (j.size ++ ' ' :: (j.module ++ ' ' :: (['-', '-'] ++ ' ' :: ['a', ' ', 'b'])))))))))))))))))))) := rfl
  intro hc
  have hc := congrArg (fun l => l[9]?) hc
  unfold shell at hc
  rw [e, sh_solid none _ _ (by decide) (by unfold Solid; decide), sh_blank, sh_solid none _ _ (by decide) (by unfold Solid; decide), sh_blank,
    sh_solid none _ _ (by decide) (by unfold Solid; decide), sh_blank, sh_solid none _ _ (by decide) (by unfold Solid; decide), sh_blank,
    sh_solid none _ _ (by decide) (by unfold Solid; decide), sh_blank, sh_solid none _ _ (by decide) (by unfold Solid; decide), sh_blank,
    sh_solid none _ _ (by decide) (by unfold Solid; decide), sh_blank, sh_solid none _ _ (by decide) (by unfold Solid; decide),
    sh_solid _ _ _ h1.1 (plain_solid h1), sh_blank, sh_solid none _ _ (by decide) (by unfold Solid; decide), sh_blank,
    sh_solid none _ _ (by decide) (by unfold Solid; decide), sh_blank] at hc
  simp [qsubWords] at hc

/-! ### The hypotheses are met -/

def demo : Job := ⟨some ['q'], ['3'], ['2'], ['8'], "/w/x".toList, "/bin/bp".toList, "make".toList, ['h'], ['7'], "mem > 5".toList⟩

example : demo.Good := by
  refine ⟨⟨?_, ?_⟩, ⟨?_, ?_⟩, ⟨?_, ?_⟩, ⟨?_, ?_⟩, ⟨?_, ?_⟩, ⟨?_, ?_⟩, ⟨?_, ?_⟩, ⟨?_, ?_⟩, ?_, ?_⟩
  all_goals first
    | decide
    | (unfold Quotable; decide)
    | skip
  rintro q ⟨⟩
  exact ⟨by decide, by decide⟩

end Verif.Batch.Submit
