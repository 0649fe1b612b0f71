import Verif.Deptool.Deps

/-! # batch-parallel: the commands given to the batch systems

Model of src/batch-parallel.in: batch_submit (267-275), codine_submit (382-398) and lsf_submit (400-428). A command is one text, which the shell takes apart; of the shell, blanks and single quotes are modelled. Numbers are texts here. -/

namespace Verif.Batch.Submit

open Verif.Deptool.Deps (Text)

/-- What is known when a job is submitted. Used in the model of `batch-parallel.in:382-428` (`codine`, `lsf`). -/
structure Job where
  queue : Option Text
  /-- the number of groups -/
  njobs : Text
  /-- the things in a group -/
  size : Text
  width : Text
  workdir : Text
  /-- `$0` -/
  prog : Text
  module : Text
  host : Text
  pid : Text
  /-- `getResourceUsage` -/
  usage : Text

/-- Line 389. -/
def codineCmd (j : Job) : Text :=
  "qsub -b y -r y -cwd -t 1-".toList ++ (j.njobs ++ (" -o ".toList ++ (j.workdir ++ ("/'log.$TASK_ID' -j y ".toList ++ (j.prog ++ (" --codineexec=".toList ++ (j.size ++
    (' ' :: (j.module ++ (" -- ".toList ++ j.workdir))))))))))

/-- Lines 403-408: the queue. -/
def queueArg : Option Text → Text
  | some q => "-q ".toList ++ q
  | none => []

/-- Lines 415-417. -/
def usageArg (u : Text) : Text := if u = [] then [] else "-R '".toList ++ (u ++ ['\''])

/-- Line 413. -/
def jobname (j : Job) : Text :=
  "batch-parallel:".toList ++ (j.host ++ (':' :: (j.pid ++ (':' :: (j.module ++ (':' :: (j.host ++ (":[1-".toList ++ (j.njobs ++ ("]%".toList ++ j.width))))))))))

/-- Line 418. -/
def lsfCmd (j : Job) : Text :=
  "bsub ".toList ++ (queueArg j.queue ++ (" -r ".toList ++ (usageArg j.usage ++ (" -J '".toList ++ (jobname j ++ ("' -o ".toList ++ (j.workdir ++ ("/log.%I ".toList ++ (j.prog ++
    (" --lsfexec=".toList ++ (j.size ++ (' ' :: (j.module ++ (" -- ".toList ++ j.workdir))))))))))))))

/-- What comes of it. Used in the model of `batch-parallel.in:267-275` (`submit`). -/
inductive Out
  | died
  /-- the command is printed only -/
  | should (cmd : Text)
  | run (cmd : Text)
deriving DecidableEq

/-- `batch_submit`, lines 267-275, with lines 383, 390-397 and 419-427; `sge` and `lsf`: the variables are set. -/
def submit (sge lsf noExec : Bool) (j : Job) : Out :=
  if sge then
    if j.queue.isSome then .died
    else if noExec then .should (codineCmd j) else .run (codineCmd j)
  else if lsf then
    if noExec then .should (lsfCmd j) else .run (lsfCmd j)
  else .died

/-- The words the shell finds, with the word begun and whether a quote is open. Not a function of the code; the shell that `system` runs, `batch-parallel.in:394`, `424`. -/
def sh : Option Text → Bool → Text → List Text
  | cur, _, [] => cur.toList
  | cur, true, c :: t => if c = '\'' then sh cur false t else sh (some (cur.getD [] ++ [c])) true t
  | cur, false, c :: t =>
    if c = '\'' then sh (some (cur.getD [])) true t
    else if c = ' ' then cur.toList ++ sh none false t
    else sh (some (cur.getD [] ++ [c])) false t

end Verif.Batch.Submit
