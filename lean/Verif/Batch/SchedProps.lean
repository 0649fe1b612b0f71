import Verif.Batch.SchedLemmas

/-! # C124: running things in parallel -/

namespace Verif.Batch
variable {α : Type}

/-- **C124.** Whatever the environment answers, and even if the program dies: things are started in order and none twice or left out in between; never more than `par` at a time; the module is told of each end once, in the order of the ends, with success exactly
for status 0 and with the right thing; and the things whose process ended, with those still running, are those that were started. -/
theorem local_sound (par : Nat) (things : List α) (forks : List (Option Nat)) (waits : List Wait) (s : St α) (h : (localParallel par false things { forks := forks, waits := waits }).state = s) :
    (starts s.log).reverse <+: things ∧ AtMost par s.log ∧ reports s.log = exits s.log ∧ ((exits s.log).map Prod.fst ++ s.alive.map Prod.snd).Perm (starts s.log) := by
  have hs := local_spec par things forks waits
  subst h
  generalize localParallel par false things { forks := forks, waits := waits } = o at hs
  cases o with
  | more s' => exact ⟨hs.2.1, hs.1.bound, hs.1.rep, hs.1.perm⟩
  | died s' => exact ⟨hs.2.1, hs.1.bound, hs.1.rep, hs.1.perm⟩
  | ok s' => exact ⟨by rw [Out.state, hs.2.1]; exact List.prefix_refl _, hs.1.bound, hs.1.rep, hs.1.perm⟩

/-- **C124.** When it returns, everything was started and has ended, and the module was told of each thing exactly once. -/
theorem local_complete (par : Nat) (things : List α) (forks : List (Option Nat)) (waits : List Wait) (s : St α) (h : localParallel par false things { forks := forks, waits := waits } = .ok s) :
    (starts s.log).reverse = things ∧ ((reports s.log).map Prod.fst).Perm things ∧ s.alive = [] := by
  have hs := local_spec par things forks waits
  rw [h] at hs
  refine ⟨hs.2.1, ?_, hs.2.2⟩
  have hp := hs.1.perm
  rw [hs.2.2] at hp
  simp only [List.map_nil, List.append_nil] at hp
  rw [hs.1.rep]
  exact hp.trans ((List.reverse_perm _).symm.trans (by rw [hs.2.1]))

/-- **C124.** It does return, without dying, if at least one process is allowed, each `fork` works, the module accepts what was built, and every process ends: one answer per thing is enough. -/
theorem local_returns (par : Nat) (hp : 1 ≤ par) (things : List α) (forks : List (Option Nat)) (waits : List Wait) (hf : things.length ≤ forks.length) (hw : things.length ≤ waits.length)
    (hf' : ∀ f ∈ forks, f ≠ none) (hw' : ∀ w ∈ waits, w.dies = false) : ∃ s, localParallel par false things { forks := forks, waits := waits } = .ok s := by
  have hs := local_spec par things forks waits
  generalize localParallel par false things { forks := forks, waits := waits } = o at hs
  cases o with
  | more s' => exact absurd ⟨hf, hw⟩ hs.2.2
  | died s' => have := hs.2.2 hf' hw'; omega
  | ok s' => exact ⟨s', rfl⟩

/-- Three things, two at a time; the second ends first, and the third fails. Process 7 is used again. -/
example : (match localParallel 2 false ["a", "b", "c"] { forks := [some 5, some 7, some 7], waits := [⟨0, 0, false⟩, ⟨1, 0, false⟩, ⟨0, 256, false⟩] } with
    | .ok s => some s.log.reverse | _ => none) =
    some [.started "a", .started "b", .exited "b" 0, .success "b", .started "c", .exited "a" 0, .success "a", .exited "c" 256, .fail "c"] := by decide +kernel

/-- **C124.** With `-n` nothing is started; what would be is printed in order. -/
theorem local_noexec (par : Nat) (hp : 1 ≤ par) (things : List α) (forks : List (Option Nat)) (waits : List Wait) :
    ∃ s, localParallel par true things { forks := forks, waits := waits } = .ok s ∧ starts s.log = [] ∧ (messages s.log).reverse = things := by
  have key : ∀ (things : List α) (s : St α), s.n = 0 → ∃ s', launch par true things s = .ok s' ∧ starts s'.log = starts s.log ∧ (messages s'.log).reverse = (messages s.log).reverse ++ things ∧ s'.n = 0 := by
    intro things
    induction things with
    | nil => intro s hn; exact ⟨s, rfl, rfl, by simp, hn⟩
    | cons a things ih =>
      intro s hn
      obtain ⟨s', h1, h2, h3, h4⟩ := ih (s.say (.message a)) hn
      refine ⟨s', ?_, by rw [h2]; simp [St.say, starts], by rw [h3]; simp [St.say, messages], h4⟩
      unfold launch makeRoom
      rw [if_neg (by omega)]
      simpa [startOne] using h1
  obtain ⟨s', h1, h2, h3, h4⟩ := key things { forks := forks, waits := waits } rfl
  refine ⟨s', ?_, by rw [h2]; rfl, by rw [h3]; simp [messages]⟩
  unfold localParallel
  rw [h1]
  show drain s'.n s' = _
  rw [h4]
  rfl

/-- **C124.** With `-j 0` it dies before anything is started or printed. -/
theorem local_zero_false (noExec : Bool) (a : α) (things : List α) (forks : List (Option Nat)) (w : Wait) (waits : List Wait) :
    ∃ s, localParallel 0 noExec (a :: things) { forks := forks, waits := w :: waits } = .died s ∧ s.log = [] := ⟨_, rfl, rfl⟩

/-- **C124.** That its exit code tells of failures is false: it is 0 when everything failed. -/
theorem local_exit_false (a : α) : exitCode (localParallel 1 false [a] { forks := [some 1], waits := [⟨0, 256, false⟩] }) = some 0 ∧
    (.fail a) ∈ (localParallel 1 false [a] { forks := [some 1], waits := [⟨0, 256, false⟩] }).state.log := ⟨rfl, List.mem_cons_self⟩

/-- **C124.** If the module dies of one thing (say because a file cannot be renamed), the rest is not built, and a process is left behind. -/
theorem local_success_dies_false (a b c : α) : ∃ s, localParallel 2 false [a, b, c] { forks := [some 1, some 2, some 3], waits := [⟨0, 0, true⟩] } = .died s ∧ starts s.log = [b, a] ∧ s.alive.length = 1 := ⟨_, rfl, rfl, rfl⟩

end Verif.Batch
