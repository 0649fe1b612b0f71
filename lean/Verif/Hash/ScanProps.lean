import Verif.Hash.ScanLemmas
import Verif.Hash.Props

/-! # Incremental scans of a `HashTable` (C98)

`pre` are the calls that built the table, `s.tabs` the states the table was in from the start of the scan to now and
`copies u v` how often `v` is stored in `u`. The number of chains (`entry.length`) is what `end().getCurChain()` returns. -/

namespace Verif.Hash

variable {α : Type} [DecidableEq α] {c : Cfg α} {cap : Nat} {t : Table α}

/-! ## Examples: integers hashed to themselves, at most two entries per chain -/

def exScan : Cfg Nat := ⟨fun n => n, fun a b => a == b, fun n m => decide (n ≥ 2 * m), 0⟩

theorem exScan_law : Lawful exScan :=
  { refl := by intro a; simp [exScan]
    symm := by intro a b h; simp [exScan] at h ⊢; exact h.symm
    trans := by intro a b d h1 h2; simp [exScan] at h1 h2 ⊢; exact h1.trans h2
    hash := by intro a b h; simp [exScan] at h ⊢; rw [h]
    full_zero := by intro n; simp [exScan] }

theorem exScan_fits : Fits exScan 283301878 := fits_default _ _ _

/-- Five chains with six entries. -/
def exPre : List (TOp Nat) := [.add 0, .add 5, .add 10, .add 1, .add 6, .add 13]

def exTable : Table Nat :=
  match tState exScan empty' exPre with
  | .ok t => t
  | _ => empty'

theorem exTable_eq : tState exScan empty' exPre = .ok exTable := by decide +kernel

example : walk exTable = .ok [10, 5, 0, 6, 1, 13] := by decide +kernel

/-! ## C98 -/

/-- C98. As long as the table does not change its number of chains, a finished scan has seen everything that was in the
table throughout, wherever the client paused and whatever it added and removed meanwhile. -/
theorem scan_sees_all_partial (law : Lawful c) (hf : Fits c cap) {pre : List (TOp α)} {steps : List (SStep α)} {s : Scan α}
    (hsmall : pre.length + callCount steps ≤ cap) (h0 : tState c empty' pre = .ok t) (hrun : sRun c (startScan t) steps = .ok s)
    (hend : s.it = end' s.t) (hlen : ∀ u ∈ s.tabs, u.entry.length = t.entry.length) (v : α) (hv : ∀ u ∈ s.tabs, 0 < copies u v) :
    v ∈ s.seen := by
  obtain ⟨bs, h⟩ := si_start (k := callCount steps + 0) law hf (by omega) h0
  obtain ⟨fl, hi⟩ := h.good.inv
  have hv0 : 0 < copies t v := hv t (sRun_tabs c steps _ s hrun t (by simp [startScan]))
  obtain ⟨bs', b', r', h', hs⟩ := scan_all_aux law hf v steps 0 (startScan t) s bs [] _ h hrun hlen hv
    (.inr (by rw [← copies_eq hi]; exact hv0))
  rcases hs with hs | hs
  · exact hs
  · rw [h'.at_end hend] at hs
    simp at hs

/-- Three pauses, two of them inside a chain, with adds and removes of entries before and behind the iterator. -/
def exSteps : List (SStep Nat) :=
  [.visit, .pause [.add 11], .visit, .visit, .pause [.remove 5 true, .add 4], .visit, .visit, .visit, .pause [.remove 4 true], .visit, .visit, .visit, .visit]

/-- The scan as far as `steps` take it. -/
def exRun (steps : List (SStep Nat)) : Scan Nat :=
  match sRun exScan (startScan exTable) steps with
  | .ok s => s
  | _ => startScan exTable

example : sRun exScan (startScan exTable) exSteps = .ok (exRun exSteps) ∧ (exRun exSteps).it = end' (exRun exSteps).t ∧
    (∀ u ∈ (exRun exSteps).tabs, u.entry.length = exTable.entry.length) ∧ (∀ u ∈ (exRun exSteps).tabs, 0 < copies u 13) ∧
    (exRun exSteps).seen = [10, 10, 5, 10, 0, 11, 11, 6, 1, 13] ∧ exPre.length + callCount exSteps ≤ 283301878 := by decide +kernel

/-- C98. What a scan has seen was in the table at some moment of it. -/
theorem scan_sound_partial (law : Lawful c) (hf : Fits c cap) {pre : List (TOp α)} {steps : List (SStep α)} {s : Scan α}
    (hsmall : pre.length + callCount steps ≤ cap) (h0 : tState c empty' pre = .ok t) (hrun : sRun c (startScan t) steps = .ok s)
    (hlen : ∀ u ∈ s.tabs, u.entry.length = t.entry.length) (v : α) (hv : v ∈ s.seen) : ∃ u ∈ s.tabs, 0 < copies u v := by
  obtain ⟨bs, h⟩ := si_start (k := callCount steps + 0) law hf (by omega) h0
  rcases scan_sound_aux law hf v steps 0 (startScan t) s bs [] _ h hrun hlen hv with g | g
  · simp [startScan] at g
  · exact g

example : 11 ∈ (exRun exSteps).seen ∧ ∃ u ∈ (exRun exSteps).tabs, 0 < copies u 11 := by decide +kernel

/-- C98. If the client pauses only at the start of a chain, a finished scan has seen a value as often as it was in the
table: never less often than at the time it was stored least often, never more often than at the time it was stored most
often. -/
theorem scan_count_partial (law : Lawful c) (hf : Fits c cap) {pre : List (TOp α)} {steps : List (SStep α)} {s : Scan α}
    (hsmall : pre.length + callCount steps ≤ cap) (h0 : tState c empty' pre = .ok t) (hrun : sRun c (startScan t) steps = .ok s)
    (hend : s.it = end' s.t) (hlen : ∀ u ∈ s.tabs, u.entry.length = t.entry.length) (hp : PausesAtStart c (startScan t) steps)
    (v : α) (lo hi : Nat) (hv : ∀ u ∈ s.tabs, lo ≤ copies u v ∧ copies u v ≤ hi) : lo ≤ s.seen.count v ∧ s.seen.count v ≤ hi := by
  obtain ⟨bs, h⟩ := si_start (k := callCount steps + 0) law hf (by omega) h0
  obtain ⟨fl, hinv⟩ := h.good.inv
  have hv0 := hv t (sRun_tabs c steps _ s hrun t (by simp [startScan]))
  have e0 : (startScan t).seen.count v + (bs.flatten.map (fun x : Cell α => x.2)).count v = copies t v := by
    have := copies_eq hinv v
    simp only [startScan] at this
    rw [this]; simp [startScan]
  obtain ⟨bs', b', r', h', g1, g2⟩ := scan_count_aux law hf v lo hi steps 0 (startScan t) s bs [] _ h hrun hlen hv hp
    (by rw [e0]; exact hv0) (fun _ => e0)
  rw [h'.at_end hend] at g1 g2
  simpa using ⟨g1, g2⟩

/-- A test for `PausesAtStart`. -/
def pausesOk (c : Cfg α) : Scan α → List (SStep α) → Bool
  | _, [] => true
  | s, x :: xs => (match x with | .visit => true | .pause _ => decide (atStartOfChain s.t s.it = .ok true)) &&
      (match sStep c s x with | .ok s1 => pausesOk c s1 xs | _ => true)

omit [DecidableEq α] in
theorem pausesOk_sound (c : Cfg α) : ∀ (xs : List (SStep α)) (s : Scan α), pausesOk c s xs = true → PausesAtStart c s xs := by
  intro xs
  induction xs with
  | nil => intro s _; trivial
  | cons x xs ih =>
    intro s h
    rw [pausesOk.eq_def] at h
    simp only [Bool.and_eq_true] at h
    refine ⟨?_, ?_⟩
    · intro ops hx
      subst hx
      exact of_decide_eq_true h.1
    · intro s1 e
      have := h.2
      rw [e] at this
      exact ih s1 this

/-- Pauses at the start of chains 1 and 3. -/
def exSteps2 : List (SStep Nat) :=
  [.visit, .visit, .visit, .pause [.add 11, .add 15, .remove 1 true], .visit, .visit, .pause [.add 18, .remove 0 true], .visit, .visit]

theorem exSteps2_starts : PausesAtStart exScan (startScan exTable) exSteps2 :=
  pausesOk_sound exScan exSteps2 _ (by decide +kernel)

example : sRun exScan (startScan exTable) exSteps2 = .ok (exRun exSteps2) ∧ (exRun exSteps2).it = end' (exRun exSteps2).t ∧
    (∀ u ∈ (exRun exSteps2).tabs, u.entry.length = exTable.entry.length) ∧
    (exRun exSteps2).seen = [10, 5, 0, 11, 6, 18, 13] := by decide +kernel


/-- C98. The recommended loop, a chain at a time, sees every value that stays in the table exactly as often as it is
stored, and everything once as many pauses were allowed as there are chains, however long the chains are. -/
theorem chain_scan_partial (law : Lawful c) (hf : Fits c cap) {pre : List (TOp α)} {batches : List (List (TOp α))} {s : Scan α}
    (hsmall : pre.length + callTotal batches ≤ cap) (h0 : tState c empty' pre = .ok t) (hrun : chainScan c (startScan t) batches = .ok s)
    (hlen : ∀ u ∈ s.tabs, u.entry.length = t.entry.length) (hmany : t.entry.length ≤ batches.length) :
    s.it = end' s.t ∧ ∀ v m, (∀ u ∈ s.tabs, copies u v = m) → s.seen.count v = m := by
  obtain ⟨bs, h⟩ := si_start (k := callTotal batches + 0) law hf (by omega) h0
  obtain ⟨steps, g1, g2, g3, g4⟩ := chainScan_run law hf batches 0 (startScan t) s bs [] _ h hrun hlen
  have hend : s.it = end' s.t := by
    rcases g4 with g4 | g4
    · exact g4
    · obtain ⟨fl, hi⟩ := h.good.inv
      obtain ⟨bs2, h2⟩ := si_start (k := callCount steps + 0) law hf (by omega) h0
      obtain ⟨bs', b', r', h', _⟩ := scan_state_aux law hf steps 0 (startScan t) s bs2 [] _ h2 g1 hlen
      exact h'.end_of_chain (by omega)
  refine ⟨hend, ?_⟩
  intro v m hv
  have := scan_count_partial law hf (by omega) h0 g1 hend hlen g2 v m m (fun u hu => by rw [hv u hu]; exact ⟨Nat.le_refl _, Nat.le_refl _⟩)
  omega

def exBatches : List (List (TOp Nat)) := [[.add 11, .remove 0 true], [.add 18, .remove 11 true], [], [.size], [.add 2]]

def exChainRun (b : List (List (TOp Nat))) : Scan Nat :=
  match chainScan exScan (startScan exTable) b with
  | .ok s => s
  | _ => startScan exTable

example : chainScan exScan (startScan exTable) exBatches = .ok (exChainRun exBatches) ∧
    (∀ u ∈ (exChainRun exBatches).tabs, u.entry.length = exTable.entry.length) ∧ exTable.entry.length ≤ exBatches.length ∧
    (exChainRun exBatches).seen = [10, 5, 0, 11, 6, 1, 18, 13] := by decide +kernel

/-- C98. Calls that only look and remove never move the chains: a scan by chains then always comes to its end, sees every
value at least as often as it is left in the table and at most as often as it was there at the start. -/
theorem chain_scan_removes (law : Lawful c) (hf : Fits c cap) {pre : List (TOp α)} {batches : List (List (TOp α))}
    (hsmall : pre.length + callTotal batches ≤ cap) (h0 : tState c empty' pre = .ok t)
    (hq : ∀ ops ∈ batches, ∀ op ∈ ops, Removes op) (hmany : t.entry.length ≤ batches.length) :
    ∃ s, chainScan c (startScan t) batches = .ok s ∧ s.it = end' s.t ∧
      ∀ v, copies s.t v ≤ s.seen.count v ∧ s.seen.count v ≤ copies t v := by
  obtain ⟨bs, h⟩ := si_start (k := callTotal batches + 0) law hf (by omega) h0
  obtain ⟨s, e, hl, hc⟩ := chainScan_removes law hf batches 0 (startScan t) bs [] _ (fun v => copies t v) h hq
    (by intro u hu; simp only [startScan, List.mem_singleton] at hu; rw [hu])
    (by intro v u hu; simp only [startScan, List.mem_singleton] at hu; rw [hu]; exact ⟨Nat.le_refl _, Nat.le_refl _⟩)
  obtain ⟨g, _⟩ := chain_scan_partial law hf hsmall h0 e hl hmany
  refine ⟨s, e, g, ?_⟩
  intro v
  obtain ⟨steps, g1, g2, g3, g4⟩ := chainScan_run law hf batches 0 (startScan t) s bs [] _ h e hl
  exact scan_count_partial law hf (by omega) h0 g1 g hl g2 v _ _ (hc v)

def exRemovals : List (List (TOp Nat)) := [[.remove 0 false, .remove 6 false], [.lookup 13, .remove 99 false], [.size], [.walk], []]

example : (∀ ops ∈ exRemovals, ∀ op ∈ ops, Removes op) ∧ exTable.entry.length ≤ exRemovals.length ∧
    (exChainRun exRemovals).seen = [10, 5, 0, 1, 13] := by
  refine ⟨?_, by decide +kernel⟩
  intro ops h1 op h2
  simp only [exRemovals, List.mem_cons, List.not_mem_nil, or_false] at h1
  rcases h1 with rfl | rfl | rfl | rfl | rfl <;> simp at h2
  · rcases h2 with rfl | rfl <;> trivial
  · rcases h2 with rfl | rfl <;> trivial
  · subst h2; trivial
  · subst h2; trivial

omit [DecidableEq α] in
/-- C98. However a scan was interrupted, the rest of it is there to be seen: it can be finished by steps of the iterator
alone. -/
theorem scan_finishes_partial (law : Lawful c) (hf : Fits c cap) {pre : List (TOp α)} {steps : List (SStep α)} {s : Scan α}
    (hsmall : pre.length + callCount steps ≤ cap) (h0 : tState c empty' pre = .ok t) (hrun : sRun c (startScan t) steps = .ok s)
    (hlen : ∀ u ∈ s.tabs, u.entry.length = t.entry.length) :
    ∃ n s', n ≤ size s.t ∧ sRun c (startScan t) (steps ++ List.replicate n .visit) = .ok s' ∧ s'.it = end' s'.t := by
  obtain ⟨bs, h⟩ := si_start (k := callCount steps + 0) law hf (by omega) h0
  obtain ⟨bs', b', r', h', _⟩ := scan_state_aux law hf steps 0 (startScan t) s bs [] _ h hrun hlen
  obtain ⟨s', g1, g2, _⟩ := visits_to_end r' s b' h'
  refine ⟨r'.length, s', ?_, ?_, g2⟩
  · obtain ⟨fl, hi⟩ := h'.good.inv
    have := congrArg List.length h'.rem.append
    rw [List.length_append] at this
    rw [size_ok hi]
    omega
  · rw [sRun_append c _ _ _ s hrun]; exact g1

omit [DecidableEq α] in
/-- C98. `atEndOfChain()` says that the next step goes to another chain, or to `end()`. -/
theorem atEndOfChain_spec_partial (law : Lawful c) (hf : Fits c cap) {pre : List (TOp α)} {steps : List (SStep α)} {s s' : Scan α}
    (hsmall : pre.length + callCount steps ≤ cap) (h0 : tState c empty' pre = .ok t) (hrun : sRun c (startScan t) steps = .ok s)
    (hlen : ∀ u ∈ s.tabs, u.entry.length = t.entry.length) (hv : visit s = .ok s') :
    atEndOfChain s.t s.it = .ok (decide (s'.it.chain ≠ s.it.chain)) := by
  obtain ⟨bs, h⟩ := si_start (k := callCount steps + 0) law hf (by omega) h0
  obtain ⟨bs', b', r', h', _⟩ := scan_state_aux law hf steps 0 (startScan t) s bs [] _ h hrun hlen
  obtain ⟨p, rest', rfl, _⟩ := si_visit h' hv
  obtain ⟨fl, hi⟩ := h'.good.inv
  rw [visit, Res.bind_eq_ok] at hv
  obtain ⟨v, _, hv⟩ := hv
  rw [Res.bind_eq_ok] at hv
  obtain ⟨it, e, hv⟩ := hv
  simp only [Res.pure_eq] at hv
  injection hv with hv
  subst hv
  rcases rem_atEnd hi h'.rem e with ⟨g1, g2⟩ | ⟨g1, g2⟩
  · have : it.chain ≠ s.it.chain := by omega
    simp [g1, this]
  · simp [g1, g2]

example : (sRun exScan (startScan exTable) [.visit] >>= fun s => atEndOfChain s.t s.it) = .ok false ∧
    (sRun exScan (startScan exTable) [.visit, .visit] >>= fun s => atEndOfChain s.t s.it) = .ok true := by decide +kernel

/-- C98. A client that pauses inside a chain may never leave it: one that looks at one entry between pauses sees the
same entry for ever. -/
theorem scan_stuck : ∀ n, ∃ s, sRun exScan (startScan exTable) (List.replicate n [SStep.visit, SStep.pause []]).flatten = .ok s ∧
    s.seen = List.replicate n 10 ∧ s.it = begin' exTable ∧ s.it ≠ end' s.t := by
  have one : ∀ seen, ∃ s, sRun exScan ⟨exTable, begin' exTable, seen, [exTable]⟩ [.visit, .pause []] = .ok s ∧
      s = ⟨exTable, begin' exTable, seen ++ [10], [exTable]⟩ := by
    intro seen
    have h1 : itDeref exTable (begin' exTable) = .ok 10 := by decide +kernel
    have h2 : incr exTable (begin' exTable) = .ok ⟨0, some 1⟩ := by decide +kernel
    have h3 : partialReset exTable ⟨0, some 1⟩ = .ok (begin' exTable) := by decide +kernel
    exact ⟨_, by simp [sRun, sStep, visit, pause, h1, h2, h3, tStates], rfl⟩
  have key : ∀ n seen, sRun exScan ⟨exTable, begin' exTable, seen, [exTable]⟩ (List.replicate n [SStep.visit, SStep.pause []]).flatten =
      .ok ⟨exTable, begin' exTable, seen ++ List.replicate n 10, [exTable]⟩ := by
    intro n
    induction n with
    | zero => intro seen; simp [sRun]
    | succ n ih =>
      intro seen
      obtain ⟨s, e, hs⟩ := one seen
      rw [List.replicate_succ, List.flatten_cons, sRun_append _ _ _ _ _ e, hs, ih]
      simp [List.replicate_succ]
  intro n
  exact ⟨_, key n [], by simp, rfl, (by decide +kernel : begin' exTable ≠ end' exTable)⟩

/-! ### When the number of chains changes -/

/-- Ten entries in five chains; the next add goes to twenty-three chains. -/
def exFull : List (TOp Nat) := [.add 0, .add 5, .add 10, .add 15, .add 20, .add 1, .add 6, .add 11, .add 2, .add 24]

def exFullTable : Table Nat :=
  match tState exScan empty' exFull with
  | .ok t => t
  | _ => empty'

def growSteps : List (SStep Nat) := List.replicate 8 .visit ++ [.pause [.add 3]] ++ List.replicate 8 .visit

def exGrown : Scan Nat :=
  match sRun exScan (startScan exFullTable) growSteps with
  | .ok s => s
  | _ => startScan exFullTable

def exWide : Table Nat :=
  match tState exScan empty' [.reserve 20, .add 5, .add 7] with
  | .ok t => t
  | _ => empty'

def exShrunk : Scan Nat :=
  match sRun exScan (startScan exWide) [.pause [.clear, .reserve 1]] with
  | .ok s => s
  | _ => startScan exWide

/-- C98 is false when the table grows during the scan. The value 24 is in the table all the time and the only pause is at
the start of a chain, but the finished scan has not seen it; others it has seen twice. -/
theorem scan_growth_false : ∃ (t : Table Nat) (s : Scan Nat), tState exScan empty' exFull = .ok t ∧ sRun exScan (startScan t) growSteps = .ok s ∧
    s.it = end' s.t ∧ PausesAtStart exScan (startScan t) growSteps ∧ (∀ u ∈ s.tabs, copies u 24 = 1) ∧ 24 ∉ s.seen ∧
    (∀ u ∈ s.tabs, copies u 5 = 1) ∧ s.seen.count 5 = 2 := by
  refine ⟨exFullTable, exGrown, ?_⟩
  have h := pausesOk_sound exScan growSteps (startScan exFullTable) (by decide +kernel)
  exact ⟨by decide +kernel, by decide +kernel, by decide +kernel, h, by decide +kernel, by decide +kernel, by decide +kernel, by decide +kernel⟩

/-- C98 is false when the table shrinks during the scan: after `clear()` and `reserve(1)` `partialReset` leaves an iterator
at a chain that does not exist, which is not `end()` and stops the program when used. -/
theorem scan_shrink_false : ∃ (t : Table Nat) (s : Scan Nat), tState exScan empty' [.reserve 20, .add 5, .add 7] = .ok t ∧
    sRun exScan (startScan t) [.pause [.clear, .reserve 1]] = .ok s ∧ size s.t = 0 ∧ s.it ≠ end' s.t ∧ visit s = .abort :=
  ⟨exWide, exShrunk, by decide +kernel, by decide +kernel, by decide +kernel, by decide +kernel, by decide +kernel⟩

/-! ### Starting again -/

omit [DecidableEq α] in
/-- C98. `reset()` on a table that holds something starts the walk again, from wherever the iterator was. -/
theorem reset_begin_partial (law : Lawful c) (hf : Fits c cap) {pre : List (TOp α)} (hsmall : pre.length ≤ cap)
    (h0 : tState c empty' pre = .ok t) (it : Iter) (hs : size t ≠ 0) : reset t it = begin' t := by
  obtain ⟨bs, h⟩ := si_start (k := 0) law hf (by omega) h0
  obtain ⟨fl, hi⟩ := h.good.inv
  have hne : (begin' t).loc ≠ none := by
    rcases begin_ok hi with ⟨g, _⟩ | ⟨pre, p, post, _, g, _⟩
    · simp only [startScan] at hi
      rw [size_ok hi, g] at hs
      exact absurd rfl hs
    · simp only [startScan] at g
      rw [g]; simp
  exact findNonempty_any t.entry _ 0 it.loc hne

example : size exTable ≠ 0 ∧ reset exTable ⟨3, some 5⟩ = begin' exTable ∧ begin' exTable ≠ ⟨3, some 5⟩ := by decide +kernel

/-- C98. On a table that was emptied meanwhile `reset()` is not `begin()` and not `end()`: the iterator keeps the slot it
had. A loop up to `end()` then stops the program. -/
theorem reset_empty_false : ∃ (t : Table Nat) (it : Iter) (t' : Table Nat), tState exScan empty' [.add 5] = .ok t ∧ it = begin' t ∧
    tState exScan t [.remove 5 true] = .ok t' ∧ reset t' it ≠ begin' t' ∧ reset t' it ≠ end' t' ∧ begin' t' = end' t' := by
  refine ⟨⟨[some 0, none, none, none, none], [⟨5, none⟩], none, 0⟩, _, ⟨[none, none, none, none, none], [⟨0, none⟩], some 0, 1⟩, ?_, rfl, ?_⟩ <;> decide +kernel

end Verif.Hash
