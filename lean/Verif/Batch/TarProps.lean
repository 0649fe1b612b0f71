import Verif.Batch.Tar

/-!
# Properties of `BatchParallel::tar` (C132, C133)
-/

namespace Verif.Batch.Tar

def total (fs : List File) : Nat := (fs.map est).sum

/-- What holds of a group and its destination. -/
def GroupOk (o : Opts) (g : Name × List File) : Prop :=
  total g.2 ≤ o.target ∧ ∃ f l, g.2.head? = some f ∧ g.2.getLast? = some l ∧ g.1 = destName o f.1 l.1

/-- The next file would not have fitted. -/
def Full (o : Opts) : List (Name × List File) → Prop
  | g :: h :: gs => (∀ f, h.2.head? = some f → o.target < total g.2 + est f) ∧ Full o (h :: gs)
  | _ => True

theorem newThing_some {o : Opts} {taken : List Name} {g : List File} {n : Name} (h : newThing o taken g = some n) :
    n ∉ taken ∧ ∃ f l, g.head? = some f ∧ g.getLast? = some l ∧ n = destName o f.1 l.1 := by
  unfold newThing at h
  cases h1 : g.head? with
  | none => simp [h1] at h
  | some f =>
    cases h2 : g.getLast? with
    | none => simp [h1, h2] at h
    | some l =>
      simp only [h1, h2] at h
      split at h
      · cases h
      · rename_i hn
        simp only [Option.some.injEq] at h
        subst h
        exact ⟨hn, f, l, rfl, rfl, rfl⟩

theorem group_spec (o : Opts) (fs cur : List File) (size : Nat) (taken : List Name) (gs : List (Name × List File)) (hs : size = total cur) (ht : size ≤ o.target) (h : group o fs cur size taken = some gs) :
    (gs.map Prod.snd).flatten = cur ++ fs ∧ (∀ g ∈ gs, GroupOk o g) ∧ (∀ g ∈ gs, g.1 ∉ taken) ∧ (gs.map Prod.fst).Nodup ∧ Full o gs ∧
      (∀ f, cur.head? = some f → ∃ g, gs.head? = some g ∧ g.2.head? = some f) := by
  induction fs generalizing cur size taken gs with
  | nil =>
    unfold group at h
    split at h
    · cases hn : newThing o taken cur with
      | none => simp [hn] at h
      | some n =>
        simp only [hn, Option.map_some, Option.some.injEq] at h
        subst h
        obtain ⟨h1, f, l, h2, h3, h4⟩ := newThing_some hn
        refine ⟨by simp, ?_, ?_, by simp, trivial, ?_⟩
        · intro g hg
          simp only [List.mem_singleton] at hg
          subst hg
          exact ⟨by simp only; omega, f, l, h2, h3, h4⟩
        · intro g hg
          simp only [List.mem_singleton] at hg
          subst hg
          exact h1
        · intro f hf
          exact ⟨_, rfl, hf⟩
    · rename_i hc
      have hc : cur = [] := Classical.not_not.1 hc
      subst hc
      simp only [Option.some.injEq] at h
      subst h
      simp [Full]
  | cons f fs ih =>
    unfold group at h
    split at h
    · cases h
    · split at h
      · cases h
      · rename_i hf
        have hf : est f ≤ o.target := by omega
        split at h
        · rename_i hbig
          cases hn : newThing o taken cur with
          | none => simp [hn] at h
          | some n =>
            simp only [hn] at h
            cases hr : group o fs [f] (est f) (n :: taken) with
            | none => simp [hr] at h
            | some gs' =>
              simp only [hr, Option.map_some, Option.some.injEq] at h
              subst h
              obtain ⟨h1, a, l, h2, h3, h4⟩ := newThing_some hn
              obtain ⟨i1, i2, i3, i4, i5, i7⟩ := ih [f] (est f) (n :: taken) gs' (by simp [total]) hf hr
              obtain ⟨g0, hg0, hh⟩ := i7 f rfl
              refine ⟨?_, ?_, ?_, ?_, ?_, ?_⟩
              · rw [List.map_cons, List.flatten_cons, i1]
                simp
              · intro g hg
                rcases List.mem_cons.1 hg with rfl | hg
                · exact ⟨by simp only; omega, a, l, h2, h3, h4⟩
                · exact i2 g hg
              · intro g hg
                rcases List.mem_cons.1 hg with rfl | hg
                · exact h1
                · exact fun hm => i3 g hg (List.mem_cons_of_mem _ hm)
              · rw [List.map_cons, List.nodup_cons]
                refine ⟨?_, i4⟩
                intro hm
                obtain ⟨g, hg, e⟩ := List.mem_map.1 hm
                exact i3 g hg (by rw [e]; exact List.mem_cons_self)
              · cases gs' with
                | nil => simp at hg0
                | cons g1 gs' =>
                  simp only [List.head?_cons, Option.some.injEq] at hg0
                  subst hg0
                  refine ⟨?_, i5⟩
                  intro f' hf'
                  rw [hh] at hf'
                  simp only [Option.some.injEq] at hf'
                  subst hf'
                  simp only
                  omega
              · intro f' hf'
                exact ⟨_, rfl, hf'⟩
        · rename_i hsm
          have e : total (cur ++ [f]) = total cur + est f := by simp [total]
          obtain ⟨i1, i2, i3, i4, i5, i7⟩ := ih (cur ++ [f]) (size + est f) taken gs (by omega) (by omega) h
          refine ⟨by rw [i1]; simp, i2, i3, i4, i5, ?_⟩
          · intro f' hf'
            apply i7
            cases cur with
            | nil => simp at hf'
            | cons a cur => simpa using hf'

/-- **C132.** If it does not die: the groups, one after the other, are the files found, in order; none is empty; the estimated size of each is at most the target; the first file of the next group would not have fitted; and no two have the same destination, which is named after the first and last file. -/
theorem groups_spec (o : Opts) (fs : List File) (gs : List (Name × List File)) (h : groups o fs = some gs) :
    (gs.map Prod.snd).flatten = fs ∧ (∀ g ∈ gs, g.2 ≠ [] ∧ total g.2 ≤ o.target) ∧ Full o gs ∧ (gs.map Prod.fst).Nodup ∧ ∀ g ∈ gs, ∃ f l, g.2.head? = some f ∧ g.2.getLast? = some l ∧ g.1 = destName o f.1 l.1 := by
  obtain ⟨h1, h2, _, h4, h5, _⟩ := group_spec o fs [] 0 [] gs rfl (Nat.zero_le _) h
  refine ⟨h1, fun g hg => ⟨?_, (h2 g hg).1⟩, h5, h4, fun g hg => (h2 g hg).2⟩
  obtain ⟨f, l, k, _⟩ := (h2 g hg).2
  intro e
  rw [e] at k
  cases k

theorem group_dies (o : Opts) (fs cur : List File) (size : Nat) (taken : List Name) (f : File) (hf : f ∈ fs) (hb : o.target < est f) : group o fs cur size taken = none := by
  induction fs generalizing cur size taken with
  | nil => cases hf
  | cons a fs ih =>
    unfold group
    split
    · rfl
    · rcases List.mem_cons.1 hf with rfl | hf
      · rw [if_pos (by omega)]
      · split
        · rfl
        · split
          · cases newThing o taken cur with
            | none => rfl
            | some n => simp [ih _ _ _ hf]
          · exact ih _ _ _ hf

/-- **C132.** If one file alone is too large, nothing is packed at all. -/
theorem groups_too_large (o : Opts) (fs : List File) (f : File) (hf : f ∈ fs) (hb : o.target < est f) : groups o fs = none := group_dies o fs [] 0 [] f hf hb

example : groups { target := 1000 } [([['d'], ['a']], 300), ([['d'], ['b']], 300), ([['d'], ['c']], 10), ([['e']], 800)] =
    some [("d_a--d_b.tar".toList, [([['d'], ['a']], 300), ([['d'], ['b']], 300)]), ("d_c.tar".toList, [([['d'], ['c']], 10)]), ("e.tar".toList, [([['e']], 800)])] := by decide +kernel
example : groups { target := 1000 } [([['d'], ['a']], 801)] = none := by decide +kernel

/-- The least size of a tar file: a header of 512 bytes for each file, contents and the end in blocks of 512. -/
def tarSize (fs : List File) : Nat := (fs.map fun f => 512 + (f.2 + 511) / 512 * 512).sum + 1024

/-- **C132.** That the tar files are no larger than the target is false, and not by a bounded amount or factor below 5: `n` files of one byte fit the target `201 n`, and the tar file has `1024 n + 1024` bytes. -/
theorem target_false (n : Nat) (hn : 0 < n) (p : Path) (hp : p.head?.bind List.head? ≠ some '-') : ∃ g, groups { target := 201 * n } (List.replicate n (p, 1)) = some [g] ∧ g.2 = List.replicate n (p, 1) ∧ tarSize g.2 = 1024 * n + 1024 ∧ 5 * (201 * n) < tarSize g.2 := by
  have key : ∀ (k m : Nat), m + k = n → group { target := 201 * n } (List.replicate k (p, 1)) (List.replicate m (p, 1)) (201 * m) [] = some [(destName { target := 201 * n } p p, List.replicate n (p, 1))] := by
    intro k
    induction k with
    | zero =>
      intro m hm
      have : m = n := by omega
      subst this
      cases m with
      | zero => omega
      | succ m =>
        have e1 : (List.replicate (m + 1) (p, 1)).head? = some (p, 1) := rfl
        have e2 : (List.replicate (m + 1) (p, 1)).getLast? = some (p, 1) := by simp [List.getLast?_replicate]
        show group _ [] _ _ _ = _
        unfold group
        rw [if_pos (by simp [List.replicate_succ])]
        unfold newThing
        rw [e1, e2]
        simp
    | succ k ih =>
      intro m hm
      rw [List.replicate_succ]
      unfold group
      rw [if_neg hp, if_neg (by simp only [est]; omega), if_neg (by simp only [est]; omega)]
      have e : List.replicate m (p, 1) ++ [(p, 1)] = List.replicate (m + 1) (p, 1) := by rw [List.replicate_succ']
      have := ih (m + 1) (by omega)
      rw [e]
      simpa [est, Nat.mul_add] using this
  have hs : tarSize (List.replicate n (p, 1)) = 1024 * n + 1024 := by
    simp only [tarSize, List.map_replicate, List.sum_replicate_nat]
    omega
  exact ⟨_, key n 0 (by omega), rfl, hs, by simp only; omega⟩

/-! ## What `tar` is told to read -/

theorem parts_join (o : Opts) (p : Path) : (pathToParts o p).1 ++ (pathToParts o p).2 = p := by
  unfold pathToParts
  split <;> simp

/-- A path that does not begin with `-`. -/
def Plain (p : Path) : Prop := p.head?.bind List.head? ≠ some '-'

theorem asRead_plain {p : Path} (h : Plain p) : asRead (.member p) = .member p := by
  unfold asRead
  split
  · rename_i he; cases he
  · rename_i he
    simp only [Line.member.injEq] at he
    subst he
    simp [Plain] at h
  · rename_i he; exact he.symm

/-- The name a file is to be stored under (lines 100-108 of the usage text): with path-parts=`k` its last `k` components (all if it has fewer), with strip-path=`k` what is left after the first `k`, otherwise the whole path. -/
def StoredAs (o : Opts) (p n : Path) : Prop :=
  n <:+ p ∧
    match o.pathParts, o.stripPath with
    | some k, _ => n.length = min k p.length
    | none, some k => n.length = p.length - k
    | none, none => n = p

/-- **C133.** The rest of the path that `tar` is given is the one the options ask for. -/
theorem tar_stored (o : Opts) (p : Path) : StoredAs o p (pathToParts o p).2 := by
  unfold StoredAs pathToParts
  cases o.pathParts with
  | some k => exact ⟨List.drop_suffix .., by simp only [List.length_drop]; omega⟩
  | none =>
    cases o.stripPath with
    | some k => exact ⟨List.drop_suffix .., by simp only [List.length_drop]⟩
    | none => exact ⟨List.suffix_refl _, rfl⟩

example : StoredAs { target := 0, pathParts := some 1 } [[], ['a'], ['b']] [['b']] :=
  tar_stored { target := 0, pathParts := some 1 } [[], ['a'], ['b']]

/-- **C133.** Without options, or for absolute paths of which something more than the root is taken off: `tar` reads exactly the files of the group, each stored under the rest of its path. -/
theorem tar_reads_partial (o : Opts) (cwd : Path) (ps : List Path)
    (h : (o.pathParts = none ∧ o.stripPath = none) ∨ ∀ p ∈ ps, p.head? = some [] ∧ 2 ≤ (pathToParts o p).1.length ∧ p.tail.all (· ≠ []) ∧ (pathToParts o p).2 ≠ [])
    (hp : ∀ p ∈ ps, Plain (pathToParts o p).2) :
    tarReads cwd (tarList o ps) = ps.map fun p => (resolve cwd p, (pathToParts o p).2) := by
  rcases h with ⟨h1, h2⟩ | h
  · have hparts : ∀ p, pathToParts o p = ([], p) := fun p => by simp [pathToParts, h1, h2]
    induction ps with
    | nil => rfl
    | cons p ps ih =>
      have hpl := hp p List.mem_cons_self
      rw [hparts] at hpl
      have : tarList o (p :: ps) = .member p :: tarList o ps := by
        simp [tarList, hparts, joinSlash]
      rw [this]
      simp only [tarReads, asRead_plain hpl, List.map_cons, hparts]
      rw [ih (fun q hq => hp q (List.mem_cons_of_mem _ hq))]
      simp [hparts]
  · induction ps generalizing cwd with
    | nil => rfl
    | cons p ps ih =>
      obtain ⟨k1, k2, k3, k4⟩ := h p List.mem_cons_self
      have hpl := hp p List.mem_cons_self
      have hj := parts_join o p
      generalize hd : pathToParts o p = d at *
      obtain ⟨dir, rest⟩ := d
      simp only at k2 k4 hpl hj
      match dir, k2 with
      | a :: b :: dir', _ =>
        subst hj
        simp only [List.cons_append, List.head?_cons, Option.some.injEq] at k1
        subst k1
        simp only [List.cons_append, List.tail_cons, List.all_cons, Bool.and_eq_true, decide_eq_true_eq] at k3
        have hne : joinSlash ([] :: b :: dir') ≠ [] := by simp [joinSlash]
        have : tarList o (([] :: b :: dir' ++ rest) :: ps) = .chdir ([] :: b :: dir') :: .member rest :: tarList o ps := by
          have := hd
          simp only [List.cons_append] at this
          simp [tarList, this, hne]
        simp only [List.cons_append] at this ⊢
        rw [this]
        have ec : asRead (.chdir ([] :: b :: dir')) = .chdir ([] :: b :: dir') := rfl
        simp only [tarReads, ec, asRead_plain hpl, List.map_cons]
        have hr : rest.head? ≠ some [] := by
          have := k3.2
          simp only [List.all_append, Bool.and_eq_true] at this
          cases rest with
          | nil => simp
          | cons x rest =>
            simp only [List.all_cons, Bool.and_eq_true, decide_eq_true_eq] at this
            simp [this.2.1]
        have e1 : resolve (resolve cwd ([] :: b :: dir')) rest = [] :: b :: (dir' ++ rest) := by simp [resolve, hr]
        have e2 : resolve cwd ([] :: b :: (dir' ++ rest)) = [] :: b :: (dir' ++ rest) := by simp [resolve]
        rw [e1, e2, ih _ (fun q hq => hp q (List.mem_cons_of_mem _ hq)) (fun q hq => h q (List.mem_cons_of_mem _ hq))]
        have hd' : pathToParts o ([] :: b :: (dir' ++ rest)) = ([] :: b :: dir', rest) := hd
        rw [hd']
        congr 1
        apply List.map_congr_left
        intro q hq
        have := (h q (List.mem_cons_of_mem _ hq)).1
        simp [resolve, this]

example : tarReads [['w']] (tarList { target := 1, pathParts := some 1 } [[[], ['a'], ['x']], [[], ['b'], ['y']]]) = [([[], ['a'], ['x']], [['x']]), ([[], ['b'], ['y']], [['y']])] := by decide +kernel
example : ∀ p ∈ ([[[], ['a'], ['x']], [[], ['b'], ['y']]] : List Path), p.head? = some [] ∧ 2 ≤ (pathToParts { target := 1, pathParts := some 1 } p).1.length ∧ p.tail.all (· ≠ []) ∧ (pathToParts { target := 1, pathParts := some 1 } p).2 ≠ [] := by decide +kernel

/-- **C133.** False for relative paths: with `path-parts=1` the second of the files `a/x` and `b/y` is looked for in `a/b`. -/
theorem tar_relative_false : tarReads [] (tarList { target := 1, pathParts := some 1 } [[['a'], ['x']], [['b'], ['y']]]) = [([['a'], ['x']], [['x']]), ([['a'], ['b'], ['y']], [['y']])] := by decide +kernel

/-- In general: two files of the same relative directory are never both read. -/
theorem tar_relative_twice_false (o : Opts) (cwd dir x y : Path) (hd : dir.head? ≠ some []) (hj : joinSlash dir ≠ []) (hx : Plain x) (hy : Plain y) (hy' : y.head? ≠ some [])
    (h1 : pathToParts o (dir ++ x) = (dir, x)) (h2 : pathToParts o (dir ++ y) = (dir, y)) :
    (tarReads cwd (tarList o [dir ++ x, dir ++ y]))[1]? = some (cwd ++ dir ++ dir ++ y, y) ∧ cwd ++ dir ++ dir ++ y ≠ cwd ++ (dir ++ y) := by
  have e : tarList o [dir ++ x, dir ++ y] = [.chdir dir, .member x, .chdir dir, .member y] := by simp [tarList, h1, h2, hj]
  have ec : asRead (.chdir dir) = .chdir dir := rfl
  rw [e]
  refine ⟨?_, ?_⟩
  · simp only [tarReads, ec, asRead_plain hx, asRead_plain hy]
    simp [resolve, hd, hy']
  · intro h
    have := congrArg List.length h
    simp only [List.length_append] at this
    have h0 : dir = [] := List.length_eq_zero_iff.1 (by omega)
    exact hj (by rw [h0]; rfl)

example : pathToParts { target := 1, pathParts := some 1 } ([['a']] ++ [['x']]) = ([['a']], [['x']]) ∧ Plain [['x']] ∧ joinSlash [['a']] ≠ [] := by unfold Plain; decide +kernel

/-- **C133.** False for absolute paths when only the root is taken off: with `strip-path=1`, `/a/x` is looked for in the current directory. -/
theorem tar_root_false : tarReads [['w']] (tarList { target := 1, stripPath := some 1 } [[[], ['a'], ['x']]]) = [([['w'], ['a'], ['x']], [['a'], ['x']])] := by decide +kernel

/-- **C133.** Names beginning with `-` are refused only at the beginning of the path: with `path-parts=1`, the file `-Cetc` of a directory is taken for a change of directory, not packed, and the next file is read from elsewhere. -/
theorem tar_dash_false : (groups { target := 1000, pathParts := some 1 } [([[], ['d'], "-Cetc".toList], 1)]).isSome ∧
    tarReads [] (tarList { target := 1000, pathParts := some 1 } [[[], ['d'], "-Cetc".toList]]) = [] := by decide +kernel

/-- **C133.** Two files of one group may be stored under the same name. -/
theorem tar_same_name_false : (groups { target := 1000, pathParts := some 1 } [([[], ['a'], ['x']], 1), ([[], ['b'], ['x']], 1)]).isSome ∧
    (tarReads [] (tarList { target := 1000, pathParts := some 1 } [[[], ['a'], ['x']], [[], ['b'], ['x']]])).map Prod.snd = [[['x']], [['x']]] := by decide +kernel

end Verif.Batch.Tar
