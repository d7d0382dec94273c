import Verif.Proof.LossLaws
import Verif.Props.ShortLists
import Verif.Props.UnreadablePar

/-!
# C94: what can be relied on where a run-aware parallel intersection loses elements
-/

namespace CBT

open Spec

/-- What a run-aware parallel call returns, whether or not it starts threads. -/
theorem par_runs_cases {pad h : Nat} {cs : List (Bool × List Nat)} {Ts : List Nav} (hTs : List.Forall₂ (CodedTrie pad h) cs Ts) (hne : Ts ≠ [])
    (hlen : Ts.length ≤ 16) (env : Env) (hw : env.hw ≠ 0) (hw2 : env.hw < 2 ^ 16) (h2 : 2 ≤ h) :
    ∃ R, intersect Ts true true env = .ok R ∧ (Nat.log2 env.hw + 2 ≤ h → R = runsResult cs (h - Nat.log2 env.hw) (Nat.log2 env.hw)) ∧
      (¬ Nat.log2 env.hw + 2 ≤ h → IsIntersection (cs.map Prod.snd) R) := by
  by_cases hcut : Nat.log2 env.hw + 2 ≤ h
  · exact ⟨_, C12_parallel_runs_result_partial hTs hne hlen env hw hw2 hcut, fun _ => rfl, fun h => (h hcut).elim⟩
  · have hH : List.Forall₂ (HoldsR (h - 1)) (cs.map Prod.snd) Ts := List.forall₂_map_left_iff.2 (hTs.imp fun _ _ H => H.runs.holds)
    obtain ⟨R, h1, h3⟩ := intersect_seq_runs hH hne hlen hw
    have hd : h - 1 ≤ 62 := by
      cases hTs with
      | nil => exact (hne rfl).elim
      | cons h _ => exact h.runs.holds.depth
    have hh : ∀ n ∈ Ts, n.height = h := fun n hn => by rw [forall2_imp_right hH (fun _ _ h => h.height) n hn]; omega
    exact ⟨R, by rw [intersect_short hh h2 (by omega) (by omega)]; exact h1, fun h => (hcut h).elim, fun _ => h3⟩

theorem par_runs_cases_fast {lg pad h : Nat} (hlg : 3 ≤ lg ∧ lg ≤ 6) {cs : List (Bool × List Nat)} {Ts : List FNav}
    (hTs : List.Forall₂ (FastCoded lg pad h) cs Ts) (hne : Ts ≠ []) (hlen : Ts.length ≤ 16) (env : Env) (hw : env.hw ≠ 0) (hw2 : env.hw < 2 ^ 16)
    (h2 : 2 ≤ h) :
    ∃ R, fastIntersect lg Ts true true env = .ok R ∧
      (Nat.log2 env.hw + 2 ≤ h → R = runsResult cs (h - 1 - Nat.log2 env.hw + lg) (Nat.log2 env.hw)) ∧
      (¬ Nat.log2 env.hw + 2 ≤ h → IsIntersection (cs.map Prod.snd) R) := by
  by_cases hcut : Nat.log2 env.hw + 2 ≤ h
  · exact ⟨_, C13_fast_parallel_runs_result_partial hlg hTs hne hlen env hw hw2 hcut, fun _ => rfl, fun h => (h hcut).elim⟩
  · have hH : List.Forall₂ (FHoldsR lg (h - 1)) (cs.map Prod.snd) Ts := List.forall₂_map_left_iff.2 (hTs.imp fun _ _ H => H.toRuns.holds hlg)
    obtain ⟨R, h1, h3⟩ := fastIntersect_seq_runs (by omega) hH hne hlen hw
    have hd : h - 1 + lg ≤ 62 := by
      cases hTs with
      | nil => exact (hne rfl).elim
      | cons h _ => exact (h.toRuns.holds hlg).depth
    have hh : ∀ n ∈ Ts, n.height = h := fun n hn => by rw [forall2_imp_right hH (fun _ _ h => h.height) n hn]; omega
    exact ⟨R, by rw [fastIntersect_short hh h2 (by omega) (by omega)]; exact h1, fun h => (hcut h).elim, fun _ => h3⟩

theorem isIntersection_members {sets sets' : List (List Nat)} {R : List Nat} (h : IsIntersection sets R) (hs : ∀ S, S ∈ sets ↔ S ∈ sets') :
    IsIntersection sets' R :=
  ⟨h.increasing, fun x => (h.mem x).trans ⟨fun H S hS => H S ((hs S).2 hS), fun H S hS => H S ((hs S).1 hS)⟩⟩

/-! ## Order and repetition -/

/-- C94: the result is the same list whenever the same sets, encoded or not, are passed: in any order, any number of times, as flat or as
level-wise tries, and whatever the schedule. -/
theorem C94_same_sets {pad pad' h : Nat} {cs cs' : List (Bool × List Nat)} {Ts Ts' : List Nav} (hTs : List.Forall₂ (CodedTrie pad h) cs Ts)
    (hTs' : List.Forall₂ (CodedTrie pad' h) cs' Ts') (hcs : ∀ c, c ∈ cs ↔ c ∈ cs') (hne : Ts ≠ []) (hne' : Ts' ≠ []) (hlen : Ts.length ≤ 16)
    (hlen' : Ts'.length ≤ 16) (env env' : Env) (hw : env.hw ≠ 0) (hw2 : env.hw < 2 ^ 16) (he : env'.hw = env.hw) (h2 : 2 ≤ h) :
    ∃ R, intersect Ts true true env = .ok R ∧ intersect Ts' true true env' = .ok R := by
  obtain ⟨R, h1, g1, g2⟩ := par_runs_cases hTs hne hlen env hw hw2 h2
  obtain ⟨R', h1', g1', g2'⟩ := par_runs_cases hTs' hne' hlen' env' (by omega) (by omega) h2
  rw [he] at g1' g2'
  refine ⟨R, h1, ?_⟩
  rw [h1']
  congr 1
  by_cases hcut : Nat.log2 env.hw + 2 ≤ h
  · rw [g1 hcut, g1' hcut, runsResult_members hcs]
  · exact IsIntersection.unique (g2' hcut) (isIntersection_members (g2 hcut) fun S => by simp only [List.mem_map, hcs])

theorem C94_fast_same_sets {lg pad pad' h : Nat} (hlg : 3 ≤ lg ∧ lg ≤ 6) {cs cs' : List (Bool × List Nat)} {Ts Ts' : List FNav}
    (hTs : List.Forall₂ (FastCoded lg pad h) cs Ts) (hTs' : List.Forall₂ (FastCoded lg pad' h) cs' Ts') (hcs : ∀ c, c ∈ cs ↔ c ∈ cs')
    (hne : Ts ≠ []) (hne' : Ts' ≠ []) (hlen : Ts.length ≤ 16) (hlen' : Ts'.length ≤ 16) (env env' : Env) (hw : env.hw ≠ 0)
    (hw2 : env.hw < 2 ^ 16) (he : env'.hw = env.hw) (h2 : 2 ≤ h) :
    ∃ R, fastIntersect lg Ts true true env = .ok R ∧ fastIntersect lg Ts' true true env' = .ok R := by
  obtain ⟨R, h1, g1, g2⟩ := par_runs_cases_fast hlg hTs hne hlen env hw hw2 h2
  obtain ⟨R', h1', g1', g2'⟩ := par_runs_cases_fast hlg hTs' hne' hlen' env' (by omega) (by omega) h2
  rw [he] at g1' g2'
  refine ⟨R, h1, ?_⟩
  rw [h1']
  congr 1
  by_cases hcut : Nat.log2 env.hw + 2 ≤ h
  · rw [g1 hcut, g1' hcut, runsResult_members hcs]
  · exact IsIntersection.unique (g2' hcut) (isIntersection_members (g2 hcut) fun S => by simp only [List.mem_map, hcs])

/-! ## More sets -/

/-- C94: passing more tries never adds an element to the result. (Where the new ones stand does not matter: `C94_same_sets`.) -/
theorem C94_more_sets {pad pad' h : Nat} {cs ds : List (Bool × List Nat)} {Ts Ts' : List Nav} (hTs : List.Forall₂ (CodedTrie pad h) cs Ts)
    (hTs' : List.Forall₂ (CodedTrie pad' h) (cs ++ ds) Ts') (hne : Ts ≠ []) (hlen' : Ts'.length ≤ 16) (env env' : Env) (hw : env.hw ≠ 0)
    (hw2 : env.hw < 2 ^ 16) (he : env'.hw = env.hw) (h2 : 2 ≤ h) :
    ∃ R R', intersect Ts true true env = .ok R ∧ intersect Ts' true true env' = .ok R' ∧ ∀ x ∈ R', x ∈ R := by
  have l1 := hTs.length_eq
  have l2 := hTs'.length_eq
  rw [List.length_append] at l2
  have hne' : Ts' ≠ [] := fun e => hne (List.length_eq_zero_iff.1 (by rw [e, List.length_nil] at l2; omega))
  obtain ⟨R, h1, g1, g2⟩ := par_runs_cases hTs hne (by omega) env hw hw2 h2
  obtain ⟨R', h1', g1', g2'⟩ := par_runs_cases hTs' hne' hlen' env' (by omega) (by omega) h2
  rw [he] at g1' g2'
  refine ⟨R, R', h1, h1', fun x hx => ?_⟩
  by_cases hcut : Nat.log2 env.hw + 2 ≤ h
  · rw [g1' hcut] at hx
    rw [g1 hcut]
    exact runsResult_add (by omega) hx
  · have hx := ((g2' hcut).mem x).1 hx
    refine ((g2 hcut).mem x).2 fun S hS => hx S ?_
    rw [List.map_append]
    exact List.mem_append_left _ hS

theorem C94_fast_more_sets {lg pad pad' h : Nat} (hlg : 3 ≤ lg ∧ lg ≤ 6) {cs ds : List (Bool × List Nat)} {Ts Ts' : List FNav}
    (hTs : List.Forall₂ (FastCoded lg pad h) cs Ts) (hTs' : List.Forall₂ (FastCoded lg pad' h) (cs ++ ds) Ts') (hne : Ts ≠ [])
    (hlen' : Ts'.length ≤ 16) (env env' : Env) (hw : env.hw ≠ 0) (hw2 : env.hw < 2 ^ 16) (he : env'.hw = env.hw) (h2 : 2 ≤ h) :
    ∃ R R', fastIntersect lg Ts true true env = .ok R ∧ fastIntersect lg Ts' true true env' = .ok R' ∧ ∀ x ∈ R', x ∈ R := by
  have l1 := hTs.length_eq
  have l2 := hTs'.length_eq
  rw [List.length_append] at l2
  have hne' : Ts' ≠ [] := fun e => hne (List.length_eq_zero_iff.1 (by rw [e, List.length_nil] at l2; omega))
  obtain ⟨R, h1, g1, g2⟩ := par_runs_cases_fast hlg hTs hne (by omega) env hw hw2 h2
  obtain ⟨R', h1', g1', g2'⟩ := par_runs_cases_fast hlg hTs' hne' hlen' env' (by omega) (by omega) h2
  rw [he] at g1' g2'
  refine ⟨R, R', h1, h1', fun x hx => ?_⟩
  by_cases hcut : Nat.log2 env.hw + 2 ≤ h
  · rw [g1' hcut] at hx
    rw [g1 hcut]
    exact runsResult_add (by omega) hx
  · have hx := ((g2' hcut).mem x).1 hx
    refine ((g2 hcut).mem x).2 fun S hS => hx S ?_
    rw [List.map_append]
    exact List.mem_append_left _ hS

/-! ## More hardware threads -/

/-- C94: as long as the trie is deep enough for threads to be started, more hardware threads never add an element; one that is returned on the
larger machine is returned on the smaller one. -/
theorem C94_more_threads_partial {pad h : Nat} {cs : List (Bool × List Nat)} {Ts : List Nav} (hTs : List.Forall₂ (CodedTrie pad h) cs Ts)
    (hne : Ts ≠ []) (hlen : Ts.length ≤ 16) (env env' : Env) (hw : env.hw ≠ 0) (he : env.hw ≤ env'.hw) (hw2 : env'.hw < 2 ^ 16)
    (hcut : Nat.log2 env'.hw + 2 ≤ h) :
    ∃ R R', intersect Ts true true env = .ok R ∧ intersect Ts true true env' = .ok R' ∧ ∀ x ∈ R', x ∈ R := by
  have hl : Nat.log2 env.hw ≤ Nat.log2 env'.hw := (Nat.le_log2 (by omega)).2 (Nat.le_trans (Nat.log2_self_le hw) he)
  exact ⟨_, _, C12_parallel_runs_result_partial hTs hne hlen env hw (by omega) (by omega),
    C12_parallel_runs_result_partial hTs hne hlen env' (by omega) hw2 hcut, fun x hx => runsResult_threads (by omega) hl (by omega) hx⟩

theorem C94_fast_more_threads_partial {lg pad h : Nat} (hlg : 3 ≤ lg ∧ lg ≤ 6) {cs : List (Bool × List Nat)} {Ts : List FNav}
    (hTs : List.Forall₂ (FastCoded lg pad h) cs Ts) (hne : Ts ≠ []) (hlen : Ts.length ≤ 16) (env env' : Env) (hw : env.hw ≠ 0)
    (he : env.hw ≤ env'.hw) (hw2 : env'.hw < 2 ^ 16) (hcut : Nat.log2 env'.hw + 2 ≤ h) :
    ∃ R R', fastIntersect lg Ts true true env = .ok R ∧ fastIntersect lg Ts true true env' = .ok R' ∧ ∀ x ∈ R', x ∈ R := by
  have hl : Nat.log2 env.hw ≤ Nat.log2 env'.hw := (Nat.le_log2 (by omega)).2 (Nat.le_trans (Nat.log2_self_le hw) he)
  exact ⟨_, _, C13_fast_parallel_runs_result_partial hlg hTs hne hlen env hw (by omega) (by omega),
    C13_fast_parallel_runs_result_partial hlg hTs hne hlen env' (by omega) hw2 hcut, fun x hx => runsResult_threads (by omega) hl (by omega) hx⟩

/-- C94 is false of more hardware threads in general: once there are too many for the depth of the tries the call is sequential and
returns everything. On two, four and eight threads the same call returns seven, one and seven elements. -/
theorem C94_more_threads_negation : ¬ ∀ (pad h : Nat) (cs : List (Bool × List Nat)) (Ts : List Nav) (env env' : Env) (R R' : List Nat),
    List.Forall₂ (CodedTrie pad h) cs Ts → env.hw ≠ 0 → env.hw ≤ env'.hw → intersect Ts true true env = .ok R →
    intersect Ts true true env' = .ok R' → ∀ x ∈ R', x ∈ R := by
  intro H
  have := H 0 4 _ [Ex.levelA.nav false 0, Ex.levelB.nav false 0] ⟨4, [], []⟩ ⟨8, [], []⟩ [14] [0, 1, 2, 3, 5, 8, 14]
    (.cons Ex.levelA_coded (.cons Ex.levelB_coded .nil)) (by decide) (by decide) (by decide +kernel) (by decide +kernel) 0 (by decide)
  exact absurd this (by decide)

/-! ## More elements -/

namespace Ex

theorem firstThree_coded :
    CodedTrie 0 4 (true, List.range 3) (LevelTrie.nav ⟨4, true, false, [[true, false], [true, false], [true, true], [true, true, true, false]]⟩ false 0) :=
  .level (u := 16) (t := ⟨0, false, false, [[true, false], [true, false], [true, true], [true, true, true, false]]⟩) false
    (by decide +kernel) (by decide +kernel) (by decide) (by decide) (by decide +kernel) (by decide +kernel) rfl

end Ex

/-- C94 is false of elements: putting one more element into a set can remove one from the result, though the intersection is the same. -/
theorem C94_more_elements_negation : ¬ ∀ (pad h : Nat) (cs ds : List (Bool × List Nat)) (Ts Us : List Nav) (env : Env) (R R' : List Nat),
    List.Forall₂ (CodedTrie pad h) cs Ts → List.Forall₂ (CodedTrie pad h) ds Us →
    List.Forall₂ (fun c d => c.1 = d.1 ∧ ∀ x ∈ c.2, x ∈ d.2) cs ds → env.hw ≠ 0 → intersect Ts true true env = .ok R →
    intersect Us true true env = .ok R' → ∀ x ∈ R, x ∈ R' := by
  intro H
  have := H 0 4 _ _ _ _ ⟨4, [], []⟩ [0] [] (.cons Ex.firstThree_coded (.cons Ex.zero_coded .nil)) (.cons Ex.firstFour_coded (.cons Ex.zero_coded .nil))
    (.cons ⟨rfl, by decide⟩ (.cons ⟨rfl, by decide⟩ .nil)) (by decide) (by decide +kernel) (by decide +kernel) 0 (by decide)
  exact absurd this (by decide)

/-! ## Reading out of bounds

Run-encoded flat tries of which nothing is left behind the last node cannot be read everywhere (C04). A call may therefore end out of bounds;
here are the same laws for that. -/

theorem visited_threads {cs : List (Bool × List Nat)} {J cut J' cut' i k : Nat} (ht : J' + cut' = J + cut) (hc : cut ≤ cut')
    (h : visited cs J' cut' i k = true) : visited cs J cut i k = true := by
  rcases Nat.eq_or_lt_of_le hc with rfl | hc
  · rwa [show J = J' by omega]
  · rw [visited_above_iff] at h ⊢
    refine ⟨h.1, fun m h1 h2 he => h.2 m h1 (by omega) ?_⟩
    simp only [early, Bool.or_eq_true, Bool.and_eq_true, decide_eq_true_eq] at he ⊢
    omega

/-- C94, any mode: if a run-aware call returns, then so does the call with further tries, none of them a run-encoded flat one, and its result has
no further elements. -/
theorem C94_more_sets_safe {pad h : Nat} {cs ds : List (Coding × List Nat)} {Ts Us : List Nav} (hTs : List.Forall₂ (KnownTrie pad h) cs Ts)
    (hUs : List.Forall₂ (KnownTrie pad h) ds Us) (hds : ∀ d ∈ ds, d.1 ≠ .flat) (hne : Ts ≠ []) (hlen : (Ts ++ Us).length ≤ 16) (parallel : Bool)
    (env env' : Env) (hw : env.hw ≠ 0) (hw2 : env.hw < 2 ^ 16) (he : env'.hw = env.hw) (h2 : 2 ≤ h) {R : List Nat}
    (hR : intersect Ts true parallel env = .ok R) : ∃ R', intersect (Ts ++ Us) true parallel env' = .ok R' ∧ ∀ x ∈ R', x ∈ R := by
  have hTU : List.Forall₂ (KnownTrie pad h) (cs ++ ds) (Ts ++ Us) := List.rel_append hTs hUs
  have hne' : Ts ++ Us ≠ [] := by simp [hne]
  have hlen1 : Ts.length ≤ 16 := by rw [List.length_append] at hlen; omega
  have hseq : intersect Ts true false env = .ok R → ∃ R', intersect (Ts ++ Us) true false env' = .ok R' ∧ ∀ x ∈ R', x ∈ R := by
    intro hR
    have hr : ∀ {cs : List (Coding × List Nat)} {Ts : List Nav}, List.Forall₂ (KnownTrie pad h) cs Ts →
        List.Forall₂ (ReadTrie pad h) (cs.map fun c => (decide (c.1 = .flat), c.2)) Ts := fun hTs =>
      List.forall₂_map_left_iff.2 (hTs.imp fun _ _ H => H.read)
    obtain ⟨a1, a2⟩ := C08_seq_runs_exact_partial (hr hTs) hne hlen1 env hw
    obtain ⟨b1, -⟩ := C08_seq_runs_exact_partial (hr hTU) hne' hlen env' (by omega)
    have hok : ∀ c ∈ cs.map (fun c => (decide (c.1 = Coding.flat), c.2)), c.1 = true → ∀ j k, unreadable pad h c.2 j k →
        blockMissed ((cs.map fun c => (decide (c.1 = Coding.flat), c.2)).map Prod.snd) j k := by
      by_contra H
      rw [a2 H] at hR
      cases hR
    obtain ⟨R1, e1, i1⟩ := a1 hok
    rw [e1] at hR
    cases hR
    obtain ⟨R2, e2, i2⟩ := b1 fun c hc hf j k hu => by
      rw [List.map_append, List.mem_append] at hc
      rcases hc with hc | hc
      · obtain ⟨S, hS, hm⟩ := hok c hc hf j k hu
        exact ⟨S, by rw [List.map_append, List.map_append]; exact List.mem_append_left _ hS, hm⟩
      · obtain ⟨d, hd, rfl⟩ := List.mem_map.1 hc
        exact (hds d hd (of_decide_eq_true hf)).elim
    refine ⟨R2, e2, fun x hx => (i1.mem x).2 fun S hS => (i2.mem x).1 hx S ?_⟩
    rw [List.map_append, List.map_append]
    exact List.mem_append_left _ hS
  cases parallel with
  | false => exact hseq hR
  | true =>
    by_cases hcut : Nat.log2 env.hw + 2 ≤ h
    · obtain ⟨a1, a2⟩ := C08_par_runs_exact_partial hTs hne hlen1 env hw hw2 hcut
      obtain ⟨b1, -⟩ := C08_par_runs_exact_partial hTU hne' hlen env' (by omega) (by omega) (by rwa [he])
      have hok : ∀ c ∈ cs, c.1 = .flat → ∀ j k, unreadable pad h c.2 j k →
          visited (withRuns cs) (h - Nat.log2 env.hw) (Nat.log2 env.hw) j k = false := by
        by_contra H
        rw [a2 H] at hR
        cases hR
      rw [a1 hok] at hR
      injection hR with hR
      subst hR
      have hwr : withRuns (cs ++ ds) = withRuns cs ++ withRuns ds := List.map_append
      rw [he, hwr] at b1
      refine ⟨_, b1 fun c hc hf j k hu => ?_, fun x hx => runsResult_add (by omega) hx⟩
      rcases List.mem_append.1 hc with hc | hc
      · have := hok c hc hf j k hu
        rw [← Bool.not_eq_true] at this ⊢
        exact fun H => this (visited_add H)
      · exact (hds c hc hf).elim
    · have hb : ∀ {cs : List (Coding × List Nat)} {Ts : List Nav}, List.Forall₂ (KnownTrie pad h) cs Ts →
          List.Forall₂ (BuiltTrie pad h) (cs.map Prod.snd) Ts := fun hTs =>
        List.forall₂_map_left_iff.2 (hTs.imp fun c _ H => KnownTrie.built.2 ⟨c.1, H⟩)
      rw [par_few_levels (hb hTs) h2 true env hcut] at hR
      rw [par_few_levels (hb hTU) h2 true env' (by rwa [he])]
      exact hseq hR

/-- C94: if a run-aware parallel call returns, then so does it on a machine with more hardware threads, and without further elements, as long as
threads are started. -/
theorem C94_more_threads_safe_partial {pad h : Nat} {cs : List (Coding × List Nat)} {Ts : List Nav} (hTs : List.Forall₂ (KnownTrie pad h) cs Ts)
    (hne : Ts ≠ []) (hlen : Ts.length ≤ 16) (env env' : Env) (hw : env.hw ≠ 0) (he : env.hw ≤ env'.hw) (hw2 : env'.hw < 2 ^ 16)
    (hcut : Nat.log2 env'.hw + 2 ≤ h) {R : List Nat} (hR : intersect Ts true true env = .ok R) :
    ∃ R', intersect Ts true true env' = .ok R' ∧ ∀ x ∈ R', x ∈ R := by
  have hl : Nat.log2 env.hw ≤ Nat.log2 env'.hw := (Nat.le_log2 (by omega)).2 (Nat.le_trans (Nat.log2_self_le hw) he)
  obtain ⟨a1, a2⟩ := C08_par_runs_exact_partial hTs hne hlen env hw (by omega) (by omega)
  obtain ⟨b1, -⟩ := C08_par_runs_exact_partial hTs hne hlen env' (by omega) hw2 hcut
  have hok : ∀ c ∈ cs, c.1 = .flat → ∀ j k, unreadable pad h c.2 j k →
      visited (withRuns cs) (h - Nat.log2 env.hw) (Nat.log2 env.hw) j k = false := by
    by_contra H
    rw [a2 H] at hR
    cases hR
  rw [a1 hok] at hR
  injection hR with hR
  subst hR
  refine ⟨_, b1 fun c hc hf j k hu => ?_, fun x hx => runsResult_threads (by omega) hl (by omega) hx⟩
  have := hok c hc hf j k hu
  rw [← Bool.not_eq_true] at this ⊢
  exact fun H => this (visited_threads (by omega) hl H)

/-- A trie that cannot be read alone can be together with one that does not meet its blocks. -/
example : intersect [Ex.flatCollapsed.nav 0] true true ⟨2, [], []⟩ = .error .oob ∧
    intersect [Ex.flatCollapsed.nav 0, LevelTrie.nav ⟨0, false, false, [[true, false], [false, true], [true, false], [true, true]]⟩ false 0] true true
      ⟨2, [], []⟩ = .ok [] := by decide +kernel

/-! ## Examples -/

/-- Two tries, in either order and one of them twice; with a third one. -/
example : (∀ c, c ∈ [(true, Ex.sA), (true, Ex.sB)] ↔ c ∈ [(true, Ex.sB), (true, Ex.sA), (true, Ex.sB)]) ∧
    intersect [Ex.levelA.nav false 0, Ex.levelB.nav false 0] true true ⟨4, [], []⟩ = .ok [14] ∧
    intersect [Ex.levelB.nav false 0, Ex.levelA.nav false 0, Ex.levelB.nav false 0] true true ⟨4, [], []⟩ = .ok [14] ∧
    intersect [Ex.levelA.nav false 0] true true ⟨4, [], []⟩ = .ok [0, 1, 2, 3, 5, 8, 9, 10, 11, 14] :=
  ⟨fun c => by simp only [List.mem_cons, List.not_mem_nil, or_false]; tauto, by decide +kernel⟩

end CBT
