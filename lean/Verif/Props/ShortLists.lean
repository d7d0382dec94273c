import Verif.Proof.ShortLists

/-!
# C92: run-aware parallel intersection of sets that are small compared with the universe
-/

namespace CBT

open Spec

namespace Ex

theorem firstFour_coded :
    CodedTrie 0 4 (true, List.range 4) (LevelTrie.nav ⟨3, true, false, [[true, false], [true, false], [false, false], []]⟩ false 0) :=
  .level (u := 16) (t := ⟨0, false, false, [[true, false], [true, false], [true, true], [true, true, true, true]]⟩) false
    (by decide +kernel) (by decide +kernel) (by decide) (by decide) (by decide +kernel) (by decide +kernel) rfl

theorem zero_coded :
    CodedTrie 0 4 (false, [0]) (LevelTrie.nav ⟨0, false, false, [[true, false], [true, false], [true, false], [true, false]]⟩ false 0) :=
  .plain (.level (u := 16) false (by decide +kernel) (by decide +kernel) (by decide) (by decide) (by decide +kernel) rfl)

end Ex

/-! ## `Intersect` -/

/-- C92: parallel run-aware `Intersect` is right if no run-encoded set has as many elements as the blocks handed to threads. -/
theorem C92_short_sets {pad h : Nat} {cs : List (Bool × List Nat)} {Ts : List Nav} (hTs : List.Forall₂ (CodedTrie pad h) cs Ts) (hne : Ts ≠ [])
    (hlen : Ts.length ≤ 16) (env : Env) (hw : env.hw ≠ 0) (hw2 : env.hw < 2 ^ 16) (h2 : 2 ≤ h)
    (hs : ∀ c ∈ cs, c.1 = true → c.2.length < 2 ^ (h - Nat.log2 env.hw)) :
    ∃ R, intersect Ts true true env = .ok R ∧ intersect Ts true false env = .ok R ∧ IsIntersection (cs.map Prod.snd) R := by
  have hH : List.Forall₂ (HoldsR (h - 1)) (cs.map Prod.snd) Ts := List.forall₂_map_left_iff.2 (hTs.imp fun _ _ H => H.runs.holds)
  obtain ⟨R', h1', h3'⟩ := intersect_seq_runs hH hne hlen hw
  by_cases hcut : Nat.log2 env.hw + 2 ≤ h
  · have hb := forall2_imp_left hTs fun _ _ H => H.runs.holds.below
    have hcs : cs ≠ [] := by rintro rfl; cases hTs; exact hne rfl
    have hR := runsResult_short (j := h - Nat.log2 env.hw) (cut := Nat.log2 env.hw) hcs
      (by rwa [show h - Nat.log2 env.hw + Nat.log2 env.hw = h - 1 + 1 by omega]) (by omega) hs
    have e := IsIntersection.unique hR h3'
    exact ⟨_, C12_parallel_runs_result_partial hTs hne hlen env hw hw2 hcut, e ▸ h1', hR⟩
  · have hd : h - 1 ≤ 62 := by
      cases hTs with
      | nil => exact (hne rfl).elim
      | cons h _ => exact h.runs.holds.depth
    have hh : ∀ n ∈ Ts, n.height = h := fun n hn => by rw [forall2_imp_right hH (fun _ _ h => h.height) n hn]; omega
    exact ⟨R', by rw [intersect_short hh h2 (by omega) (by omega)]; exact h1', h1', h3'⟩

/-- C92, fast tries. -/
theorem C92_fast_short_sets {lg pad h : Nat} (hlg : 3 ≤ lg ∧ lg ≤ 6) {cs : List (Bool × List Nat)} {Ts : List FNav}
    (hTs : List.Forall₂ (FastCoded lg pad h) cs Ts) (hne : Ts ≠ []) (hlen : Ts.length ≤ 16) (env : Env) (hw : env.hw ≠ 0)
    (hw2 : env.hw < 2 ^ 16) (h2 : 2 ≤ h) (hs : ∀ c ∈ cs, c.1 = true → c.2.length < 2 ^ (h - 1 - Nat.log2 env.hw + lg)) :
    ∃ R, fastIntersect lg Ts true true env = .ok R ∧ fastIntersect lg Ts true false env = .ok R ∧ IsIntersection (cs.map Prod.snd) R := by
  have hH : List.Forall₂ (FHoldsR lg (h - 1)) (cs.map Prod.snd) Ts := List.forall₂_map_left_iff.2 (hTs.imp fun _ _ H => H.toRuns.holds hlg)
  obtain ⟨R', h1', h3'⟩ := fastIntersect_seq_runs (by omega) hH hne hlen hw
  by_cases hcut : Nat.log2 env.hw + 2 ≤ h
  · have hb := forall2_imp_left hTs fun _ _ H => (H.toRuns.holds hlg).below
    have hcs : cs ≠ [] := by rintro rfl; cases hTs; exact hne rfl
    have hR := runsResult_short (j := h - 1 - Nat.log2 env.hw + lg) (cut := Nat.log2 env.hw) hcs
      (by rwa [show h - 1 - Nat.log2 env.hw + lg + Nat.log2 env.hw = h - 1 + lg by omega]) (by omega) hs
    have e := IsIntersection.unique hR h3'
    exact ⟨_, C13_fast_parallel_runs_result_partial hlg hTs hne hlen env hw hw2 hcut, e ▸ h1', hR⟩
  · have hd : h - 1 + lg ≤ 62 := by
      cases hTs with
      | nil => exact (hne rfl).elim
      | cons h _ => exact (h.toRuns.holds hlg).depth
    have hh : ∀ n ∈ Ts, n.height = h := fun n hn => by rw [forall2_imp_right hH (fun _ _ h => h.height) n hn]; omega
    exact ⟨R', by rw [fastIntersect_short hh h2 (by omega) (by omega)]; exact h1', h1', h3'⟩

/-- A set with a collapsed block but fewer elements than the blocks of 8 that two threads are given. -/
example : List.Forall₂ (CodedTrie 0 4) [(true, List.range 4), (false, [0])]
      [LevelTrie.nav ⟨3, true, false, [[true, false], [true, false], [false, false], []]⟩ false 0,
        LevelTrie.nav ⟨0, false, false, [[true, false], [true, false], [true, false], [true, false]]⟩ false 0] ∧
    (∀ c ∈ [(true, List.range 4), (false, [0])], c.1 = true → c.2.length < 2 ^ (4 - Nat.log2 2)) ∧
    intersect [LevelTrie.nav ⟨3, true, false, [[true, false], [true, false], [false, false], []]⟩ false 0,
        LevelTrie.nav ⟨0, false, false, [[true, false], [true, false], [true, false], [true, false]]⟩ false 0] true true ⟨2, [], []⟩ = .ok [0] :=
  ⟨.cons Ex.firstFour_coded (.cons Ex.zero_coded .nil), by decide +kernel⟩

/-- C92: with fewer than four hardware threads it is right if no run-encoded set is the whole universe. -/
theorem C92_few_threads {pad h : Nat} {cs : List (Bool × List Nat)} {Ts : List Nav} (hTs : List.Forall₂ (CodedTrie pad h) cs Ts) (hne : Ts ≠ [])
    (hlen : Ts.length ≤ 16) (env : Env) (hw : env.hw ≠ 0) (hw4 : env.hw < 4) (h2 : 2 ≤ h) (hs : ∀ c ∈ cs, c.1 = true → c.2.length < 2 ^ h) :
    ∃ R, intersect Ts true true env = .ok R ∧ intersect Ts true false env = .ok R ∧ IsIntersection (cs.map Prod.snd) R := by
  have hH : List.Forall₂ (HoldsR (h - 1)) (cs.map Prod.snd) Ts := List.forall₂_map_left_iff.2 (hTs.imp fun _ _ H => H.runs.holds)
  obtain ⟨R', h1', h3'⟩ := intersect_seq_runs hH hne hlen hw
  have hc : Nat.log2 env.hw ≤ 1 := Nat.lt_succ_iff.1 ((Nat.log2_lt hw).2 hw4)
  by_cases hcut : Nat.log2 env.hw + 2 ≤ h
  · have hb := forall2_imp_left hTs fun _ _ H => H.runs.holds.below
    have hcs : cs ≠ [] := by rintro rfl; cases hTs; exact hne rfl
    have ht : h - Nat.log2 env.hw + Nat.log2 env.hw = h := by omega
    have hR := runsResult_two (j := h - Nat.log2 env.hw) (cut := Nat.log2 env.hw) hc hcs
      (by rwa [ht, show h = h - 1 + 1 by omega]) (by omega) (by rwa [ht])
    have e := IsIntersection.unique hR h3'
    exact ⟨_, C12_parallel_runs_result_partial hTs hne hlen env hw (by omega) hcut, e ▸ h1', hR⟩
  · have hd : h - 1 ≤ 62 := by
      cases hTs with
      | nil => exact (hne rfl).elim
      | cons h _ => exact h.runs.holds.depth
    have hh : ∀ n ∈ Ts, n.height = h := fun n hn => by rw [forall2_imp_right hH (fun _ _ h => h.height) n hn]; omega
    exact ⟨R', by rw [intersect_short hh h2 (by omega) (by omega)]; exact h1', h1', h3'⟩

theorem C92_fast_few_threads {lg pad h : Nat} (hlg : 3 ≤ lg ∧ lg ≤ 6) {cs : List (Bool × List Nat)} {Ts : List FNav}
    (hTs : List.Forall₂ (FastCoded lg pad h) cs Ts) (hne : Ts ≠ []) (hlen : Ts.length ≤ 16) (env : Env) (hw : env.hw ≠ 0)
    (hw4 : env.hw < 4) (h2 : 2 ≤ h) (hs : ∀ c ∈ cs, c.1 = true → c.2.length < 2 ^ (h - 1 + lg)) :
    ∃ R, fastIntersect lg Ts true true env = .ok R ∧ fastIntersect lg Ts true false env = .ok R ∧ IsIntersection (cs.map Prod.snd) R := by
  have hH : List.Forall₂ (FHoldsR lg (h - 1)) (cs.map Prod.snd) Ts := List.forall₂_map_left_iff.2 (hTs.imp fun _ _ H => H.toRuns.holds hlg)
  obtain ⟨R', h1', h3'⟩ := fastIntersect_seq_runs (by omega) hH hne hlen hw
  have hc : Nat.log2 env.hw ≤ 1 := Nat.lt_succ_iff.1 ((Nat.log2_lt hw).2 hw4)
  by_cases hcut : Nat.log2 env.hw + 2 ≤ h
  · have hb := forall2_imp_left hTs fun _ _ H => (H.toRuns.holds hlg).below
    have hcs : cs ≠ [] := by rintro rfl; cases hTs; exact hne rfl
    have ht : h - 1 - Nat.log2 env.hw + lg + Nat.log2 env.hw = h - 1 + lg := by omega
    have hR := runsResult_two (j := h - 1 - Nat.log2 env.hw + lg) (cut := Nat.log2 env.hw) hc hcs (by rwa [ht]) (by omega) (by rwa [ht])
    have e := IsIntersection.unique hR h3'
    exact ⟨_, C13_fast_parallel_runs_result_partial hlg hTs hne hlen env hw (by omega) hcut, e ▸ h1', hR⟩
  · have hd : h - 1 + lg ≤ 62 := by
      cases hTs with
      | nil => exact (hne rfl).elim
      | cons h _ => exact (h.toRuns.holds hlg).depth
    have hh : ∀ n ∈ Ts, n.height = h := fun n hn => by rw [forall2_imp_right hH (fun _ _ h => h.height) n hn]; omega
    exact ⟨R', by rw [fastIntersect_short hh h2 (by omega) (by omega)]; exact h1', h1', h3'⟩

/-- Two sets of ten, on two hardware threads; blocks of 8 go to threads. With four threads, for blocks of 4, elements are lost. -/
example : List.Forall₂ (CodedTrie 0 4) [(true, Ex.sA), (true, Ex.sB)] [Ex.levelA.nav false 0, Ex.levelB.nav false 0] ∧
    (∀ c ∈ [(true, Ex.sA), (true, Ex.sB)], c.1 = true → c.2.length < 2 ^ 4) ∧
    intersect [Ex.levelA.nav false 0, Ex.levelB.nav false 0] true true ⟨3, [], []⟩ = .ok [0, 1, 2, 3, 5, 8, 14] ∧
    intersect [Ex.levelA.nav false 0, Ex.levelB.nav false 0] true true ⟨4, [], []⟩ = .ok [14] :=
  ⟨.cons Ex.levelA_coded (.cons Ex.levelB_coded .nil), by decide +kernel⟩

/-! ## The bound cannot be improved -/

/-- C92: from four hardware threads on, the bound on the length cannot be improved: with a run-encoded set of exactly as many elements as the
blocks handed to threads, the only common element is lost. -/
theorem C92_sharp {pad h : Nat} (env : Env) (hw4 : 4 ≤ env.hw) (hw2 : env.hw < 2 ^ 16) (hcut : Nat.log2 env.hw + 2 ≤ h) {T T' : Nav}
    (hT : CodedTrie pad h (true, List.range (2 ^ (h - Nat.log2 env.hw))) T) (hT' : CodedTrie pad h (false, [0]) T') :
    intersect [T, T'] true true env = .ok [] := by
  obtain ⟨R, h1, -, h3⟩ := C12_parallel_runs_lost_partial (.cons hT (.cons hT' .nil)) (by simp) (by simp) env (by omega) hw2 hcut
  have hc : 2 ≤ Nat.log2 env.hw := (Nat.le_log2 (by omega)).2 hw4
  rw [h1]
  congr 1
  rw [List.eq_nil_iff_forall_not_mem]
  intro x hx
  obtain ⟨h4, h5⟩ := (h3 x).1 hx
  have hx0 : x = 0 := by simpa using h4 (false, [0]) (by simp)
  subst hx0
  rw [Nat.zero_div, if_pos (isSplit_single hc)] at h5
  exact h5 (uneven_single (by omega))

theorem C92_fast_sharp {lg pad h : Nat} (hlg : 3 ≤ lg ∧ lg ≤ 6) (env : Env) (hw4 : 4 ≤ env.hw) (hw2 : env.hw < 2 ^ 16)
    (hcut : Nat.log2 env.hw + 2 ≤ h) {T T' : FNav} (hT : FastCoded lg pad h (true, List.range (2 ^ (h - 1 - Nat.log2 env.hw + lg))) T)
    (hT' : FastCoded lg pad h (false, [0]) T') : fastIntersect lg [T, T'] true true env = .ok [] := by
  obtain ⟨R, h1, -, h3⟩ := C13_fast_parallel_runs_lost_partial hlg (.cons hT (.cons hT' .nil)) (by simp) (by simp) env (by omega) hw2 hcut rfl
  have hc : 2 ≤ Nat.log2 env.hw := (Nat.le_log2 (by omega)).2 hw4
  rw [h1]
  congr 1
  rw [List.eq_nil_iff_forall_not_mem]
  intro x hx
  obtain ⟨h4, h5⟩ := (h3 x).1 hx
  have hx0 : x = 0 := by simpa using h4 (false, [0]) (by simp)
  subst hx0
  rw [Nat.zero_div, if_pos (isSplit_single hc)] at h5
  exact h5 (uneven_single (by omega))

/-- Four hardware threads, blocks of 4, and a set of four elements. -/
example : CodedTrie 0 4 (true, List.range (2 ^ (4 - Nat.log2 4))) (LevelTrie.nav ⟨3, true, false, [[true, false], [true, false], [false, false], []]⟩ false 0) ∧
    CodedTrie 0 4 (false, [0]) (LevelTrie.nav ⟨0, false, false, [[true, false], [true, false], [true, false], [true, false]]⟩ false 0) ∧
    Nat.log2 4 + 2 ≤ 4 :=
  ⟨Ex.firstFour_coded, Ex.zero_coded, by decide⟩

/-! ## From the command line to the answers -/

theorem kept_length_lt {mn mx b : Nat} {lists : List (List Nat)} (h : mx < b) : ∀ l ∈ kept mn mx lists, l.length < b := by
  intro l hl
  have := (List.mem_filter.1 hl).2
  simp only [Bool.and_eq_true, decide_eq_true_eq] at this
  omega

/-- C92, from the command line: if the lists kept by `build_tries` have fewer elements than the blocks handed to threads, the query tool is
right in all modes, with runs as well; only flat tries that cannot be read (C04) are excluded. -/
theorem C92_tries_session_lengths (F : Formats) (pad : Nat) {hw : Nat} (hw0 : hw ≠ 0) (hw1 : hw < 2 ^ 16) (env : Nat → Env)
    (he : ∀ i, (env i).hw = hw)
    {opts : List BuildOption} (hopts : ∀ o ∈ opts, o.Ok false) {o : BuildSettings} (ho : o = opts.foldl BuildOption.apply .default)
    (hout : o.out ≠ []) (hs : Supported o.rank o.block o.levelwise)
    {one u : Nat} (hone : one < 2 ^ 32) (hu : 3 ≤ u) (hu' : u < 2 ^ 32) {lists : List (List Nat)}
    (hl : ∀ l ∈ lists, l.length < 2 ^ 30) (hv : ∀ l ∈ kept o.minSize o.maxSize lists, ValidSet l u)
    (hn : (kept o.minSize o.maxSize lists).length < 2 ^ 32)
    {fs : Files} {prog input : Str} (hio : o.out ≠ input) (hin : fs input = some (collectionBytes one u lists))
    {qopts : List QueryOption} {prog' log : Str} (hqopts : ∀ q ∈ QueryOption.file o.out :: .file log :: qopts, q.Ok false)
    {c : QuerySettings} (hqc : c = qopts.foldl QueryOption.apply ⟨false, true, []⟩)
    {text : Str} {queries : List (List Nat)} (ht : LogText text queries) (hq0 : ∀ q ∈ queries, q ≠ [])
    (hq1 : ∀ q ∈ queries, ∀ i ∈ q, i < (kept o.minSize o.maxSize lists).length ∧ i < 2 ^ 31)
    (hshort : o.runs = true → c.parallel = true → ∀ l ∈ kept o.minSize o.maxSize lists, l.length < 2 ^ (trieHeight u - Nat.log2 hw))
    (hflat : o.runs = true → o.levelwise = false →
      ¬ someQuery (stumbles pad (trieHeight u) (forks c.parallel (trieHeight u) 2 hw)) (kept o.minSize o.maxSize lists) queries) :
    ∃ f, mainBuildTries F pad true fs (prog :: input :: opts.flatMap (BuildOption.words false)) = .ok (some (o.out, f)) ∧
      ∀ (fs' : Files) (texts : Str → Option Str), fs' o.out = some f → texts log = some text →
        ∃ as rows, mainQueryLog F pad env fs' texts (prog' :: o.out :: log :: qopts.flatMap (QueryOption.words false)) =
            .ok (.done as (if c.out = [] then none else some (c.out, rows))) ∧
          List.Forall₂ (Answers (kept o.minSize o.maxSize lists)) queries as ∧ IsResults (kept o.minSize o.maxSize lists) queries rows := by
  obtain ⟨f, h1, h2⟩ := C53_tries_session_exact_partial F pad hw0 hw1 env he hopts ho hout hs hone hu hu' hl hv hn (prog := prog) hio hin
    (prog' := prog') hqopts hqc ht hq0 hq1
  refine ⟨f, h1, fun fs' texts hf' ht' => ?_⟩
  obtain ⟨as, rows, h3, h4, h5⟩ := (h2 fs' texts hf' ht').1 fun H => hflat H.1 H.2.1 H.2.2
  have key : ∀ q ∈ queries, ∀ R, AnsweredBy o.runs (trieHeight u) (forks c.parallel (trieHeight u) 2 hw)
      (q.map fun i => (kept o.minSize o.maxSize lists).getD i []) R →
      IsIntersection (q.map fun i => (kept o.minSize o.maxSize lists).getD i []) R := by
    intro q hq R h
    have hS := query_sets (by omega) hv fun i hi => (hq1 q hq i hi).1
    refine answeredBy_short (by simpa using hq0 q hq) (Nat.le_refl 2) (fun S hS' => (hS S hS').2) (fun hr hp S hS' => ?_) h
    exact hshort hr hp S (hS S hS').1
  refine ⟨as, rows, h3, ?_, ?_⟩
  · exact forall2_mem_imp h4 fun q hq a H => ⟨fun hle => by
      obtain ⟨R, e, hR⟩ := H.1 hle
      exact ⟨R, e, key q hq R hR⟩, H.2⟩
  · exact forall2_mem_imp h5 fun q hq r H => by
      obtain ⟨e, R, hR, e'⟩ := H
      exact ⟨e, R, key q (List.mem_filter.1 hq).1 R hR, e'⟩

/-- C92, from the command line: if `build_tries` is told to drop the lists longer than a limit below the size of the blocks handed to threads,
the query tool is right in all modes, with runs as well; only flat tries that cannot be read (C04) are excluded. -/
theorem C92_tries_session (F : Formats) (pad : Nat) {hw : Nat} (hw0 : hw ≠ 0) (hw1 : hw < 2 ^ 16) (env : Nat → Env)
    (he : ∀ i, (env i).hw = hw)
    {opts : List BuildOption} (hopts : ∀ o ∈ opts, o.Ok false) {o : BuildSettings} (ho : o = opts.foldl BuildOption.apply .default)
    (hout : o.out ≠ []) (hs : Supported o.rank o.block o.levelwise)
    {one u : Nat} (hone : one < 2 ^ 32) (hu : 3 ≤ u) (hu' : u < 2 ^ 32) {lists : List (List Nat)}
    (hl : ∀ l ∈ lists, l.length < 2 ^ 30) (hv : ∀ l ∈ kept o.minSize o.maxSize lists, ValidSet l u)
    (hn : (kept o.minSize o.maxSize lists).length < 2 ^ 32)
    {fs : Files} {prog input : Str} (hio : o.out ≠ input) (hin : fs input = some (collectionBytes one u lists))
    {qopts : List QueryOption} {prog' log : Str} (hqopts : ∀ q ∈ QueryOption.file o.out :: .file log :: qopts, q.Ok false)
    {c : QuerySettings} (hqc : c = qopts.foldl QueryOption.apply ⟨false, true, []⟩)
    {text : Str} {queries : List (List Nat)} (ht : LogText text queries) (hq0 : ∀ q ∈ queries, q ≠ [])
    (hq1 : ∀ q ∈ queries, ∀ i ∈ q, i < (kept o.minSize o.maxSize lists).length ∧ i < 2 ^ 31)
    (hmax : o.runs = true → c.parallel = true → o.maxSize < 2 ^ (trieHeight u - Nat.log2 hw))
    (hflat : o.runs = true → o.levelwise = false →
      ¬ someQuery (stumbles pad (trieHeight u) (forks c.parallel (trieHeight u) 2 hw)) (kept o.minSize o.maxSize lists) queries) :
    ∃ f, mainBuildTries F pad true fs (prog :: input :: opts.flatMap (BuildOption.words false)) = .ok (some (o.out, f)) ∧
      ∀ (fs' : Files) (texts : Str → Option Str), fs' o.out = some f → texts log = some text →
        ∃ as rows, mainQueryLog F pad env fs' texts (prog' :: o.out :: log :: qopts.flatMap (QueryOption.words false)) =
            .ok (.done as (if c.out = [] then none else some (c.out, rows))) ∧
          List.Forall₂ (Answers (kept o.minSize o.maxSize lists)) queries as ∧ IsResults (kept o.minSize o.maxSize lists) queries rows :=
  C92_tries_session_lengths F pad hw0 hw1 env he hopts ho hout hs hone hu hu' hl hv hn hio hin hqopts hqc ht hq0 hq1
    (fun hr hp => kept_length_lt (hmax hr hp)) hflat

/-- C92, the tools for `fastBinaryTrie`, for lists under the same limit. -/
theorem C92_fast_session_lengths (B : BvIO) (K : Nat → RankIO) {lg : Nat} (hlg : 3 ≤ lg ∧ lg ≤ 6) (pad : Nat)
    (junk junk' : Nat → FastJunk) (hj : ∀ i, (junk i).heightWithRuns < 2 ^ 16) {hw : Nat} (hw0 : hw ≠ 0) (hw1 : hw < 2 ^ 16)
    (env : Nat → Env) (he : ∀ i, (env i).hw = hw)
    {opts : List BuildOption} (hopts : ∀ o ∈ opts, o.Ok true) {o : BuildSettings} (ho : o = opts.foldl BuildOption.apply .default)
    (hout : o.out ≠ []) (hws : o.wsize = 2 ^ lg) (hr1 : o.rank ≠ 1)
    {one u : Nat} (hone : one < 2 ^ 32) (hu : 2 ^ (lg - 1) < u) (hu' : u < 2 ^ 32) {lists : List (List Nat)}
    (hl : ∀ l ∈ lists, l.length < 2 ^ 30) (hv : ∀ l ∈ kept o.minSize o.maxSize lists, ValidSet l u)
    (hn : (kept o.minSize o.maxSize lists).length < 2 ^ 32)
    {fs : Files} {prog input : Str} (hio : o.out ≠ input) (hin : fs input = some (collectionBytes one u lists))
    {qopts : List QueryOption} {prog' log : Str} (hqopts : ∀ q ∈ QueryOption.file o.out :: .file log :: qopts, q.Ok true)
    {c : QuerySettings} (hqc : c = qopts.foldl QueryOption.apply ⟨false, false, []⟩) (hpar : c.parallel = true → 2 ^ lg < u)
    {text : Str} {queries : List (List Nat)} (ht : LogText text queries) (hq : queries ≠ []) (hq0 : ∀ q ∈ queries, q ≠ [])
    (hq1 : ∀ q ∈ queries, q.length ≤ 16 → ∀ i ∈ q, i < (kept o.minSize o.maxSize lists).length) (hq2 : ∀ q ∈ queries, ∀ i ∈ q, i < 2 ^ 64)
    (hshort : o.runs = true → c.parallel = true → ∀ l ∈ kept o.minSize o.maxSize lists, l.length < 2 ^ (trieHeight u - Nat.log2 hw)) :
    ∃ f, mainBuildFast B K pad junk fs (prog :: input :: opts.flatMap (BuildOption.words true)) = .ok (some (o.out, f)) ∧
      ∀ (fs' : Files) (texts : Str → Option Str), fs' o.out = some f → texts log = some text →
        ∃ as, mainQueryFast B K pad junk' env fs' texts (prog' :: o.out :: log :: qopts.flatMap (QueryOption.words true)) =
            .ok (.done as none) ∧ List.Forall₂ (Answers (kept o.minSize o.maxSize lists)) queries as := by
  obtain ⟨f, h1, h2⟩ := C53_fast_session_exact_partial B K hlg pad junk junk' hj hw0 hw1 env he hopts ho hout hws hr1 hone hu hu' hl hv hn
    (prog := prog) hio hin (prog' := prog') hqopts hqc hpar ht hq hq0 hq1 hq2
  have h2u : 2 ^ 1 ≤ 2 ^ (lg - 1) := Nat.pow_le_pow_right (by decide) (by omega)
  refine ⟨f, h1, fun fs' texts hf' ht' => ?_⟩
  obtain ⟨as, h3, h4⟩ := h2 fs' texts hf' ht'
  refine ⟨as, h3, forall2_mem_imp h4 fun q hq a H => ⟨fun hle => ?_, H.2⟩⟩
  obtain ⟨R, e, hR⟩ := H.1 hle
  refine ⟨R, e, ?_⟩
  have hS := query_sets (by omega) hv (hq1 q hq hle)
  refine answeredBy_short (by simpa using hq0 q hq) (by omega) (fun S hS' => (hS S hS').2) (fun hr hp S hS' => ?_) hR
  exact hshort hr hp S (hS S hS').1

/-- C92, the tools for `fastBinaryTrie`, under the same limit. -/
theorem C92_fast_session (B : BvIO) (K : Nat → RankIO) {lg : Nat} (hlg : 3 ≤ lg ∧ lg ≤ 6) (pad : Nat)
    (junk junk' : Nat → FastJunk) (hj : ∀ i, (junk i).heightWithRuns < 2 ^ 16) {hw : Nat} (hw0 : hw ≠ 0) (hw1 : hw < 2 ^ 16)
    (env : Nat → Env) (he : ∀ i, (env i).hw = hw)
    {opts : List BuildOption} (hopts : ∀ o ∈ opts, o.Ok true) {o : BuildSettings} (ho : o = opts.foldl BuildOption.apply .default)
    (hout : o.out ≠ []) (hws : o.wsize = 2 ^ lg) (hr1 : o.rank ≠ 1)
    {one u : Nat} (hone : one < 2 ^ 32) (hu : 2 ^ (lg - 1) < u) (hu' : u < 2 ^ 32) {lists : List (List Nat)}
    (hl : ∀ l ∈ lists, l.length < 2 ^ 30) (hv : ∀ l ∈ kept o.minSize o.maxSize lists, ValidSet l u)
    (hn : (kept o.minSize o.maxSize lists).length < 2 ^ 32)
    {fs : Files} {prog input : Str} (hio : o.out ≠ input) (hin : fs input = some (collectionBytes one u lists))
    {qopts : List QueryOption} {prog' log : Str} (hqopts : ∀ q ∈ QueryOption.file o.out :: .file log :: qopts, q.Ok true)
    {c : QuerySettings} (hqc : c = qopts.foldl QueryOption.apply ⟨false, false, []⟩) (hpar : c.parallel = true → 2 ^ lg < u)
    {text : Str} {queries : List (List Nat)} (ht : LogText text queries) (hq : queries ≠ []) (hq0 : ∀ q ∈ queries, q ≠ [])
    (hq1 : ∀ q ∈ queries, q.length ≤ 16 → ∀ i ∈ q, i < (kept o.minSize o.maxSize lists).length) (hq2 : ∀ q ∈ queries, ∀ i ∈ q, i < 2 ^ 64)
    (hmax : o.runs = true → c.parallel = true → o.maxSize < 2 ^ (trieHeight u - Nat.log2 hw)) :
    ∃ f, mainBuildFast B K pad junk fs (prog :: input :: opts.flatMap (BuildOption.words true)) = .ok (some (o.out, f)) ∧
      ∀ (fs' : Files) (texts : Str → Option Str), fs' o.out = some f → texts log = some text →
        ∃ as, mainQueryFast B K pad junk' env fs' texts (prog' :: o.out :: log :: qopts.flatMap (QueryOption.words true)) =
            .ok (.done as none) ∧ List.Forall₂ (Answers (kept o.minSize o.maxSize lists)) queries as :=
  C92_fast_session_lengths B K hlg pad junk junk' hj hw0 hw1 env he hopts ho hout hws hr1 hone hu hu' hl hv hn hio hin hqopts hqc hpar ht hq
    hq0 hq1 hq2 fun hr hp => kept_length_lt (hmax hr hp)

/-- With the limit at 15, four hardware threads, and a universe of 64, lists of up to 15 elements are intersected without loss, though blocks
are collapsed; the list of 20 is dropped. With a limit of 100 it is kept, and elements are lost. -/
example : (let lists := [[0, 1, 2, 3, 4, 5, 6, 7, 20, 31], (List.range 20), [4, 5, 6, 7, 31, 32, 33, 34, 35]]
    (buildTries Ex.formats 0 true 1 15 0 512 true true (collectionBytes 1 64 lists) >>= fun f =>
      queryLog Ex.formats 0 true (fun _ => ⟨4, [], []⟩) [[0, 1]] f) = .ok [some [4, 5, 6, 7, 31]] ∧
    (buildTries Ex.formats 0 true 1 100 0 512 true true (collectionBytes 1 64 lists) >>= fun f =>
      queryLog Ex.formats 0 true (fun _ => ⟨4, [], []⟩) [[0, 1]] f) = .ok [some []]) ∧ 15 < 2 ^ (trieHeight 64 - Nat.log2 4) := by
  decide +kernel

end CBT
