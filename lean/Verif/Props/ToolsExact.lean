import Verif.SpecToolsRuns
import Verif.Props.ToolsRuns
import Verif.Props.UnreadablePar
import Verif.Props.Docs
import Verif.Props.CommandLine

/-!
# C35, C43, C45, C53 in every mode, exactly

The query tools on the files of the build tools, for all collections: with and without runs, sequential and parallel, and including flat
tries whose last level collapses.
-/

namespace CBT

open Spec

/-! ## The intersections -/

/-- What a call of the query tool does on tries built with the same options. -/
theorem intersect_mode {pad u : Nat} {runs levelwise : Bool} (hu : 3 ≤ u) (hu' : u < 2 ^ 32) {sets : List (List Nat)} {Ts : List Nav}
    (H : List.Forall₂ (fun S n => KnownTrie pad (trieHeight u) (codingOf runs levelwise, S) n) sets Ts) (hne : Ts ≠ []) (hlen : Ts.length ≤ 16)
    (parallel : Bool) (env : Env) (hw : env.hw ≠ 0) (hw2 : env.hw < 2 ^ 16) :
    (¬ (runs = true ∧ levelwise = false ∧ stumbles pad (trieHeight u) (forks parallel (trieHeight u) 2 env.hw) sets) →
      ∃ R, intersect Ts runs parallel env = .ok R ∧ AnsweredBy runs (trieHeight u) (forks parallel (trieHeight u) 2 env.hw) sets R) ∧
    (runs = true ∧ levelwise = false ∧ stumbles pad (trieHeight u) (forks parallel (trieHeight u) 2 env.hw) sets →
      intersect Ts runs parallel env = .error .oob) := by
  have hh : 2 ≤ trieHeight u := by
    have : 1 ≤ Nat.log2 (u - 1) := (Nat.le_log2 (by omega)).2 (by omega)
    rw [trieHeight]; omega
  have hB : List.Forall₂ (BuiltTrie pad (trieHeight u)) sets Ts := H.imp fun _ _ h => KnownTrie.built.2 ⟨_, h⟩
  cases runs with
  | false =>
    refine ⟨fun _ => ?_, fun h => by simp at h⟩
    have hP : List.Forall₂ (PlainTrie pad (trieHeight u)) sets Ts := H.imp fun _ _ h => by
      cases h
      assumption
    obtain ⟨R, e, e'⟩ : ∃ R, intersect Ts false parallel env = .ok R ∧ IsIntersection sets R := by
      cases parallel with
      | false => exact C07_seq_intersect_plain hP hne hlen env hw
      | true =>
        obtain ⟨R, e, -, e'⟩ := C11_parallel_plain hh hP hne hlen env env hw hw2 hw
        exact ⟨R, e, e'⟩
    refine ⟨R, e, ?_⟩
    cases forks parallel (trieHeight u) 2 env.hw with
    | none => exact e'
    | some cut => simpa [AnsweredBy] using e'
  | true =>
    have hK : List.Forall₂ (KnownTrie pad (trieHeight u)) (sets.map fun S => (codingOf true levelwise, S)) Ts := List.forall₂_map_left_iff.2 H
    have hwr : withRuns (sets.map fun S => (codingOf true levelwise, S)) = sets.map fun S => (true, S) := by
      rw [withRuns, List.map_map]
      refine List.map_congr_left fun S _ => ?_
      simp only [Function.comp_apply, codingOf_runs]
    have hfl : codingOf true levelwise = .flat ↔ levelwise = false := by
      rw [codingOf_flat]
      simp
    have hdec : decide (codingOf true levelwise = .flat) = !levelwise := by cases levelwise <;> rfl
    by_cases hcut : parallel = true ∧ Nat.log2 env.hw + 2 ≤ trieHeight u
    · rw [forks, if_pos hcut]
      obtain ⟨rfl, hcut⟩ := hcut
      obtain ⟨h1, h2⟩ := C08_par_runs_exact_partial hK hne hlen env hw hw2 hcut
      rw [hwr] at h1 h2
      constructor
      · intro h
        refine ⟨_, h1 fun c hc hf j k hu => ?_, by simp [AnsweredBy]⟩
        obtain ⟨S, hS, rfl⟩ := List.mem_map.1 hc
        by_contra hv
        exact h ⟨rfl, hfl.1 hf, S, hS, j, k, hu, by simpa using hv⟩
      · rintro ⟨-, hf, S, hS, j, k, hu, hv⟩
        refine h2 fun h => ?_
        have := h _ (List.mem_map.2 ⟨S, hS, rfl⟩) (hfl.2 hf) j k hu
        simp [this] at hv
    · rw [forks, if_neg hcut]
      have e : intersect Ts true parallel env = intersect Ts true false env := by
        cases parallel with
        | false => rfl
        | true => exact par_few_levels hB hh true env fun h => hcut ⟨rfl, h⟩
      rw [e]
      have hR : List.Forall₂ (ReadTrie pad (trieHeight u)) (sets.map fun S => (!levelwise, S)) Ts :=
        List.forall₂_map_left_iff.2 (H.imp fun _ _ h => hdec ▸ h.read)
      obtain ⟨h1, h2⟩ := C08_seq_runs_exact_partial hR hne hlen env hw
      have hs : (sets.map fun S => (!levelwise, S)).map Prod.snd = sets := by
        rw [List.map_map]
        exact List.map_id _
      rw [hs] at h1 h2
      constructor
      · intro h
        refine h1 fun c hc hf j k hu => ?_
        obtain ⟨S, hS, rfl⟩ := List.mem_map.1 hc
        by_contra hv
        exact h ⟨rfl, by simpa using hf, S, hS, j, k, hu, hv⟩
      · rintro ⟨-, hf, S, hS, j, k, hu, hv⟩
        exact h2 fun h => hv (h _ (List.mem_map.2 ⟨S, hS, rfl⟩) (by simpa using hf) j k hu)

/-- The same for fast tries. -/
theorem fastIntersect_mode {lg pad u : Nat} (hlg : 3 ≤ lg ∧ lg ≤ 6) {runs : Bool} (hu : 2 ^ (lg - 1) < u) (hu' : u < 2 ^ 32)
    {sets : List (List Nat)} {Ts : List FNav} (H : List.Forall₂ (fun S n => FastCoded lg pad (fastHeight lg u) (runs, S) n) sets Ts) (hne : Ts ≠ [])
    (hlen : Ts.length ≤ 16) (parallel : Bool) (hp : parallel = true → 2 ^ lg < u) (env : Env) (hw : env.hw ≠ 0) (hw2 : env.hw < 2 ^ 16) :
    ∃ R, fastIntersect lg Ts runs parallel env = .ok R ∧ AnsweredBy runs (trieHeight u) (forks parallel (trieHeight u) (lg + 1) env.hw) sets R := by
  have hpos := Nat.two_pow_pos lg
  have hR : List.Forall₂ (FastRuns lg pad (fastHeight lg u)) sets Ts := H.imp fun _ _ h => h.toRuns
  have hlog' : Nat.log2 (u - 1) < 32 := (Nat.log2_lt (by have := Nat.two_pow_pos (lg - 1); omega)).2 (by omega)
  cases parallel with
  | false =>
    obtain ⟨R, e, e'⟩ : ∃ R, fastIntersect lg Ts runs false env = .ok R ∧ IsIntersection sets R := by
      cases runs with
      | false => exact C09_fast_seq_intersect_plain hlg (H.imp fun _ _ h => h.uncoded) hne hlen env hw
      | true => exact C10_fast_seq_intersect_runs hlg hR hne hlen env hw
    refine ⟨R, e, ?_⟩
    rw [forks, if_neg (by simp)]
    exact e'
  | true =>
    have hlt := hp rfl
    have hlog : lg ≤ Nat.log2 (u - 1) := (Nat.le_log2 (by omega)).2 (by omega)
    have hh : fastHeight lg u = Nat.log2 (u - 1) - lg + 2 := by rw [fastHeight]; omega
    cases runs with
    | false =>
      obtain ⟨R, e, -, e'⟩ := C13_fast_parallel_plain hlg (by omega) (H.imp fun _ _ h => h.uncoded) hne hlen env env hw hw2 hw
      refine ⟨R, e, ?_⟩
      cases forks true (trieHeight u) (lg + 1) env.hw with
      | none => exact e'
      | some cut => simpa [AnsweredBy] using e'
    | true =>
      by_cases hc : Nat.log2 env.hw + (lg + 1) ≤ trieHeight u
      · rw [forks, if_pos ⟨rfl, hc⟩]
        rw [trieHeight] at hc
        have := C13_fast_parallel_runs_result_partial hlg (cs := sets.map fun S => (true, S)) (List.forall₂_map_left_iff.2 H) hne hlen env hw hw2
          (by omega)
        rw [show fastHeight lg u - 1 - Nat.log2 env.hw + lg = trieHeight u - Nat.log2 env.hw by rw [trieHeight]; omega] at this
        exact ⟨_, this, rfl⟩
      · rw [forks, if_neg fun h => hc h.2]
        rw [trieHeight] at hc
        have hH := forall2_imp_right hR fun _ _ h => (h.holds hlg).height
        rw [fastIntersect_short (h := fastHeight lg u) (fun T hT => by rw [hH T hT]; omega) (by omega) (by omega) (by omega)]
        exact C10_fast_seq_intersect_runs hlg hR hne hlen env hw

/-! ## The tools -/

theorem answerLog_oob {seqs : List Nav} {f : Nat → Nav} {inter : Nat → List Nav → R (List Nat)} {Bad : List Nat → Prop} :
    (queries : List (List Nat)) → (i : Nat) → (∀ q ∈ queries, ∀ x ∈ q, seqs[x]? = some (f x)) →
    (∀ q ∈ queries, q.length ≤ 16 → ∀ j, (¬ Bad q → ∃ R, inter j (q.map f) = .ok R) ∧ (Bad q → inter j (q.map f) = .error .oob)) →
    (∃ q ∈ queries, q.length ≤ 16 ∧ Bad q) → answerLog seqs inter i queries = .error .oob
  | [], _, _, _, h => by simp at h
  | q :: qs, i, h1, h2, h3 => by
    rw [answerLog, getAll_ok q (h1 q (by simp)), R_bind_ok, List.length_map]
    by_cases hb : q.length ≤ 16 ∧ Bad q
    · rw [if_pos hb.1, (h2 q (by simp) hb.1 i).2 hb.2]
      rfl
    · have ih := answerLog_oob (inter := inter) (f := f) (Bad := Bad) qs (i + 1) (fun q hq => h1 q (List.mem_cons_of_mem _ hq))
        (fun q hq => h2 q (List.mem_cons_of_mem _ hq)) (by
          obtain ⟨q', hq', h⟩ := h3
          rcases List.mem_cons.1 hq' with rfl | hq'
          · exact (hb h).elim
          · exact ⟨q', hq', h⟩)
      by_cases hq : q.length ≤ 16
      · obtain ⟨R, hR⟩ := (h2 q (by simp) hq i).1 fun h => hb ⟨hq, h⟩
        simp only [if_pos hq, hR, R_bind_ok, ih, pure, Except.pure]
        rfl
      · simp only [if_neg hq, R_bind_ok, ih, pure, Except.pure]
        rfl

/-- C43, exactly, for files that `intersection_query_log` can read: in all modes and for all collections. The answers are as `AnsweredBy`
says, unless some query makes flat run-encoded tries read a block out of bounds. -/
theorem C43_tries_exact_partial (F : Formats) (pad : Nat) {mn mx rank block : Nat} (hr : rank < 2 ^ 32) (hb : block < 2 ^ 32)
    (runs levelwise : Bool) (hs : Supported rank block levelwise) {one u : Nat} (hone : one < 2 ^ 32) (hu : 3 ≤ u) (hu' : u < 2 ^ 32)
    {lists : List (List Nat)} (hl : ∀ l ∈ lists, l.length < 2 ^ 30) (hv : ∀ l ∈ kept mn mx lists, ValidSet l u)
    (hn : (kept mn mx lists).length < 2 ^ 32) (parallel : Bool) {hw : Nat} (hw0 : hw ≠ 0) (hw1 : hw < 2 ^ 16)
    (env : Nat → Env) (he : ∀ i, (env i).hw = hw)
    {queries : List (List Nat)} (hq0 : ∀ q ∈ queries, q ≠ []) (hq1 : ∀ q ∈ queries, ∀ i ∈ q, i < (kept mn mx lists).length) :
    ∃ f, buildTries F pad true mn mx rank block runs levelwise (collectionBytes one u lists) = .ok f ∧
      (¬ (runs = true ∧ levelwise = false ∧
          someQuery (stumbles pad (trieHeight u) (forks parallel (trieHeight u) 2 hw)) (kept mn mx lists) queries) →
        ∃ as, queryLog F pad parallel env queries f = .ok as ∧
          List.Forall₂ (AnswersWith (AnsweredBy runs (trieHeight u) (forks parallel (trieHeight u) 2 hw)) (kept mn mx lists)) queries as) ∧
      (runs = true ∧ levelwise = false ∧
          someQuery (stumbles pad (trieHeight u) (forks parallel (trieHeight u) 2 hw)) (kept mn mx lists) queries →
        queryLog F pad parallel env queries f = .error .oob) := by
  obtain ⟨f, nav, h1, h2, h3⟩ := queryLog_file F pad (runs := runs) hr hb hs hone hu hu' hl hv hn
  have hget : ∀ q ∈ queries, ∀ x ∈ q, ((List.range' 0 (kept mn mx lists).length).map nav)[x]? = some (nav x) := by
    intro q hqm x hx
    rw [List.getElem?_map, List.getElem?_range' (hq1 q hqm x hx)]
    simp
  have hI := fun q (hq : q ∈ queries) (hle : q.length ≤ 16) j =>
    intersect_mode (pad := pad) (runs := runs) (levelwise := levelwise) hu hu'
      (sets := q.map fun i => (kept mn mx lists).getD i []) (forall2_map q fun x hx => h2 x (hq1 q hq x hx))
      (by simpa using hq0 q hq) (by simpa using hle) parallel (env j) (by rw [he]; exact hw0) (by rw [he]; exact hw1)
  simp only [he] at hI
  refine ⟨f, h1, fun hB => ?_, fun hB => ?_⟩
  · obtain ⟨as, ha, hf⟩ := answerLog_ok (inter := fun i ts => intersect ts runs parallel (env i))
      (P := fun q R => AnsweredBy runs (trieHeight u) (forks parallel (trieHeight u) 2 hw) (q.map fun i => (kept mn mx lists).getD i []) R)
      queries 0 hget (fun q hq hle j => (hI q hq hle j).1 fun h => hB ⟨h.1, h.2.1, q, hq, hle, h.2.2⟩)
    exact ⟨as, (h3 _ _ _).trans ha, hf⟩
  · obtain ⟨hb1, hb2, hB⟩ := hB
    rw [h3]
    refine answerLog_oob (f := nav)
      (Bad := fun q => runs = true ∧ levelwise = false ∧
        stumbles pad (trieHeight u) (forks parallel (trieHeight u) 2 hw) (q.map fun i => (kept mn mx lists).getD i [])) queries 0 hget
      (fun q hq hle j => ⟨fun h => ?_, (hI q hq hle j).2⟩) ?_
    · obtain ⟨R, e, _⟩ := (hI q hq hle j).1 h
      exact ⟨R, e⟩
    · obtain ⟨q, hq, hle, h⟩ := hB
      exact ⟨q, hq, hle, hb1, hb2, h⟩

/-- C35, exactly, in all modes. For parallel queries the universe must be above the smallest; C14_fast_height1_negation is about that one. -/
theorem C35_fast_exact (B : BvIO) (K : Nat → RankIO) {lg : Nat} (hlg : 3 ≤ lg ∧ lg ≤ 6) (pad : Nat)
    (junk junk' : Nat → FastJunk) (hj : ∀ i, (junk i).heightWithRuns < 2 ^ 16) {mn mx rank : Nat} (hr : rank < 2 ^ 32) (hr1 : rank ≠ 1)
    (runs levelwise : Bool) {one u : Nat} (hone : one < 2 ^ 32) (hu : 2 ^ (lg - 1) < u) (hu' : u < 2 ^ 32) {lists : List (List Nat)}
    (hl : ∀ l ∈ lists, l.length < 2 ^ 30) (hv : ∀ l ∈ kept mn mx lists, ValidSet l u) (hn : (kept mn mx lists).length < 2 ^ 32)
    (parallel : Bool) (hp : parallel = true → 2 ^ lg < u)
    {hw : Nat} (hw0 : hw ≠ 0) (hw1 : hw < 2 ^ 16) (env : Nat → Env) (he : ∀ i, (env i).hw = hw)
    {queries : List (List Nat)} (hq : queries ≠ []) (hq0 : ∀ q ∈ queries, q ≠ [])
    (hq1 : ∀ q ∈ queries, q.length ≤ 16 → ∀ i ∈ q, i < (kept mn mx lists).length) :
    ∃ f as, buildFast B K pad junk mn mx rank runs levelwise (2 ^ lg) (collectionBytes one u lists) = .ok (some f) ∧
      queryFast B K pad junk' parallel env queries f = .ok as ∧
      List.Forall₂ (AnswersWith (AnsweredBy runs (trieHeight u) (forks parallel (trieHeight u) (lg + 1) hw)) (kept mn mx lists)) queries as :=
  queryFast_ok B K hlg pad junk junk' hj hr hr1 runs levelwise hone hu hu' hl hv hn parallel env
    (P := AnsweredBy runs (trieHeight u) (forks parallel (trieHeight u) (lg + 1) hw))
    (fun sets Ts i h1 _ h3 h4 => by
      have := fastIntersect_mode hlg hu hu' h1 h3 h4 parallel hp (env i) (by rw [he]; exact hw0) (by rw [he]; exact hw1)
      rwa [he] at this) hq hq0 hq1

/-- With runs and flat tries of `{0, …, 3, 12, …, 15}` and `{0, …, 3}`, if three bits after the vector are readable: intersecting both works,
because the block `{12, …, 15}` is not looked at. The first set alone stumbles over it, but not over the first block. -/
example : stumbles 3 4 none [[0, 1, 2, 3, 12, 13, 14, 15]] ∧
    (buildTries Ex.formats 3 true 0 100 0 512 true false (collectionBytes 1 16 [[0, 1, 2, 3, 12, 13, 14, 15], [0, 1, 2, 3]]) >>= fun f =>
      queryLog Ex.formats 3 false (fun _ => ⟨2, [], []⟩) [[0, 1], [0]] f) = .error .oob ∧
    (buildTries Ex.formats 3 true 0 100 0 512 true false (collectionBytes 1 16 [[0, 1, 2, 3, 12, 13, 14, 15], [0, 1, 2, 3]]) >>= fun f =>
      queryLog Ex.formats 3 false (fun _ => ⟨2, [], []⟩) [[0, 1], [1]] f) = .ok [some [0, 1, 2, 3], some [0, 1, 2, 3]] := by
  refine ⟨⟨_, List.mem_singleton.2 rfl, 2, 3, ⟨by decide +kernel, by decide +kernel, by decide +kernel⟩, ?_⟩, by decide +kernel, by decide +kernel⟩
  rintro ⟨S, hS, h⟩
  rw [List.mem_singleton.1 hS] at h
  exact h 12 (by decide) (by decide)

/-- In parallel, elements are lost: `AnsweredBy` says which. -/
example : forks true 6 2 4 = some 2 ∧
    (buildTries Ex.formats 0 true 1 100 0 512 true true (collectionBytes 1 64 Ex.coll) >>= fun f =>
      queryLog Ex.formats 0 true (fun _ => ⟨4, [], []⟩) [[2, 0]] f) =
      .ok [some (runsResult ([2, 0].map fun i => (true, (kept 1 100 Ex.coll).getD i [])) (6 - 2) 2)] ∧
    runsResult ([2, 0].map fun i => (true, (kept 1 100 Ex.coll).getD i [])) (6 - 2) 2 = [31] := by
  decide +kernel

/-! ## C45: the numbers of the sets -/

theorem query_kept {mn mx : Nat} {lists : List (List Nat)} {k : Nat} (hk : ∀ l ∈ lists.take k, mn < l.length ∧ l.length ≤ mx)
    {q : List Nat} (hq : ∀ i ∈ q, i < k) : (q.map fun i => (kept mn mx lists).getD i []) = q.map fun i => lists.getD i [] :=
  List.map_congr_left fun i hi => kept_getD lists k i hk (hq i hi)

theorem answersWith_kept {P : List (List Nat) → List Nat → Prop} {mn mx : Nat} {lists : List (List Nat)} {k : Nat}
    (hk : ∀ l ∈ lists.take k, mn < l.length ∧ l.length ≤ mx) {qs : List (List Nat)} {as : List (Option (List Nat))}
    (hq : ∀ q ∈ qs, ∀ i ∈ q, i < k) (h : List.Forall₂ (AnswersWith P (kept mn mx lists)) qs as) :
    List.Forall₂ (AnswersWith P lists) qs as := by
  induction h with
  | nil => exact .nil
  | cons h _ ih =>
    rw [AnswersWith, query_kept hk (hq _ (List.mem_cons_self ..))] at h
    exact .cons h (ih fun q h => hq q (List.mem_cons_of_mem _ h))

theorem someQuery_kept {P : List (List Nat) → Prop} {mn mx : Nat} {lists : List (List Nat)} {k : Nat}
    (hk : ∀ l ∈ lists.take k, mn < l.length ∧ l.length ≤ mx) {qs : List (List Nat)} (hq : ∀ q ∈ qs, ∀ i ∈ q, i < k) :
    someQuery P (kept mn mx lists) qs ↔ someQuery P lists qs :=
  exists_congr fun q => and_congr_right fun h => by rw [query_kept hk (hq q h)]

/-- C45 (partial), `build_tries` and `intersection_query_log` in all modes: if none of the first `k` lists of the collection is dropped,
queries about them are about the lists at these positions of the complete collection. -/
theorem C45_exact_partial (F : Formats) (pad : Nat) {mn mx rank block : Nat} (hr : rank < 2 ^ 32) (hb : block < 2 ^ 32)
    (runs levelwise : Bool) (hs : Supported rank block levelwise) {one u : Nat} (hone : one < 2 ^ 32) (hu : 3 ≤ u) (hu' : u < 2 ^ 32)
    {lists : List (List Nat)} (hl : ∀ l ∈ lists, l.length < 2 ^ 30) (hv : ∀ l ∈ kept mn mx lists, ValidSet l u)
    (hn : (kept mn mx lists).length < 2 ^ 32) (parallel : Bool) {hw : Nat} (hw0 : hw ≠ 0) (hw1 : hw < 2 ^ 16)
    (env : Nat → Env) (he : ∀ i, (env i).hw = hw)
    {k : Nat} (hk : ∀ l ∈ lists.take k, mn < l.length ∧ l.length ≤ mx) (hkl : k ≤ lists.length)
    {queries : List (List Nat)} (hq0 : ∀ q ∈ queries, q ≠ []) (hq1 : ∀ q ∈ queries, ∀ i ∈ q, i < k) :
    ∃ f, buildTries F pad true mn mx rank block runs levelwise (collectionBytes one u lists) = .ok f ∧
      (¬ (runs = true ∧ levelwise = false ∧ someQuery (stumbles pad (trieHeight u) (forks parallel (trieHeight u) 2 hw)) lists queries) →
        ∃ as, queryLog F pad parallel env queries f = .ok as ∧
          List.Forall₂ (AnswersWith (AnsweredBy runs (trieHeight u) (forks parallel (trieHeight u) 2 hw)) lists) queries as) ∧
      (runs = true ∧ levelwise = false ∧ someQuery (stumbles pad (trieHeight u) (forks parallel (trieHeight u) 2 hw)) lists queries →
        queryLog F pad parallel env queries f = .error .oob) := by
  obtain ⟨f, h1, h2, h3⟩ := C43_tries_exact_partial F pad hr hb runs levelwise hs hone hu hu' hl hv hn parallel hw0 hw1 env he hq0
    (fun q h i hi => Nat.lt_of_lt_of_le (hq1 q h i hi) (le_length_kept lists k hk hkl))
  rw [someQuery_kept hk hq1] at h2 h3
  refine ⟨f, h1, fun h => ?_, h3⟩
  obtain ⟨as, h4, h5⟩ := h2 h
  exact ⟨as, h4, answersWith_kept hk hq1 h5⟩

/-- C45 (partial), `build_fastTries` and `intersection_querylog_fastTrie` in all modes. -/
theorem C45_fast_exact_partial (B : BvIO) (K : Nat → RankIO) {lg : Nat} (hlg : 3 ≤ lg ∧ lg ≤ 6) (pad : Nat) (junk junk' : Nat → FastJunk)
    (hj : ∀ i, (junk i).heightWithRuns < 2 ^ 16) {mn mx rank : Nat} (hr : rank < 2 ^ 32) (hr1 : rank ≠ 1) (runs levelwise : Bool)
    {one u : Nat} (hone : one < 2 ^ 32) (hu : 2 ^ (lg - 1) < u) (hu' : u < 2 ^ 32) {lists : List (List Nat)}
    (hl : ∀ l ∈ lists, l.length < 2 ^ 30) (hv : ∀ l ∈ kept mn mx lists, ValidSet l u) (hn : (kept mn mx lists).length < 2 ^ 32)
    (parallel : Bool) (hp : parallel = true → 2 ^ lg < u)
    {hw : Nat} (hw0 : hw ≠ 0) (hw1 : hw < 2 ^ 16) (env : Nat → Env) (he : ∀ i, (env i).hw = hw)
    {k : Nat} (hk : ∀ l ∈ lists.take k, mn < l.length ∧ l.length ≤ mx) (hkl : k ≤ lists.length)
    {queries : List (List Nat)} (hq : queries ≠ []) (hq0 : ∀ q ∈ queries, q ≠ []) (hq1 : ∀ q ∈ queries, ∀ i ∈ q, i < k) :
    ∃ f as, buildFast B K pad junk mn mx rank runs levelwise (2 ^ lg) (collectionBytes one u lists) = .ok (some f) ∧
      queryFast B K pad junk' parallel env queries f = .ok as ∧
      List.Forall₂ (AnswersWith (AnsweredBy runs (trieHeight u) (forks parallel (trieHeight u) (lg + 1) hw)) lists) queries as := by
  obtain ⟨f, as, h1, h2, h3⟩ := C35_fast_exact B K hlg pad junk junk' hj hr hr1 runs levelwise hone hu hu' hl hv hn parallel hp hw0 hw1 env he
    hq hq0 (fun q h _ i hi => Nat.lt_of_lt_of_le (hq1 q h i hi) (le_length_kept lists k hk hkl))
  exact ⟨f, as, h1, h2, answersWith_kept hk hq1 h3⟩

/-! ## C53: whole sessions -/

theorem resultRows_with {P : List (List Nat) → List Nat → Prop} {sets queries : List (List Nat)} {as : List (Option (List Nat))}
    (h : List.Forall₂ (AnswersWith P sets) queries as) : ResultsWith P sets queries (resultRows queries as) := by
  rw [ResultsWith]
  induction h with
  | nil => exact .nil
  | @cons q a qs as hq h ih =>
    by_cases hl : q.length ≤ 16
    · obtain ⟨R, rfl, hR⟩ := hq.1 hl
      rw [List.filter_cons_of_pos (by simpa using hl), resultRows]
      exact .cons ⟨rfl, R, hR, rfl⟩ ih
    · have := hq.2 (by omega)
      subst this
      rw [List.filter_cons_of_neg (by simpa using hl), resultRows]
      exact ih

/-- `intersection_query_log` with well-formed arguments. -/
theorem mainQueryLog_eq (F : Formats) (pad : Nat) (env : Nat → Env) {qopts : List QueryOption} {prog' file log : Str}
    (hqopts : ∀ q ∈ QueryOption.file file :: .file log :: qopts, q.Ok false)
    {c : QuerySettings} (hqc : c = qopts.foldl QueryOption.apply ⟨false, true, []⟩)
    {text : Str} {queries : List (List Nat)} (ht : LogText text queries) (hq : ∀ q ∈ queries, ∀ i ∈ q, i < 2 ^ 31)
    {fs' : Files} {texts : Str → Option Str} {f : Bytes} (hf' : fs' file = some f) (ht' : texts log = some text) :
    mainQueryLog F pad env fs' texts (prog' :: file :: log :: qopts.flatMap (QueryOption.words false)) =
      queryLog F pad c.parallel env queries f >>= fun as => .ok (.done as (if c.out = [] then none else some (c.out, resultRows queries as))) := by
  have e1 : argGet (prog' :: file :: log :: qopts.flatMap (QueryOption.words false)) 1 = .ok file := rfl
  have e2 : argGet (prog' :: file :: log :: qopts.flatMap (QueryOption.words false)) 2 = .ok log := rfl
  have e3 : queryArgs false (prog' :: file :: log :: qopts.flatMap (QueryOption.words false)) = .ok c :=
    (C51_query_options_partial false prog' _ hqopts).trans (by rw [hqc]; rfl)
  rw [mainQueryLog, if_neg (by simp), e1, R_bind_ok, e2, R_bind_ok, e3, R_bind_ok, hf', ht', C50_tries_log ht, if_pos hq, queryLog]
  dsimp only
  cases readTriesFileHeader f with
  | error e => rfl
  | ok r =>
    obtain ⟨o, s⟩ := r
    simp only [R_bind_ok]
    cases loadSequences F pad o s with
    | error e => rfl
    | ok seqs => simp only [R_bind_ok]

/-- C53 (partial), the tools for `flatBinTrie` and `binTrie`, in all modes and for all collections: build a collection with `build_tries`,
then ask the queries of a log with `intersection_query_log`. -/
theorem C53_tries_session_exact_partial (F : Formats) (pad : Nat) {hw : Nat} (hw0 : hw ≠ 0) (hw1 : hw < 2 ^ 16) (env : Nat → Env)
    (he : ∀ i, (env i).hw = hw)
    {opts : List BuildOption} (hopts : ∀ o ∈ opts, o.Ok false) {o : BuildSettings} (ho : o = opts.foldl BuildOption.apply .default)
    (hout : o.out ≠ []) (hs : Supported o.rank o.block o.levelwise)
    {one u : Nat} (hone : one < 2 ^ 32) (hu : 3 ≤ u) (hu' : u < 2 ^ 32) {lists : List (List Nat)}
    (hl : ∀ l ∈ lists, l.length < 2 ^ 30) (hv : ∀ l ∈ kept o.minSize o.maxSize lists, ValidSet l u)
    (hn : (kept o.minSize o.maxSize lists).length < 2 ^ 32)
    {fs : Files} {prog input : Str} (hio : o.out ≠ input) (hin : fs input = some (collectionBytes one u lists))
    {qopts : List QueryOption} {prog' log : Str} (hqopts : ∀ q ∈ QueryOption.file o.out :: .file log :: qopts, q.Ok false)
    {c : QuerySettings} (hqc : c = qopts.foldl QueryOption.apply ⟨false, true, []⟩)
    {text : Str} {queries : List (List Nat)} (ht : LogText text queries) (hq0 : ∀ q ∈ queries, q ≠ [])
    (hq1 : ∀ q ∈ queries, ∀ i ∈ q, i < (kept o.minSize o.maxSize lists).length ∧ i < 2 ^ 31) :
    ∃ f, mainBuildTries F pad true fs (prog :: input :: opts.flatMap (BuildOption.words false)) = .ok (some (o.out, f)) ∧
      ∀ (fs' : Files) (texts : Str → Option Str), fs' o.out = some f → texts log = some text →
        (¬ (o.runs = true ∧ o.levelwise = false ∧
            someQuery (stumbles pad (trieHeight u) (forks c.parallel (trieHeight u) 2 hw)) (kept o.minSize o.maxSize lists) queries) →
          ∃ as rows, mainQueryLog F pad env fs' texts (prog' :: o.out :: log :: qopts.flatMap (QueryOption.words false)) =
              .ok (.done as (if c.out = [] then none else some (c.out, rows))) ∧
            List.Forall₂ (AnswersWith (AnsweredBy o.runs (trieHeight u) (forks c.parallel (trieHeight u) 2 hw))
              (kept o.minSize o.maxSize lists)) queries as ∧
            ResultsWith (AnsweredBy o.runs (trieHeight u) (forks c.parallel (trieHeight u) 2 hw))
              (kept o.minSize o.maxSize lists) queries rows) ∧
        (o.runs = true ∧ o.levelwise = false ∧
            someQuery (stumbles pad (trieHeight u) (forks c.parallel (trieHeight u) 2 hw)) (kept o.minSize o.maxSize lists) queries →
          mainQueryLog F pad env fs' texts (prog' :: o.out :: log :: qopts.flatMap (QueryOption.words false)) = .error .oob) := by
  have hr : o.rank < 2 ^ 32 := ho ▸ settings_rank opts _ (by decide)
  have hb : o.block < 2 ^ 32 := ho ▸ settings_block false opts hopts _ (by decide)
  obtain ⟨f, h1, h2, h3⟩ := C43_tries_exact_partial F pad hr hb o.runs o.levelwise hs hone hu hu' hl hv hn c.parallel hw0 hw1 env he hq0
    (fun q h i hi => (hq1 q h i hi).1)
  refine ⟨f, ?_, fun fs' texts hf' ht' => ?_⟩
  · have e1 : argGet (prog :: input :: opts.flatMap (BuildOption.words false)) 1 = .ok input := rfl
    rw [mainBuildTries, e1, R_bind_ok, buildArgs_options false prog input opts hopts, ← ho, R_bind_ok, hin]
    simp only [if_neg hio, h1, R_bind_ok, if_neg hout]
  · rw [mainQueryLog_eq F pad env hqopts hqc ht (fun q h i hi => (hq1 q h i hi).2) hf' ht']
    refine ⟨fun h => ?_, fun h => by rw [h3 h]; rfl⟩
    obtain ⟨as, h4, h5⟩ := h2 h
    exact ⟨as, resultRows queries as, by rw [h4, R_bind_ok], h5, resultRows_with h5⟩

/-- C53 (partial), the tools for `fastBinaryTrie`, in all modes. Not with `--rank il`; with parallel execution, only for universes above
the smallest. -/
theorem C53_fast_session_exact_partial (B : BvIO) (K : Nat → RankIO) {lg : Nat} (hlg : 3 ≤ lg ∧ lg ≤ 6) (pad : Nat)
    (junk junk' : Nat → FastJunk) (hj : ∀ i, (junk i).heightWithRuns < 2 ^ 16) {hw : Nat} (hw0 : hw ≠ 0) (hw1 : hw < 2 ^ 16)
    (env : Nat → Env) (he : ∀ i, (env i).hw = hw)
    {opts : List BuildOption} (hopts : ∀ o ∈ opts, o.Ok true) {o : BuildSettings} (ho : o = opts.foldl BuildOption.apply .default)
    (hout : o.out ≠ []) (hws : o.wsize = 2 ^ lg) (hr1 : o.rank ≠ 1)
    {one u : Nat} (hone : one < 2 ^ 32) (hu : 2 ^ (lg - 1) < u) (hu' : u < 2 ^ 32) {lists : List (List Nat)}
    (hl : ∀ l ∈ lists, l.length < 2 ^ 30) (hv : ∀ l ∈ kept o.minSize o.maxSize lists, ValidSet l u)
    (hn : (kept o.minSize o.maxSize lists).length < 2 ^ 32)
    {fs : Files} {prog input : Str} (hio : o.out ≠ input) (hin : fs input = some (collectionBytes one u lists))
    {qopts : List QueryOption} {prog' log : Str} (hqopts : ∀ q ∈ QueryOption.file o.out :: .file log :: qopts, q.Ok true)
    {c : QuerySettings} (hqc : c = qopts.foldl QueryOption.apply ⟨false, false, []⟩) (hpar : c.parallel = true → 2 ^ lg < u)
    {text : Str} {queries : List (List Nat)} (ht : LogText text queries) (hq : queries ≠ []) (hq0 : ∀ q ∈ queries, q ≠ [])
    (hq1 : ∀ q ∈ queries, q.length ≤ 16 → ∀ i ∈ q, i < (kept o.minSize o.maxSize lists).length) (hq2 : ∀ q ∈ queries, ∀ i ∈ q, i < 2 ^ 64) :
    ∃ f, mainBuildFast B K pad junk fs (prog :: input :: opts.flatMap (BuildOption.words true)) = .ok (some (o.out, f)) ∧
      ∀ (fs' : Files) (texts : Str → Option Str), fs' o.out = some f → texts log = some text →
        ∃ as, mainQueryFast B K pad junk' env fs' texts (prog' :: o.out :: log :: qopts.flatMap (QueryOption.words true)) =
            .ok (.done as none) ∧
          List.Forall₂ (AnswersWith (AnsweredBy o.runs (trieHeight u) (forks c.parallel (trieHeight u) (lg + 1) hw))
            (kept o.minSize o.maxSize lists)) queries as := by
  have hr : o.rank < 2 ^ 32 := ho ▸ settings_rank opts _ (by decide)
  obtain ⟨f, as, h1, h2, h3⟩ := C35_fast_exact B K hlg pad junk junk' hj hr hr1 o.runs o.levelwise hone hu hu' hl hv hn c.parallel hpar
    hw0 hw1 env he hq hq0 hq1
  refine ⟨f, ?_, fun fs' texts hf' ht' => ⟨as, ?_, h3⟩⟩
  · have hne : opts ≠ [] := by rintro rfl; exact hout (by rw [ho]; rfl)
    have hlen := flatMap_words_pos (buildWords_ne true) hne
    have e1 : argGet (prog :: input :: opts.flatMap (BuildOption.words true)) 1 = .ok input := rfl
    rw [mainBuildFast, if_neg (by simp only [List.length_cons]; omega), e1, R_bind_ok, buildArgs_options true prog input opts hopts,
      ← ho, R_bind_ok, hin]
    simp only [if_neg (fun h => hio (And.right h)), hws, h1, R_bind_ok, if_neg hout]
  · have e1 : argGet (prog' :: o.out :: log :: qopts.flatMap (QueryOption.words true)) 1 = .ok o.out := rfl
    have e2 : argGet (prog' :: o.out :: log :: qopts.flatMap (QueryOption.words true)) 2 = .ok log := rfl
    have e3 : queryArgs true (prog' :: o.out :: log :: qopts.flatMap (QueryOption.words true)) = .ok c :=
      (C51_query_options_partial true prog' _ hqopts).trans (by rw [hqc]; rfl)
    have h2' := ((C50_tools ht f pad c.parallel env as).2 B K junk' hq2).2 h2
    rw [mainQueryFast, if_neg (by simp), e3, R_bind_ok, e1, R_bind_ok, e2, R_bind_ok, hf', ht']
    simp only [h2', R_bind_ok]

end CBT
