import Verif.Props.Tries

/-!
# C07 to C10, C15, C31: sequential intersection
-/

namespace CBT

open Spec

/-- C07. Sequential `Intersect` of 1 to 16 plain tries of one height (any mixture of flat and level-wise ones) returns
exactly the common elements, strictly increasing, without undefined behaviour. Even the sequential call computes
`floor(log2(hardware_concurrency()))`, which is undefined when the call returns 0, hence `hw`. -/
theorem C07_seq_intersect_plain {pad h : Nat} {sets : List (List Nat)} {Ts : List Nav}
    (hTs : List.Forall₂ (PlainTrie pad h) sets Ts) (hne : Ts ≠ []) (hlen : Ts.length ≤ 16) (env : Env) (hw : env.hw ≠ 0) :
    ∃ R, intersect Ts false false env = .ok R ∧ IsIntersection sets R :=
  intersect_seq_plain (hTs.imp fun _ _ h => h.holds) hne hlen hw

example : List.Forall₂ (PlainTrie 0 4) [Ex.sF, Ex.sL] [Ex.flat.nav 0, Ex.level.nav true 0] ∧
    intersect [Ex.flat.nav 0, Ex.level.nav true 0] false false ⟨8, [], []⟩ = .ok [1, 2, 3, 5, 14] :=
  ⟨.cons Ex.flat_plain (.cons Ex.level_plain .nil), by decide +kernel⟩

/-- C08 (partial). Sequential run-aware `Intersect` of 1 to 16 tries of one height, each plain or run-encoded, returns
exactly the common elements, strictly increasing, without undefined behaviour. Missing: run-encoded flat tries all of whose
populated aligned blocks of four are full and whose last-level zeros are not readable after `bTrie` (excluded in
`RunsTrie.flat`); see `C08_seq_intersect_runs_negation`. -/
theorem C08_seq_intersect_runs_partial {pad h : Nat} {sets : List (List Nat)} {Ts : List Nav}
    (hTs : List.Forall₂ (RunsTrie pad h) sets Ts) (hne : Ts ≠ []) (hlen : Ts.length ≤ 16) (env : Env) (hw : env.hw ≠ 0) :
    ∃ R, intersect Ts true false env = .ok R ∧ IsIntersection sets R :=
  intersect_seq_runs (hTs.imp fun _ _ h => h.holds) hne hlen hw

example : List.Forall₂ (RunsTrie 0 4) [Ex.sF, Ex.sL, Ex.sR] [Ex.flatR.nav 0, Ex.level.nav true 0, Ex.levelR.nav false 0] ∧
    intersect [Ex.flatR.nav 0, Ex.level.nav true 0, Ex.levelR.nav false 0] true false ⟨8, [], []⟩ = .ok [1, 2, 3, 5, 14] :=
  ⟨.cons Ex.flat_runs (.cons (.plain Ex.level_plain) (.cons Ex.level_runs .nil)), by decide +kernel⟩

example : List.Forall₂ (RunsTrie 64 4) [Ex.sB4, Ex.sB4] [Ex.flatC.nav 64, Ex.flatC.nav 64] ∧
    intersect [Ex.flatC.nav 64, Ex.flatC.nav 64] true false ⟨8, [], []⟩ = .ok Ex.sB4 :=
  ⟨.cons Ex.flatC_runs (.cons Ex.flatC_runs .nil), by decide +kernel⟩

/-- C08 is false for run-encoded flat tries whose last level collapsed: the intersection with itself reads out of bounds. -/
theorem C08_seq_intersect_runs_negation : ¬ ∀ (S : List Nat) (u : Nat) (t t' : FlatTrie) (env : Env), ValidSet S u → 3 ≤ u →
    env.hw ≠ 0 → flatCtor S u = .ok t → t.encodeRuns 0 = .ok t' →
    ∃ R, intersect [t'.nav 0, t'.nav 0] true false env = .ok R ∧ IsIntersection [S, S] R := by
  intro h
  obtain ⟨R, h1, _⟩ := h [0, 1, 2, 3] 8 ⟨3, 0, false, false, [true, false, true, true], [true, true, true, true]⟩
    ⟨3, 2, true, false, [true, false], [false, false]⟩ ⟨8, [], []⟩ (by decide +kernel) (by decide) (by decide) (by decide +kernel)
    (by decide +kernel)
  have : intersect [FlatTrie.nav ⟨3, 2, true, false, [true, false], [false, false]⟩ 0,
    FlatTrie.nav ⟨3, 2, true, false, [true, false], [false, false]⟩ 0] true false ⟨8, [], []⟩ = .error .oob := by decide +kernel
  rw [this] at h1
  cases h1

/-- C09. Sequential `Intersect` of 1 to 16 plain fast tries, for each word size (8, 16, 32, 64 bits). -/
theorem C09_fast_seq_intersect_plain {lg pad h : Nat} (hlg : 3 ≤ lg ∧ lg ≤ 6) {sets : List (List Nat)} {Ts : List FNav}
    (hTs : List.Forall₂ (FastPlain lg pad h) sets Ts) (hne : Ts ≠ []) (hlen : Ts.length ≤ 16) (env : Env) (hw : env.hw ≠ 0) :
    ∃ R, fastIntersect lg Ts false false env = .ok R ∧ IsIntersection sets R :=
  fastIntersect_seq_plain hlg.2 (hTs.imp fun _ _ h => h.holds hlg) hne hlen hw

example : List.Forall₂ (FastPlain 3 0 3) [Ex.sV, Ex.sW] [Ex.fast.nav 0, Ex.fast2.nav 0] ∧
    fastIntersect 3 [Ex.fast.nav 0, Ex.fast2.nav 0] false false ⟨8, [], []⟩ = .ok [4, 17, 31] :=
  ⟨.cons Ex.fast_plain (.cons Ex.fast2_plain .nil), by decide +kernel⟩

/-- C10. Sequential run-aware `Intersect` of 1 to 16 fast tries, each plain or run-encoded; the values of the members the
constructor leaves unwritten do not matter. -/
theorem C10_fast_seq_intersect_runs {lg pad h : Nat} (hlg : 3 ≤ lg ∧ lg ≤ 6) {sets : List (List Nat)} {Ts : List FNav}
    (hTs : List.Forall₂ (FastRuns lg pad h) sets Ts) (hne : Ts ≠ []) (hlen : Ts.length ≤ 16) (env : Env) (hw : env.hw ≠ 0) :
    ∃ R, fastIntersect lg Ts true false env = .ok R ∧ IsIntersection sets R :=
  fastIntersect_seq_runs hlg.2 (hTs.imp fun _ _ h => h.holds hlg) hne hlen hw

example : List.Forall₂ (FastRuns 3 0 3) [Ex.sV, Ex.sW, Ex.sW] [Ex.fast.nav 0, Ex.fast2.nav 0, Ex.fastR.nav 0] ∧
    fastIntersect 3 [Ex.fast.nav 0, Ex.fast2.nav 0, Ex.fastR.nav 0] true false ⟨8, [], []⟩ = .ok [4, 17, 31] :=
  ⟨.cons (.plain Ex.fast_plain) (.cons (.plain Ex.fast2_plain) (.cons Ex.fast_runs .nil)), by decide +kernel⟩

/-! ## Different heights -/

/-- C15. If two of the tries have different heights the result is empty, whatever the tries contain, in every mode and
environment. -/
theorem C15_different_heights {Ts : List Nav} {T T' : Nav} (hT : T ∈ Ts) (hT' : T' ∈ Ts) (hh : T.height ≠ T'.height)
    (runs parallel : Bool) (env : Env) : intersect Ts runs parallel env = .ok [] := by
  cases Ts with
  | nil => simp at hT
  | cons T0 Ts =>
    rw [intersect, if_pos]
    rw [List.any_eq_true]
    by_cases h : T.height = T0.height
    · exact ⟨T', hT', by simpa [h] using fun h' => hh (h.trans h'.symm)⟩
    · exact ⟨T, hT, by simpa using h⟩

/-- C15 for fast tries. -/
theorem C15_fast_different_heights {lg : Nat} {Ts : List FNav} {T T' : FNav} (hT : T ∈ Ts) (hT' : T' ∈ Ts)
    (hh : T.height ≠ T'.height) (runs parallel : Bool) (env : Env) : fastIntersect lg Ts runs parallel env = .ok [] := by
  cases Ts with
  | nil => simp at hT
  | cons T0 Ts =>
    rw [fastIntersect, if_pos]
    rw [List.any_eq_true]
    by_cases h : T.height = T0.height
    · exact ⟨T', hT', by simpa [h] using fun h' => hh (h.trans h'.symm)⟩
    · exact ⟨T, hT, by simpa using h⟩

/-- Two tries of different heights with common elements. -/
example : ∃ t t', flatCtor [1, 2] 4 = .ok t ∧ flatCtor [1, 2] 8 = .ok t' ∧ (t.nav 0).height ≠ (t'.nav 0).height ∧
    intersect [t.nav 0, t'.nav 0] false false ⟨8, [], []⟩ = .ok [] :=
  ⟨⟨2, 0, false, false, [true, true], [false, true, true, false]⟩, ⟨3, 0, false, false, [true, false, true, true], [false, true, true, false]⟩,
    by decide +kernel, by decide +kernel, by decide, by decide +kernel⟩

/-! ## Order and repetition -/

/-- Every list of tries has a list of sets. -/
theorem exists_sets {A : Type} {P : List Nat → A → Prop} {Ts Ts' : List A} (h : ∀ T ∈ Ts, ∃ S, P S T) (hm : ∀ T, T ∈ Ts ↔ T ∈ Ts') :
    ∃ sets sets', List.Forall₂ P sets Ts ∧ List.Forall₂ P sets' Ts' ∧ ∀ S, S ∈ sets ↔ S ∈ sets' := by
  classical
  let f : A → List Nat := fun T => if h : ∃ S, P S T then h.choose else []
  have hf : ∀ T ∈ Ts, P (f T) T := by
    intro T hT
    have := h T hT
    simp only [f, dif_pos this]
    exact this.choose_spec
  have hmap : ∀ l : List A, (∀ T ∈ l, P (f T) T) → List.Forall₂ P (l.map f) l := by
    intro l
    induction l with
    | nil => intro _; exact .nil
    | cons T l ih => intro h; exact .cons (h T (by simp)) (ih fun T hT => h T (by simp [hT]))
  refine ⟨Ts.map f, Ts'.map f, hmap Ts hf, hmap Ts' (fun T hT => hf T ((hm T).2 hT)), ?_⟩
  intro S
  simp only [List.mem_map, hm]

theorem IsIntersection.congr {sets sets' : List (List Nat)} (h : ∀ S, S ∈ sets ↔ S ∈ sets') {R : List Nat}
    (hR : IsIntersection sets R) : IsIntersection sets' R :=
  ⟨hR.increasing, fun x => by rw [hR.mem]; exact forall_congr' fun S => by rw [h]⟩

/-- C31. Sequential `Intersect` of plain tries only depends on which tries are listed: not on their order or multiplicity. -/
theorem C31_order_irrelevant {pad h : Nat} {Ts Ts' : List Nav} (hTs : ∀ T ∈ Ts, ∃ S, PlainTrie pad h S T)
    (hm : ∀ T, T ∈ Ts ↔ T ∈ Ts') (hne : Ts ≠ []) (hlen : Ts.length ≤ 16) (hlen' : Ts'.length ≤ 16) (env : Env) (hw : env.hw ≠ 0) :
    ∃ R, intersect Ts false false env = .ok R ∧ intersect Ts' false false env = .ok R := by
  obtain ⟨sets, sets', h1, h2, h3⟩ := exists_sets hTs hm
  have hne' : Ts' ≠ [] := by
    rintro rfl
    obtain ⟨T, hT⟩ := List.exists_mem_of_ne_nil _ hne
    simpa using (hm T).1 hT
  obtain ⟨R, hR, hi⟩ := C07_seq_intersect_plain h1 hne hlen env hw
  obtain ⟨R', hR', hi'⟩ := C07_seq_intersect_plain h2 hne' hlen' env hw
  rw [IsIntersection.unique (IsIntersection.congr h3 hi) hi'] at hR
  exact ⟨R', hR, hR'⟩

/-- C31, run-aware. -/
theorem C31_order_irrelevant_runs {pad h : Nat} {Ts Ts' : List Nav} (hTs : ∀ T ∈ Ts, ∃ S, RunsTrie pad h S T)
    (hm : ∀ T, T ∈ Ts ↔ T ∈ Ts') (hne : Ts ≠ []) (hlen : Ts.length ≤ 16) (hlen' : Ts'.length ≤ 16) (env : Env) (hw : env.hw ≠ 0) :
    ∃ R, intersect Ts true false env = .ok R ∧ intersect Ts' true false env = .ok R := by
  obtain ⟨sets, sets', h1, h2, h3⟩ := exists_sets hTs hm
  have hne' : Ts' ≠ [] := by
    rintro rfl
    obtain ⟨T, hT⟩ := List.exists_mem_of_ne_nil _ hne
    simpa using (hm T).1 hT
  obtain ⟨R, hR, hi⟩ := C08_seq_intersect_runs_partial h1 hne hlen env hw
  obtain ⟨R', hR', hi'⟩ := C08_seq_intersect_runs_partial h2 hne' hlen' env hw
  rw [IsIntersection.unique (IsIntersection.congr h3 hi) hi'] at hR
  exact ⟨R', hR, hR'⟩

/-- C31, fast tries; plain fast tries are `FastRuns` too. -/
theorem C31_fast_order_irrelevant {lg pad h : Nat} (hlg : 3 ≤ lg ∧ lg ≤ 6) {Ts Ts' : List FNav}
    (hTs : ∀ T ∈ Ts, ∃ S, FastRuns lg pad h S T) (hm : ∀ T, T ∈ Ts ↔ T ∈ Ts') (hne : Ts ≠ []) (hlen : Ts.length ≤ 16)
    (hlen' : Ts'.length ≤ 16) (env : Env) (hw : env.hw ≠ 0) :
    ∃ R, fastIntersect lg Ts true false env = .ok R ∧ fastIntersect lg Ts' true false env = .ok R := by
  obtain ⟨sets, sets', h1, h2, h3⟩ := exists_sets hTs hm
  have hne' : Ts' ≠ [] := by
    rintro rfl
    obtain ⟨T, hT⟩ := List.exists_mem_of_ne_nil _ hne
    simpa using (hm T).1 hT
  obtain ⟨R, hR, hi⟩ := C10_fast_seq_intersect_runs hlg h1 hne hlen env hw
  obtain ⟨R', hR', hi'⟩ := C10_fast_seq_intersect_runs hlg h2 hne' hlen' env hw
  rw [IsIntersection.unique (IsIntersection.congr h3 hi) hi'] at hR
  exact ⟨R', hR, hR'⟩

/-- C31, plain fast tries without the run-aware code. -/
theorem C31_fast_order_irrelevant_plain {lg pad h : Nat} (hlg : 3 ≤ lg ∧ lg ≤ 6) {Ts Ts' : List FNav}
    (hTs : ∀ T ∈ Ts, ∃ S, FastPlain lg pad h S T) (hm : ∀ T, T ∈ Ts ↔ T ∈ Ts') (hne : Ts ≠ []) (hlen : Ts.length ≤ 16)
    (hlen' : Ts'.length ≤ 16) (env : Env) (hw : env.hw ≠ 0) :
    ∃ R, fastIntersect lg Ts false false env = .ok R ∧ fastIntersect lg Ts' false false env = .ok R := by
  obtain ⟨sets, sets', h1, h2, h3⟩ := exists_sets hTs hm
  have hne' : Ts' ≠ [] := by
    rintro rfl
    obtain ⟨T, hT⟩ := List.exists_mem_of_ne_nil _ hne
    simpa using (hm T).1 hT
  obtain ⟨R, hR, hi⟩ := C09_fast_seq_intersect_plain hlg h1 hne hlen env hw
  obtain ⟨R', hR', hi'⟩ := C09_fast_seq_intersect_plain hlg h2 hne' hlen' env hw
  rw [IsIntersection.unique (IsIntersection.congr h3 hi) hi'] at hR
  exact ⟨R', hR, hR'⟩

theorem isIntersection_singleton {S : List Nat} (h : S.Pairwise (· < ·)) : IsIntersection [S] S :=
  ⟨h, fun x => by simp⟩

theorem PlainTrie.increasing {pad h : Nat} {S : List Nat} {n : Nav} (H : PlainTrie pad h S n) : S.Pairwise (· < ·) := by
  cases H with
  | flat hS => exact hS.increasing
  | level _ hS => exact hS.increasing

theorem RunsTrie.increasing {pad h : Nat} {S : List Nat} {n : Nav} (H : RunsTrie pad h S n) : S.Pairwise (· < ·) := by
  cases H with
  | plain H => exact H.increasing
  | flat hS => exact hS.increasing
  | level _ hS => exact hS.increasing

/-- C31, one trie: the result is its set. -/
theorem C31_single {pad h : Nat} {S : List Nat} {T : Nav} (hT : RunsTrie pad h S T) (env : Env) (hw : env.hw ≠ 0) :
    intersect [T] true false env = .ok S ∧ (PlainTrie pad h S T → intersect [T] false false env = .ok S) := by
  constructor
  · obtain ⟨R, hR, hi⟩ := C08_seq_intersect_runs_partial (.cons hT .nil) (by simp) (by simp) env hw
    rw [hR, IsIntersection.unique hi (isIntersection_singleton hT.increasing)]
  · intro hp
    obtain ⟨R, hR, hi⟩ := C07_seq_intersect_plain (.cons hp .nil) (by simp) (by simp) env hw
    rw [hR, IsIntersection.unique hi (isIntersection_singleton hT.increasing)]

example : intersect [Ex.level.nav true 0, Ex.flat.nav 0, Ex.level.nav true 0] false false ⟨8, [], []⟩ = .ok [1, 2, 3, 5, 14] ∧
    intersect [Ex.flat.nav 0] false false ⟨8, [], []⟩ = .ok Ex.sF ∧
    intersect [Ex.flatR.nav 0] true false ⟨8, [], []⟩ = .ok Ex.sF ∧
    fastIntersect 3 [Ex.fast2.nav 0, Ex.fast.nav 0] false false ⟨8, [], []⟩ = .ok [4, 17, 31] := by decide +kernel

end CBT
