import Verif.SpecFlags
import Verif.Proof.Flags
import Verif.Props.ExactRuns
import Verif.Props.Height1

/-!
# C74: the runs flag does not match the tries

`Intersect` cannot ask a trie whether it is run-encoded; the caller says so with `runs` (src/intersection.cpp:290-417,
src/fastTrieIntersection.cpp:328-459).
-/

namespace CBT

open Spec

theorem isInter_of_outside {j : Nat} {cs : List (Bool × List Nat)} {R : List Nat} (h : IsIntersection (cs.map (outside j)) R) :
    IsIntersection (cs.map Prod.snd) R ↔ ∀ x, (∀ c ∈ cs, x ∈ c.2) → ∀ c ∈ cs, Spec.collapsed c j (x / 2 ^ j) = false := by
  have hm : ∀ x, x ∈ R ↔ ∀ c ∈ cs, x ∈ c.2 ∧ Spec.collapsed c j (x / 2 ^ j) = false := by
    intro x
    rw [h.mem]
    simp only [List.mem_map, forall_exists_index, and_imp, forall_apply_eq_imp_iff₂, outside, List.mem_filter, Bool.not_eq_true']
  constructor
  · intro hI x hx c hc
    have : x ∈ R := (hI.mem x).2 (fun S hS => by
      obtain ⟨c, hc, rfl⟩ := List.mem_map.1 hS
      exact hx c hc)
    exact ((hm x).1 this c hc).2
  · intro hx
    refine ⟨h.increasing, fun x => ?_⟩
    rw [hm]
    constructor
    · intro h1 S hS
      obtain ⟨c, hc, rfl⟩ := List.mem_map.1 hS
      exact (h1 c hc).1
    · intro h1 c hc
      have h2 : ∀ c ∈ cs, x ∈ c.2 := fun c hc => h1 c.2 (List.mem_map.2 ⟨c, hc, rfl⟩)
      exact ⟨h2 c hc, hx x h2 c hc⟩

/-- C74. `runs = true` is right for plain tries, in sequential and parallel calls. -/
theorem C74_true_on_plain {pad h : Nat} {sets : List (List Nat)} {Ts : List Nav} (hTs : List.Forall₂ (PlainTrie pad h) sets Ts)
    (hne : Ts ≠ []) (hlen : Ts.length ≤ 16) (env : Env) (hw : env.hw ≠ 0) :
    ∃ R, intersect Ts true false env = .ok R ∧ IsIntersection sets R ∧
      (2 ≤ h → env.hw < 2 ^ 16 → intersect Ts true true env = .ok R) := by
  obtain ⟨R, h1, h2⟩ := C08_seq_intersect_runs_partial (hTs.imp fun _ _ h => .plain h) hne hlen env hw
  refine ⟨R, h1, h2, fun hh hw2 => ?_⟩
  obtain ⟨R', h3, h4, -⟩ := C12_parallel_runs_partial hh env env (hTs.imp fun _ _ h => Or.inl h) hne hlen hw hw2 hw
  rw [h1] at h4
  rw [h3, ← h4]

example : List.Forall₂ (PlainTrie 0 4) [Ex.sF, Ex.sL] [Ex.flat.nav 0, Ex.level.nav true 0] ∧
    intersect [Ex.flat.nav 0, Ex.level.nav true 0] true true ⟨4, [], []⟩ = .ok [1, 2, 3, 5, 14] :=
  ⟨.cons Ex.flat_plain (.cons Ex.level_plain .nil), by decide +kernel⟩

/-- C74. Likewise for fast tries. -/
theorem C74_fast_true_on_plain {lg pad h : Nat} (hlg : 3 ≤ lg ∧ lg ≤ 6) {sets : List (List Nat)} {Ts : List FNav}
    (hTs : List.Forall₂ (FastPlain lg pad h) sets Ts) (hne : Ts ≠ []) (hlen : Ts.length ≤ 16) (env : Env) (hw : env.hw ≠ 0) :
    ∃ R, fastIntersect lg Ts true false env = .ok R ∧ IsIntersection sets R ∧
      (2 ≤ h → env.hw < 2 ^ 16 → fastIntersect lg Ts true true env = .ok R) := by
  obtain ⟨R, h1, h2⟩ := C10_fast_seq_intersect_runs hlg (hTs.imp fun _ _ h => .plain h) hne hlen env hw
  refine ⟨R, h1, h2, fun hh hw2 => ?_⟩
  obtain ⟨R', h3, h4, -⟩ := C13_fast_parallel_runs_partial hlg hh env env (hTs.imp fun _ _ h => Or.inl h) hne hlen hw hw2 hw
  rw [h1] at h4
  rw [h3, ← h4]

example : List.Forall₂ (FastPlain 3 0 3) [Ex.sV, Ex.sW] [Ex.fast.nav 0, Ex.fast2.nav 0] ∧
    fastIntersect 3 [Ex.fast.nav 0, Ex.fast2.nav 0] true false ⟨8, [], []⟩ = .ok [4, 17, 31] :=
  ⟨.cons Ex.fast_plain (.cons Ex.fast2_plain .nil), by decide +kernel⟩

/-- C74, exactly. `runs = false` for tries of which some are run-encoded: the elements in a full block of four of a run-encoded set are
left out, and nothing else; sequential and parallel calls agree. -/
theorem C74_false_on_runs_partial {pad h : Nat} {cs : List (Bool × List Nat)} {Ts : List Nav}
    (hTs : List.Forall₂ (CodedTrie pad h) cs Ts) (hne : Ts ≠ []) (hlen : Ts.length ≤ 16) (env : Env) (hw : env.hw ≠ 0) :
    ∃ R, intersect Ts false false env = .ok R ∧ IsIntersection (cs.map (outside 2)) R ∧
      (2 ≤ h → env.hw < 2 ^ 16 → intersect Ts false true env = .ok R) := by
  obtain ⟨ts, h1, h2⟩ := forall2_trees (Q := fun n t => Rep n (leafF n) (h - 1) 0 t 0) (Q' := CTree 1 (h - 1)) hTs fun _ _ H => H.tree
  have hd : h - 1 ≤ 62 := by
    cases hTs with
    | nil => exact (hne rfl).elim
    | cons h _ => exact h.runs.holds.depth
  have hh := forall2_imp_right hTs fun _ _ h => h.runs.holds.height
  have hS : List.Forall₂ (fun S t => Holds (h - 1 + 1) (has 1 (h - 1) t) S) (cs.map (outside 2)) ts := by
    rw [List.forall₂_map_left_iff]
    exact h2.imp fun _ _ H => H.outside
  have hb : ∀ S ∈ cs.map (outside 2), ∀ x ∈ S, x < 2 ^ (h - 1 + 1) := by
    intro S hS x hx
    obtain ⟨c, hc, rfl⟩ := List.mem_map.1 hS
    exact forall2_imp_left h2 (fun _ _ H => H.1) c hc x (List.mem_filter.1 hx).1
  have hcs : cs.map (outside 2) ≠ [] := by
    rw [ne_eq, List.map_eq_nil_iff]
    rintro rfl
    cases hTs
    exact hne rfl
  have hI := isIntersection_enum hcs hb hS
  refine ⟨_, ?_, hI, fun h2' hw2 => ?_⟩
  · rw [intersect_unfold hne hh]
    have := seq_plain id leafF (height := h - 1 + 1) (flat_leafOK Ts (h - 1 + 1)) h1 hlen (by rfl) (by rfl)
      (show h - 1 + 1 ≤ 64 by omega) hw
    rw [List.map_id] at this
    exact this
  · obtain ⟨R, hR, _, _, hI'⟩ := par_inter (runs := false) (nav := id) hne (flat_leafOK Ts (h - 1 + 1)) (flat_leafOKR Ts (h - 1 + 1)) h1
      hlen (by rfl) (by rfl) (show h - 1 + 1 < 64 by omega) hw hw2 (by omega) (by omega) (g := False) (fun h => h.elim) hb hS
    rw [List.map_id] at hR
    rw [intersect_unfold hne hh, hR, IsIntersection.unique (hI' (by simp)) hI]

example : List.Forall₂ (CodedTrie 0 4) [(true, Ex.sR), (false, Ex.sL)] [Ex.levelR.nav false 0, Ex.level.nav true 0] ∧
    [(true, Ex.sR), (false, Ex.sL)].map (outside 2) = [[14], Ex.sL] ∧
    intersect [Ex.levelR.nav false 0, Ex.level.nav true 0] false false ⟨4, [], []⟩ = .ok [14] :=
  ⟨.cons (.level (u := 16) (t := Ex.level2) false (by decide +kernel) (by decide +kernel) (by decide) (by decide) (by decide +kernel)
    (by decide +kernel) rfl) (.cons (.plain Ex.level_plain) .nil), by decide +kernel, by decide +kernel⟩

/-- C74, exactly, for fast tries: blocks of two words. -/
theorem C74_fast_false_on_runs_partial {lg pad h : Nat} (hlg : 3 ≤ lg ∧ lg ≤ 6) {cs : List (Bool × List Nat)} {Ts : List FNav}
    (hTs : List.Forall₂ (FastCoded lg pad h) cs Ts) (hne : Ts ≠ []) (hlen : Ts.length ≤ 16) (env : Env) (hw : env.hw ≠ 0) :
    ∃ R, fastIntersect lg Ts false false env = .ok R ∧ IsIntersection (cs.map (outside (lg + 1))) R ∧
      (2 ≤ h → env.hw < 2 ^ 16 → fastIntersect lg Ts false true env = .ok R) := by
  obtain ⟨ts, h1, h2⟩ := forall2_trees (Q := fun n t => Rep n.toNav (leafW lg n) (h - 1) 0 t 0) (Q' := CTree lg (h - 1)) hTs
    fun _ _ H => H.tree hlg
  have hd : h - 1 + lg ≤ 62 := by
    cases hTs with
    | nil => exact (hne rfl).elim
    | cons h _ => exact (h.toRuns.holds hlg).depth
  have hh := forall2_imp_right hTs fun _ _ h => (h.toRuns.holds hlg).height
  have hS : List.Forall₂ (fun S t => Holds (h - 1 + lg) (has lg (h - 1) t) S) (cs.map (outside (lg + 1))) ts := by
    rw [List.forall₂_map_left_iff]
    exact h2.imp fun _ _ H => H.outside
  have hb : ∀ S ∈ cs.map (outside (lg + 1)), ∀ x ∈ S, x < 2 ^ (h - 1 + lg) := by
    intro S hS x hx
    obtain ⟨c, hc, rfl⟩ := List.mem_map.1 hS
    exact forall2_imp_left h2 (fun _ _ H => H.1) c hc x (List.mem_filter.1 hx).1
  have hcs : cs.map (outside (lg + 1)) ≠ [] := by
    rw [ne_eq, List.map_eq_nil_iff]
    rintro rfl
    cases hTs
    exact hne rfl
  have hI := isIntersection_enum hcs hb hS
  refine ⟨_, ?_, hI, fun h2' hw2 => ?_⟩
  · rw [fastIntersect_unfold hne hh]
    exact seq_plain FNav.toNav (leafW lg) (height := h - 1 + 1) (fast_leafOK hlg.2 Ts (h - 1 + 1)) h1 hlen (by rfl)
      (by simp only [fastCfg]; omega) (by simp only [fastCfg]; omega) hw
  · obtain ⟨R, hR, _, _, hI'⟩ := par_inter (runs := false) (nav := FNav.toNav) hne (fast_leafOK hlg.2 Ts (h - 1 + 1))
      (fast_leafOKR hlg.2 Ts (h - 1 + 1)) h1 hlen (by rfl) (by simp only [fastCfg]; omega) (by simp only [fastCfg]; omega) hw hw2
      (by omega) (by omega) (g := False) (fun h => h.elim) hb hS
    rw [fastIntersect_unfold hne hh, hR, IsIntersection.unique (hI' (by simp)) hI]

example : FastRuns 3 0 3 Ex.sW (Ex.fastR.nav 0) ∧ fastIntersect 3 [Ex.fastR.nav 0] true false ⟨4, [], []⟩ = .ok Ex.sW ∧
    fastIntersect 3 [Ex.fastR.nav 0] false false ⟨4, [], []⟩ = .ok (outside 4 (true, Ex.sW)) ∧ outside 4 (true, Ex.sW) ≠ Ex.sW :=
  ⟨Ex.fast_runs, by decide +kernel, by decide +kernel, by decide +kernel⟩

/-- C74. Hence `runs = false` gives the intersection iff no common element is in a full block of four of a run-encoded set. -/
theorem C74_false_on_runs_iff {pad h : Nat} {cs : List (Bool × List Nat)} {Ts : List Nav}
    (hTs : List.Forall₂ (CodedTrie pad h) cs Ts) (hne : Ts ≠ []) (hlen : Ts.length ≤ 16) (env : Env) (hw : env.hw ≠ 0) :
    (∃ R, intersect Ts false false env = .ok R ∧ IsIntersection (cs.map Prod.snd) R) ↔
      ∀ x, (∀ c ∈ cs, x ∈ c.2) → ∀ c ∈ cs, c.1 = true → ∃ y, y / 4 = x / 4 ∧ y ∉ c.2 := by
  obtain ⟨R, h1, h2, -⟩ := C74_false_on_runs_partial hTs hne hlen env hw
  have key : ∀ (c : Bool × List Nat) x, Spec.collapsed c 2 (x / 2 ^ 2) = false ↔ (c.1 = true → ∃ y, y / 4 = x / 4 ∧ y ∉ c.2) := by
    intro c x
    rw [← Bool.not_eq_true, Spec.collapsed, Bool.and_eq_true, not_and]
    refine imp_congr_right fun _ => ?_
    rw [List.all_eq_true]
    push Not
    constructor
    · rintro ⟨i, hi, h⟩
      rw [List.mem_range] at hi
      exact ⟨x / 2 ^ 2 * 2 ^ 2 + i, by omega, by simpa using h⟩
    · rintro ⟨y, hy, h⟩
      refine ⟨y % 4, List.mem_range.2 (by omega), ?_⟩
      rw [show x / 2 ^ 2 * 2 ^ 2 + y % 4 = y by omega]
      simpa using h
  rw [h1]
  constructor
  · rintro ⟨R', h3, h4⟩ x hx c hc
    obtain rfl := Except.ok.inj h3
    exact (key c x).1 ((isInter_of_outside h2).1 h4 x hx c hc)
  · intro h
    exact ⟨R, rfl, (isInter_of_outside h2).2 fun x hx c hc => (key c x).2 (h x hx c hc)⟩

/-- C74 is false of the code: `runs = false` finds nothing in common between the run-encoded trie of `{0, …, 7, 14}` and
itself but 14. -/
theorem C74_negation (env : Env) (hw : env.hw ≠ 0) :
    (∃ u t, levelCtor Ex.sR u = .ok t ∧ t.encodeRuns false 0 = .ok Ex.levelR) ∧
    intersect [Ex.levelR.nav false 0, Ex.levelR.nav false 0] true false env = .ok Ex.sR ∧
    intersect [Ex.levelR.nav false 0, Ex.levelR.nav false 0] false false env = .ok [14] := by
  have hc : CodedTrie 0 4 (true, Ex.sR) (Ex.levelR.nav false 0) :=
    .level (u := 16) (t := Ex.level2) false (by decide +kernel) (by decide +kernel) (by decide) (by decide) (by decide +kernel)
      (by decide +kernel) rfl
  refine ⟨⟨16, Ex.level2, by decide +kernel, by decide +kernel⟩, ?_, ?_⟩
  · obtain ⟨R, h1, h2⟩ := C08_seq_intersect_runs_partial (.cons Ex.level_runs (.cons Ex.level_runs .nil)) (by simp) (by simp) env hw
    rw [h1, IsIntersection.unique h2 (R' := Ex.sR) ⟨by decide +kernel, by simp⟩]
  · obtain ⟨R, h1, h2, -⟩ := C74_false_on_runs_partial (.cons hc (.cons hc .nil)) (by simp) (by simp) env hw
    have e : [(true, Ex.sR), (true, Ex.sR)].map (outside 2) = [[14], [14]] := by decide +kernel
    rw [e] at h2
    rw [h1, IsIntersection.unique h2 (R' := [14]) ⟨by simp, by simp⟩]

end CBT
