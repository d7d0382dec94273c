import Verif.Proof.AnyRuns
import Verif.Props.Adaptive
import Verif.Props.AnyInter

/-!
# C78: run-aware parallel calls do a part of what sequential calls do

The tries may be in any state. The parallel call may drop elements (C12) and it may return them in another order (C13), but it never goes
where the sequential call does not go.
-/

namespace CBT

open Spec

/-- C78. Whatever the tries answer: if the sequential call with `runs = true` returns `L`, then so does the parallel call return a list, in
any interleaving; its elements are elements of `L`, none more often than in `L`; and it reads no more nodes, and moves no more often. -/
theorem C78_runs_parallel_any {Ts : List Nav} (hh : ∀ n ∈ Ts, 2 ≤ n.height ∧ n.height < 2 ^ 63) (env : Env) (hw : env.hw ≠ 0)
    (hw2 : env.hw < 2 ^ 16) {L : List Nat} {κ : Cost} (h : costIntersect Ts true false env = .ok (L, κ)) :
    ∃ L' κ', costIntersect Ts true true env = .ok (L', κ') ∧ L'.Subperm L ∧
      κ'.nodes ≤ κ.nodes ∧ κ'.moves ≤ κ.moves ∧ κ'.words ≤ κ.words := by
  cases Ts with
  | nil => cases h
  | cons T Ts =>
    obtain ⟨h2, h63⟩ := hh T (by simp)
    rw [costIntersect] at h ⊢
    split at h
    · rename_i hc
      cases h
      rw [if_pos hc]
      exact ⟨[], .zero, rfl, List.Subperm.refl _, Nat.le_refl _, Nat.le_refl _, Nat.le_refl _⟩
    · rename_i hc
      rw [if_neg hc]
      exact costBody_runs_le (flat_runsBaseC _ _) hw hw2 h2 h63 (.inl ⟨rfl, rfl⟩) h

/-- Fewer elements and less work. -/
example : costIntersect [Ex.levelA.nav false 0, Ex.levelB.nav false 0] true false ⟨4, [], []⟩ =
      .ok ([0, 1, 2, 3, 5, 8, 14], ⟨16, 9, 0⟩) ∧
    costIntersect [Ex.levelA.nav false 0, Ex.levelB.nav false 0] true true ⟨4, [], []⟩ = .ok ([14], ⟨12, 6, 0⟩) := by
  decide +kernel

/-- A trie with a node `00` that no constructor makes. -/
example : costIntersect [Ex.levelBare.nav false 0, Ex.levelBare.nav false 0] true false ⟨2, [], []⟩ = .ok ([0, 1, 2, 5, 6, 7], ⟨14, 6, 0⟩) ∧
    costIntersect [Ex.levelBare.nav false 0, Ex.levelBare.nav false 0] true true ⟨2, [1, 0, 1], [1]⟩ =
      .ok ([0, 1, 2, 5, 6, 7], ⟨14, 6, 0⟩) := by
  decide +kernel

/-- C78, for fast tries, whose words are counted. -/
theorem C78_fast_runs_parallel_any (lg : Nat) {Ts : List FNav} (hh : ∀ n ∈ Ts, 2 ≤ n.height ∧ n.height < 2 ^ 63) (env : Env)
    (hw : env.hw ≠ 0) (hw2 : env.hw < 2 ^ 16) {L : List Nat} {κ : Cost} (h : costFastIntersect lg Ts true false env = .ok (L, κ)) :
    ∃ L' κ', costFastIntersect lg Ts true true env = .ok (L', κ') ∧ L'.Subperm L ∧
      κ'.nodes ≤ κ.nodes ∧ κ'.moves ≤ κ.moves ∧ κ'.words ≤ κ.words := by
  cases Ts with
  | nil => cases h
  | cons T Ts =>
    obtain ⟨h2, h63⟩ := hh T (by simp)
    rw [costFastIntersect] at h ⊢
    split at h
    · rename_i hc
      cases h
      rw [if_pos hc]
      exact ⟨[], .zero, rfl, List.Subperm.refl _, Nat.le_refl _, Nat.le_refl _, Nat.le_refl _⟩
    · rename_i hc
      rw [if_neg hc]
      rw [if_neg (by omega)] at h ⊢
      exact costBody_runs_le (fast_runsBaseC _ _ _) hw hw2 h2 h63 (.inr ⟨by show T.height - 1 + 1 = _; omega, rfl⟩) h

namespace Ex

/-- A trie of the set with a run in its first sixteen numbers, not run-encoded. -/
def fastOpen : FastTrie := ⟨4, 3, 6, false, false, [true, false, true, true, true, false, true, true], [5, 2, 128]⟩

/-- The right half is a run. -/
def levelRight : LevelTrie := ⟨4, false, false, [[true, true], [true, false, false, false], [true, false], [true, false]]⟩

/-- The right half lacks its levels 2 and 3. -/
def levelCut : LevelTrie := ⟨4, false, false, [[true, true], [true, false, true, true], [true, false], [true, false]]⟩

end Ex

example : costFastIntersect 3 [Ex.fastD.nav 0, Ex.fastOpen.nav 0] true false ⟨4, [], []⟩ = .ok ([0, 2, 17, 31], ⟨8, 7, 5⟩) ∧
    costFastIntersect 3 [Ex.fastD.nav 0, Ex.fastOpen.nav 0] true true ⟨4, [], []⟩ = .ok ([17, 31], ⟨8, 6, 4⟩) := by
  decide +kernel

/-- C78 without the counters. -/
theorem C78_runs_parallel {Ts : List Nav} (hh : ∀ n ∈ Ts, 2 ≤ n.height ∧ n.height < 2 ^ 63) (env : Env) (hw : env.hw ≠ 0)
    (hw2 : env.hw < 2 ^ 16) {L : List Nat} (h : intersect Ts true false env = .ok L) :
    ∃ L', intersect Ts true true env = .ok L' ∧ L'.Subperm L := by
  rw [← costIntersect_map] at h
  obtain ⟨κ, h⟩ := map_fst_ok h
  obtain ⟨L', κ', h1, h2, -⟩ := C78_runs_parallel_any hh env hw hw2 h
  exact ⟨L', by rw [← costIntersect_map, h1]; rfl, h2⟩

theorem C78_fast_runs_parallel (lg : Nat) {Ts : List FNav} (hh : ∀ n ∈ Ts, 2 ≤ n.height ∧ n.height < 2 ^ 63) (env : Env)
    (hw : env.hw ≠ 0) (hw2 : env.hw < 2 ^ 16) {L : List Nat} (h : fastIntersect lg Ts true false env = .ok L) :
    ∃ L', fastIntersect lg Ts true true env = .ok L' ∧ L'.Subperm L := by
  rw [← costFastIntersect_map] at h
  obtain ⟨κ, h⟩ := map_fst_ok h
  obtain ⟨L', κ', h1, h2, -⟩ := C78_fast_runs_parallel_any lg hh env hw hw2 h
  exact ⟨L', by rw [← costFastIntersect_map, h1]; rfl, h2⟩

/-- The converse is false: the parallel call may return when the sequential call reads outside an array, in a part that the parallel call
drops. -/
theorem C78_converse_false : ∃ (Ts : List Nav) (env : Env), (∀ n ∈ Ts, SomeTrie n ∧ 2 ≤ n.height ∧ n.height ≤ 64) ∧ env.hw ≠ 0 ∧
    env.hw < 2 ^ 16 ∧ intersect Ts true false env = .error .oob ∧ intersect Ts true true env = .ok [0] := by
  refine ⟨[Ex.levelRight.nav false 0, Ex.levelCut.nav false 0], ⟨4, [], []⟩, ?_, by decide, by decide, by decide +kernel, by decide +kernel⟩
  intro n hn
  rcases (by simpa using hn : n = Ex.levelRight.nav false 0 ∨ n = Ex.levelCut.nav false 0) with rfl | rfl
  · exact ⟨.level _ _ _, by decide +kernel⟩
  · exact ⟨.level _ _ _, by decide +kernel⟩

/-! ## C58 and C63 for run-aware parallel calls -/

theorem coded_heights {pad h : Nat} {cs : List (Bool × List Nat)} {Ts : List Nav} (hTs : List.Forall₂ (CodedTrie pad h) cs Ts) (h2 : 2 ≤ h) :
    ∀ n ∈ Ts, 2 ≤ n.height ∧ n.height < 2 ^ 63 := by
  induction hTs with
  | nil => simp
  | cons H _ ih =>
    intro n hn
    rcases List.mem_cons.1 hn with rfl | hn
    · have h1 := H.runs.holds.height
      have h3 := H.runs.holds.depth
      omega
    · exact ih n hn

theorem fast_coded_heights {lg pad h : Nat} (hlg : 3 ≤ lg ∧ lg ≤ 6) {cs : List (Bool × List Nat)} {Ts : List FNav}
    (hTs : List.Forall₂ (FastCoded lg pad h) cs Ts) (h2 : 2 ≤ h) : ∀ n ∈ Ts, 2 ≤ n.height ∧ n.height < 2 ^ 63 := by
  induction hTs with
  | nil => simp
  | cons H _ ih =>
    intro n hn
    rcases List.mem_cons.1 hn with rfl | hn
    · have h1 := (H.toRuns.holds hlg).height
      have h3 := (H.toRuns.holds hlg).depth
      omega
    · exact ih n hn

/-- C58, run-aware parallel calls: at most what sequential calls read, which is exactly the bound. -/
theorem C58_runs_parallel_reads {pad h : Nat} {cs : List (Bool × List Nat)} {Ts : List Nav} (hTs : List.Forall₂ (CodedTrie pad h) cs Ts)
    (hne : Ts ≠ []) (hlen : Ts.length ≤ 16) (h2 : 2 ≤ h) (env : Env) (hw : env.hw ≠ 0) (hw2 : env.hw < 2 ^ 16) :
    ∃ R R' κ, costIntersect Ts true true env = .ok (R', κ) ∧ IsIntersection (cs.map Prod.snd) R ∧ R'.Subperm R ∧
      κ.nodes ≤ openAbove cs h 0 ∧ κ.moves ≤ openForksAbove cs h 1 ∧ κ.words = 0 := by
  obtain ⟨R, h1, h3⟩ := C58_runs_reads hTs hne hlen env hw
  obtain ⟨R', κ, h4, h5, h6, h7, h8⟩ := C78_runs_parallel_any (coded_heights hTs h2) env hw hw2 h1
  exact ⟨R, R', κ, h4, h3, h5, h6, h7, Nat.le_zero.1 h8⟩

/-- The bound is reached on two threads and not on four. -/
example : List.Forall₂ (CodedTrie 0 4) [(true, Ex.sA), (true, Ex.sB)] [Ex.levelA.nav false 0, Ex.levelB.nav false 0] ∧
    costIntersect [Ex.levelA.nav false 0, Ex.levelB.nav false 0] true true ⟨2, [], []⟩ = .ok ([0, 1, 2, 3, 5, 8, 14], ⟨16, 9, 0⟩) ∧
    openAbove [(true, Ex.sA), (true, Ex.sB)] 4 0 = 16 ∧ openForksAbove [(true, Ex.sA), (true, Ex.sB)] 4 1 = 9 :=
  ⟨.cons Ex.levelA_coded (.cons Ex.levelB_coded .nil), by decide +kernel⟩

theorem C58_fast_runs_parallel_reads {lg pad h : Nat} (hlg : 3 ≤ lg ∧ lg ≤ 6) {cs : List (Bool × List Nat)} {Ts : List FNav}
    (hTs : List.Forall₂ (FastCoded lg pad h) cs Ts) (hne : Ts ≠ []) (hlen : Ts.length ≤ 16) (h2 : 2 ≤ h) (env : Env) (hw : env.hw ≠ 0)
    (hw2 : env.hw < 2 ^ 16) :
    ∃ R R' κ, costFastIntersect lg Ts true true env = .ok (R', κ) ∧ IsIntersection (cs.map Prod.snd) R ∧ R'.Subperm R ∧
      κ.nodes ≤ openAbove cs (h - 1 + lg) lg ∧ κ.moves ≤ openForksAbove cs (h - 1 + lg) lg ∧ κ.words ≤ openAt cs (h - 1 + lg) lg := by
  obtain ⟨R, h1, h3⟩ := C58_fast_runs_reads hlg hTs hne hlen env hw
  obtain ⟨R', κ, h4, h5, h6, h7, h8⟩ := C78_fast_runs_parallel_any lg (fast_coded_heights hlg hTs h2) env hw hw2 h1
  exact ⟨R, R', κ, h4, h3, h5, h6, h7, h8⟩

example : List.Forall₂ (FastCoded 3 0 4) [(true, Ex.sW), (true, Ex.sW)] [Ex.fastD.nav 0, Ex.fastD.nav 0] ∧
    costFastIntersect 3 [Ex.fastD.nav 0, Ex.fastD.nav 0] true true ⟨2, [], []⟩ =
      .ok (Ex.sW, ⟨openAbove [(true, Ex.sW), (true, Ex.sW)] 6 3, openForksAbove [(true, Ex.sW), (true, Ex.sW)] 6 3,
        openAt [(true, Ex.sW), (true, Ex.sW)] 6 3⟩) :=
  ⟨.cons Ex.fastD_coded (.cons Ex.fastD_coded .nil), by decide +kernel⟩

/-- C63, run-aware parallel calls on run-encoded tries. -/
theorem C63_runs_parallel_adaptive {pad h : Nat} {cs : List (Bool × List Nat)} {Ts : List Nav} (hTs : List.Forall₂ (CodedTrie pad h) cs Ts)
    (hr : ∀ c ∈ cs, c.1 = true) (hne : Ts ≠ []) (hlen : Ts.length ≤ 16) (h2 : 2 ≤ h) (env : Env) (hw : env.hw ≠ 0)
    (hw2 : env.hw < 2 ^ 16) :
    ∃ R κ, costIntersect Ts true true env = .ok (R, κ) ∧
      ∀ I, RunCertificate (cs.map Prod.snd) (2 ^ h) I →
        κ.nodes ≤ Ts.length * treePart (2 * I.length) h ∧ κ.moves ≤ Ts.length * treePart (2 * I.length) (h - 1) ∧ κ.words = 0 := by
  obtain ⟨L, κ0, h1, -, h4⟩ := C63_runs_adaptive hTs hr hne hlen env hw
  obtain ⟨R', κ, h5, -, h6, h7, h8⟩ := C78_runs_parallel_any (coded_heights hTs h2) env hw hw2 h1
  refine ⟨R', κ, h5, fun I hI => ?_⟩
  obtain ⟨g1, g2, g3⟩ := h4 I hI
  exact ⟨Nat.le_trans h6 g1, Nat.le_trans h7 g2, by omega⟩

theorem C63_fast_runs_parallel_adaptive {lg pad h : Nat} (hlg : 3 ≤ lg ∧ lg ≤ 6) {cs : List (Bool × List Nat)} {Ts : List FNav}
    (hTs : List.Forall₂ (FastCoded lg pad h) cs Ts) (hr : ∀ c ∈ cs, c.1 = true) (hne : Ts ≠ []) (hlen : Ts.length ≤ 16) (h2 : 2 ≤ h)
    (env : Env) (hw : env.hw ≠ 0) (hw2 : env.hw < 2 ^ 16) :
    ∃ R κ, costFastIntersect lg Ts true true env = .ok (R, κ) ∧
      ∀ I, RunCertificate (cs.map Prod.snd) (2 ^ (h - 1 + lg)) I →
        κ.nodes ≤ Ts.length * treePart (2 * I.length) (h - 1) ∧ κ.moves ≤ Ts.length * treePart (2 * I.length) (h - 1) ∧
        κ.words ≤ Ts.length * (2 * I.length) := by
  obtain ⟨L, κ0, h1, -, h4⟩ := C63_fast_runs_adaptive hlg hTs hr hne hlen env hw
  obtain ⟨R', κ, h5, -, h6, h7, h8⟩ := C78_fast_runs_parallel_any lg (fast_coded_heights hlg hTs h2) env hw hw2 h1
  refine ⟨R', κ, h5, fun I hI => ?_⟩
  obtain ⟨g1, g2, g3⟩ := h4 I hI
  exact ⟨Nat.le_trans h6 g1, Nat.le_trans h7 g2, Nat.le_trans h8 g3⟩

/-- C63, run-aware parallel calls on tries of which any are run-encoded. -/
theorem C63_mixed_parallel_adaptive {pad h : Nat} {cs : List (Bool × List Nat)} {Ts : List Nav} (hTs : List.Forall₂ (CodedTrie pad h) cs Ts)
    (hne : Ts ≠ []) (hlen : Ts.length ≤ 16) (h2 : 2 ≤ h) (env : Env) (hw : env.hw ≠ 0) (hw2 : env.hw < 2 ^ 16) :
    ∃ R κ, costIntersect Ts true true env = .ok (R, κ) ∧
      ∀ I, Certificate (cs.map Prod.snd) (2 ^ h) I →
        κ.nodes ≤ Ts.length * treePart I.length h ∧ κ.moves ≤ Ts.length * treePart I.length (h - 1) ∧ κ.words = 0 := by
  obtain ⟨L, κ0, h1, -, h4⟩ := C63_mixed_adaptive hTs hne hlen env hw
  obtain ⟨R', κ, h5, -, h6, h7, h8⟩ := C78_runs_parallel_any (coded_heights hTs h2) env hw hw2 h1
  refine ⟨R', κ, h5, fun I hI => ?_⟩
  obtain ⟨g1, g2, g3⟩ := h4 I hI
  exact ⟨Nat.le_trans h6 g1, Nat.le_trans h7 g2, by omega⟩

theorem C63_fast_mixed_parallel_adaptive {lg pad h : Nat} (hlg : 3 ≤ lg ∧ lg ≤ 6) {cs : List (Bool × List Nat)} {Ts : List FNav}
    (hTs : List.Forall₂ (FastCoded lg pad h) cs Ts) (hne : Ts ≠ []) (hlen : Ts.length ≤ 16) (h2 : 2 ≤ h) (env : Env) (hw : env.hw ≠ 0)
    (hw2 : env.hw < 2 ^ 16) :
    ∃ R κ, costFastIntersect lg Ts true true env = .ok (R, κ) ∧
      ∀ I, Certificate (cs.map Prod.snd) (2 ^ (h - 1 + lg)) I →
        κ.nodes ≤ Ts.length * treePart I.length (h - 1) ∧ κ.moves ≤ Ts.length * treePart I.length (h - 1) ∧
        κ.words ≤ Ts.length * I.length := by
  obtain ⟨L, κ0, h1, -, h4⟩ := C63_fast_mixed_adaptive hlg hTs hne hlen env hw
  obtain ⟨R', κ, h5, -, h6, h7, h8⟩ := C78_fast_runs_parallel_any lg (fast_coded_heights hlg hTs h2) env hw hw2 h1
  refine ⟨R', κ, h5, fun I hI => ?_⟩
  obtain ⟨g1, g2, g3⟩ := h4 I hI
  exact ⟨Nat.le_trans h6 g1, Nat.le_trans h7 g2, Nat.le_trans h8 g3⟩

end CBT
