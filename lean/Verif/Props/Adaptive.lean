import Verif.Proof.Adaptive
import Verif.Props.Cost

/-!
# C63: `Intersect` is adaptive

A partition certificate is what any algorithm has to find out at least. The number of nodes read is bounded by the number of
intervals of any certificate, however large the sets are.
-/

namespace CBT

open Spec

/-- C63, plain tries, sequentially or in parallel: with `δ` intervals in some partition certificate, at most `δ (h - log₂ δ + 1)` nodes
of each trie are read, where the universe is `2^h`. -/
theorem C63_adaptive {pad h : Nat} {sets : List (List Nat)} {Ts : List Nav} (hTs : List.Forall₂ (PlainTrie pad h) sets Ts) (hne : Ts ≠ [])
    (hlen : Ts.length ≤ 16) (env : Env) (hw : env.hw ≠ 0) (parallel : Bool) (hp : parallel = true → 2 ≤ h ∧ env.hw < 2 ^ 16) :
    ∃ R κ, costIntersect Ts false parallel env = .ok (R, κ) ∧ IsIntersection sets R ∧
      ∀ I, Certificate sets (2 ^ h) I →
        κ.nodes ≤ Ts.length * treePart I.length h ∧ κ.moves ≤ Ts.length * treePart I.length (h - 1) ∧ κ.words = 0 := by
  obtain ⟨R, h1, h2⟩ := C58_plain_reads hTs hne hlen env hw parallel hp
  rw [← hTs.length_eq]
  exact ⟨R, _, h1, h2, fun I hI => ⟨Nat.mul_le_mul_left _ (commonAbove_certificate hI 0),
    Nat.mul_le_mul_left _ (forksAbove_certificate hI 1), rfl⟩⟩

/-- A certificate with 10 intervals for the sets of the example of C58; 20 nodes are read. -/
example : List.Forall₂ (PlainTrie 0 4) [Ex.sF, Ex.sL] [Ex.flat.nav 0, Ex.level.nav true 0] ∧ Certificate [Ex.sF, Ex.sL] (2 ^ 4)
      [(0, 1), (1, 2), (2, 3), (3, 4), (4, 5), (5, 6), (6, 8), (8, 14), (14, 15), (15, 16)] ∧ treePart 10 4 = 20 := by
  refine ⟨.cons Ex.flat_plain (.cons Ex.level_plain .nil), ⟨by simp [Tiles], ?_⟩, by decide +kernel⟩
  simp only [Avoided]
  decide +kernel

/-- Two sets of eight elements each that two intervals tell apart: one node of each trie is read. -/
example : ∃ t t', levelCtor [0, 1, 2, 3, 4, 5, 6, 7] 16 = .ok t ∧ levelCtor [8, 9, 10, 11, 12, 13, 14, 15] 16 = .ok t' ∧
    costIntersect [t.nav true 0, t'.nav true 0] false false ⟨8, [], []⟩ = .ok ([], ⟨2, 0, 0⟩) ∧
    Certificate [[0, 1, 2, 3, 4, 5, 6, 7], [8, 9, 10, 11, 12, 13, 14, 15]] (2 ^ 4) [(0, 8), (8, 16)] := by
  refine ⟨⟨0, false, false, [[true, false], [true, true], [true, true, true, true], [true, true, true, true, true, true, true, true]]⟩,
    ⟨0, false, false, [[false, true], [true, true], [true, true, true, true], [true, true, true, true, true, true, true, true]]⟩,
    by decide +kernel, by decide +kernel, by decide +kernel, by simp [Tiles], ?_⟩
  simp only [Avoided]
  decide +kernel

/-- The same for plain fast tries with words of `2^lg` bits; at most `δ` words of each are read. -/
theorem C63_fast_adaptive {lg pad h : Nat} (hlg : 3 ≤ lg ∧ lg ≤ 6) {sets : List (List Nat)} {Ts : List FNav}
    (hTs : List.Forall₂ (FastPlain lg pad h) sets Ts) (hne : Ts ≠ []) (hlen : Ts.length ≤ 16) (env : Env) (hw : env.hw ≠ 0)
    (parallel : Bool) (hp : parallel = true → 2 ≤ h ∧ env.hw < 2 ^ 16) :
    ∃ R κ, costFastIntersect lg Ts false parallel env = .ok (R, κ) ∧ IsIntersection sets R ∧
      ∀ I, Certificate sets (2 ^ (h - 1 + lg)) I →
        κ.nodes ≤ Ts.length * treePart I.length (h - 1) ∧ κ.moves ≤ Ts.length * treePart I.length (h - 1) ∧
        κ.words ≤ Ts.length * I.length := by
  obtain ⟨R, h1, h2⟩ := C58_fast_plain_reads hlg hTs hne hlen env hw parallel hp
  rw [← hTs.length_eq]
  refine ⟨R, _, h1, h2, fun I hI => ?_⟩
  have h3 := commonAbove_certificate hI lg
  have h4 := forksAbove_certificate hI lg
  rw [Nat.add_sub_cancel] at h3 h4
  exact ⟨Nat.mul_le_mul_left _ h3, Nat.mul_le_mul_left _ h4,
    Nat.mul_le_mul_left _ (Nat.le_of_lt (commonCount_lt_certificate hI (by omega) (by omega)))⟩

/-- The sets of the example of C58, with six intervals; three words of each trie are read. -/
example : List.Forall₂ (FastPlain 3 0 3) [Ex.sV, Ex.sW] [Ex.fast.nav 0, Ex.fast2.nav 0] ∧
    Certificate [Ex.sV, Ex.sW] (2 ^ 5) [(0, 4), (4, 5), (5, 17), (17, 18), (18, 31), (31, 32)] := by
  refine ⟨.cons Ex.fast_plain (.cons Ex.fast2_plain .nil), by simp [Tiles], ?_⟩
  simp only [Avoided]
  decide +kernel

/-- C63, run-aware calls on run-encoded tries: the certificate may have intervals of any number of common elements. -/
theorem C63_runs_adaptive {pad h : Nat} {cs : List (Bool × List Nat)} {Ts : List Nav} (hTs : List.Forall₂ (CodedTrie pad h) cs Ts)
    (hr : ∀ c ∈ cs, c.1 = true) (hne : Ts ≠ []) (hlen : Ts.length ≤ 16) (env : Env) (hw : env.hw ≠ 0) :
    ∃ R κ, costIntersect Ts true false env = .ok (R, κ) ∧ IsIntersection (cs.map Prod.snd) R ∧
      ∀ I, RunCertificate (cs.map Prod.snd) (2 ^ h) I →
        κ.nodes ≤ Ts.length * treePart (2 * I.length) h ∧ κ.moves ≤ Ts.length * treePart (2 * I.length) (h - 1) ∧ κ.words = 0 := by
  obtain ⟨R, h1, h2⟩ := C58_runs_reads hTs hne hlen env hw
  rw [← hTs.length_eq]
  exact ⟨R, _, h1, h2, fun I hI => ⟨openAbove_certificate hr hI 0, openForksAbove_certificate hr hI 1, rfl⟩⟩

example : List.Forall₂ (CodedTrie 0 4) [(true, Ex.sA), (true, Ex.sB)] [Ex.levelA.nav false 0, Ex.levelB.nav false 0] ∧
    RunCertificate [Ex.sA, Ex.sB] (2 ^ 4) [(0, 4), (4, 5), (5, 6), (6, 8), (8, 9), (9, 14), (14, 15), (15, 16)] := by
  refine ⟨.cons Ex.levelA_coded (.cons Ex.levelB_coded .nil), by simp [Tiles], ?_⟩
  simp only [Avoided]
  decide +kernel

/-- The same for fast tries. -/
theorem C63_fast_runs_adaptive {lg pad h : Nat} (hlg : 3 ≤ lg ∧ lg ≤ 6) {cs : List (Bool × List Nat)} {Ts : List FNav}
    (hTs : List.Forall₂ (FastCoded lg pad h) cs Ts) (hr : ∀ c ∈ cs, c.1 = true) (hne : Ts ≠ []) (hlen : Ts.length ≤ 16) (env : Env)
    (hw : env.hw ≠ 0) :
    ∃ R κ, costFastIntersect lg Ts true false env = .ok (R, κ) ∧ IsIntersection (cs.map Prod.snd) R ∧
      ∀ I, RunCertificate (cs.map Prod.snd) (2 ^ (h - 1 + lg)) I →
        κ.nodes ≤ Ts.length * treePart (2 * I.length) (h - 1) ∧ κ.moves ≤ Ts.length * treePart (2 * I.length) (h - 1) ∧
        κ.words ≤ Ts.length * (2 * I.length) := by
  obtain ⟨R, h1, h2⟩ := C58_fast_runs_reads hlg hTs hne hlen env hw
  rw [← hTs.length_eq]
  refine ⟨R, _, h1, h2, fun I hI => ?_⟩
  have h3 := openAbove_certificate hr hI lg
  have h4 := openForksAbove_certificate hr hI lg
  rw [Nat.add_sub_cancel] at h3 h4
  exact ⟨h3, h4, openAt_certificate hr hI (by omega)⟩

/-- One set: a run of sixteen elements is one interval. -/
example : List.Forall₂ (FastCoded 3 0 4) [(true, Ex.sW), (true, Ex.sW)] [Ex.fastD.nav 0, Ex.fastD.nav 0] ∧
    RunCertificate [Ex.sW, Ex.sW] (2 ^ 6) [(0, 16), (16, 17), (17, 18), (18, 31), (31, 32), (32, 64)] := by
  refine ⟨.cons Ex.fastD_coded (.cons Ex.fastD_coded .nil), by simp [Tiles], ?_⟩
  simp only [Avoided]
  decide +kernel

/-- C63, run-aware calls on tries of which any are run-encoded: the bound of the plain calls holds as well. -/
theorem C63_mixed_adaptive {pad h : Nat} {cs : List (Bool × List Nat)} {Ts : List Nav} (hTs : List.Forall₂ (CodedTrie pad h) cs Ts)
    (hne : Ts ≠ []) (hlen : Ts.length ≤ 16) (env : Env) (hw : env.hw ≠ 0) :
    ∃ R κ, costIntersect Ts true false env = .ok (R, κ) ∧ IsIntersection (cs.map Prod.snd) R ∧
      ∀ I, Certificate (cs.map Prod.snd) (2 ^ h) I →
        κ.nodes ≤ Ts.length * treePart I.length h ∧ κ.moves ≤ Ts.length * treePart I.length (h - 1) ∧ κ.words = 0 := by
  obtain ⟨R, h1, h2⟩ := C58_runs_reads hTs hne hlen env hw
  rw [← hTs.length_eq]
  exact ⟨R, _, h1, h2, fun I hI => ⟨Nat.le_trans (openAbove_le cs h 0) (Nat.mul_le_mul_left _ (commonAbove_certificate hI 0)),
    Nat.le_trans (openForksAbove_le cs h 1) (Nat.mul_le_mul_left _ (forksAbove_certificate hI 1)), rfl⟩⟩

theorem C63_fast_mixed_adaptive {lg pad h : Nat} (hlg : 3 ≤ lg ∧ lg ≤ 6) {cs : List (Bool × List Nat)} {Ts : List FNav}
    (hTs : List.Forall₂ (FastCoded lg pad h) cs Ts) (hne : Ts ≠ []) (hlen : Ts.length ≤ 16) (env : Env) (hw : env.hw ≠ 0) :
    ∃ R κ, costFastIntersect lg Ts true false env = .ok (R, κ) ∧ IsIntersection (cs.map Prod.snd) R ∧
      ∀ I, Certificate (cs.map Prod.snd) (2 ^ (h - 1 + lg)) I →
        κ.nodes ≤ Ts.length * treePart I.length (h - 1) ∧ κ.moves ≤ Ts.length * treePart I.length (h - 1) ∧
        κ.words ≤ Ts.length * I.length := by
  obtain ⟨R, h1, h2⟩ := C58_fast_runs_reads hlg hTs hne hlen env hw
  rw [← hTs.length_eq]
  refine ⟨R, _, h1, h2, fun I hI => ?_⟩
  have h3 := commonAbove_certificate hI lg
  have h4 := forksAbove_certificate hI lg
  rw [Nat.add_sub_cancel] at h3 h4
  exact ⟨Nat.le_trans (openAbove_le cs _ lg) (Nat.mul_le_mul_left _ h3), Nat.le_trans (openForksAbove_le cs _ lg) (Nat.mul_le_mul_left _ h4),
    Nat.le_trans (openAt_le cs _ lg) (Nat.mul_le_mul_left _ (Nat.le_of_lt (commonCount_lt_certificate hI (by omega) (by omega))))⟩

/-- C63, the other direction: from the nodes read of one trie a certificate can be made, so no call reads fewer nodes of each trie than
the smallest certificate has intervals, less one. -/
theorem C63_needed {pad h : Nat} {sets : List (List Nat)} {Ts : List Nav} (hTs : List.Forall₂ (PlainTrie pad h) sets Ts) (hne : Ts ≠ [])
    (hlen : Ts.length ≤ 16) (env : Env) (hw : env.hw ≠ 0) (parallel : Bool) (hp : parallel = true → 2 ≤ h ∧ env.hw < 2 ^ 16) :
    ∃ R κ I, costIntersect Ts false parallel env = .ok (R, κ) ∧ Certificate sets (2 ^ h) I ∧ Ts.length * (I.length - 1) ≤ κ.nodes := by
  obtain ⟨R, h1, -⟩ := C58_plain_reads hTs hne hlen env hw parallel hp
  obtain ⟨I, h2, h3⟩ := certificate_exists sets h
  rw [← hTs.length_eq]
  exact ⟨R, _, I, h1, h2, Nat.mul_le_mul_left _ (by omega)⟩

theorem C63_runs_needed {pad h : Nat} {cs : List (Bool × List Nat)} {Ts : List Nav} (hTs : List.Forall₂ (CodedTrie pad h) cs Ts)
    (hne : Ts ≠ []) (hlen : Ts.length ≤ 16) (env : Env) (hw : env.hw ≠ 0) :
    ∃ R κ I, costIntersect Ts true false env = .ok (R, κ) ∧ RunCertificate (cs.map Prod.snd) (2 ^ h) I ∧ I.length - 1 ≤ κ.nodes := by
  obtain ⟨R, h1, -⟩ := C58_runs_reads hTs hne hlen env hw
  obtain ⟨I, h2, h3⟩ := runCertificate_exists cs h
  exact ⟨R, _, I, h1, h2, show I.length - 1 ≤ openAbove cs h 0 by omega⟩

end CBT
