import Verif.SpecCost
import Verif.Proof.CostInter
import Verif.Props.Parallel
import Verif.Props.ExactRuns
import Verif.Props.Strict

/-!
# C58: what `Intersect` reads of the tries

`nodes` counts the calls of `getNode`, `moves` those of `getLeftChild` and `getRightChild`, `words` those of `getWord`, over all tries
and threads.
-/

namespace CBT

open Spec

/-- Counting changes neither the result nor what goes wrong. -/
theorem C58_counters_change_nothing (Ts : List Nav) (runs parallel : Bool) (env : Env) :
    (costIntersect Ts runs parallel env).map Prod.fst = intersect Ts runs parallel env := costIntersect_map Ts runs parallel env

theorem C58_fast_counters_change_nothing (lg : Nat) (Ts : List FNav) (runs parallel : Bool) (env : Env) :
    (costFastIntersect lg Ts runs parallel env).map Prod.fst = fastIntersect lg Ts runs parallel env :=
  costFastIntersect_map lg Ts runs parallel env

example : costIntersect [Ex.flat.nav 0, Ex.level.nav true 0] false false ⟨8, [], []⟩ = .ok ([1, 2, 3, 5, 14], ⟨20, 12, 0⟩) ∧
    costFastIntersect 3 [Ex.fast.nav 0, Ex.fast2.nav 0] false true ⟨2, [1], [0]⟩ = .ok ([4, 17, 31], ⟨6, 6, 6⟩) := by
  decide +kernel

/-- C58, plain tries, sequentially or in parallel: every call returns the intersection, and of each trie it reads exactly one node
for each aligned block larger than 1 that every set meets, and moves to a child exactly once for each such block larger than 2 that
has a half every set meets. The numbers do not depend on the mode, the hardware or the schedule. -/
theorem C58_plain_reads {pad h : Nat} {sets : List (List Nat)} {Ts : List Nav} (hTs : List.Forall₂ (PlainTrie pad h) sets Ts) (hne : Ts ≠ [])
    (hlen : Ts.length ≤ 16) (env : Env) (hw : env.hw ≠ 0) (parallel : Bool) (hp : parallel = true → 2 ≤ h ∧ env.hw < 2 ^ 16) :
    ∃ R, costIntersect Ts false parallel env =
        .ok (R, ⟨sets.length * commonAbove sets h 0, sets.length * forksAbove sets h 1, 0⟩) ∧ IsIntersection sets R := by
  have hT := hTs.imp fun _ _ h => h.holds
  have e : h - 1 + 1 = h := by
    cases hTs with
    | nil => exact (hne rfl).elim
    | cons H _ => rw [← H.holds.height, H.height_eq]
  obtain ⟨R, h1, h2⟩ : ∃ R, intersect Ts false parallel env = .ok R ∧ IsIntersection sets R := by
    cases parallel with
    | false => exact intersect_seq_plain hT hne hlen hw
    | true => exact intersect_par_plain hT (by have := hp rfl; omega) hne hlen hw (hp rfl).2
  rw [← costIntersect_map] at h1
  obtain ⟨κ, h3⟩ := map_fst_ok h1
  have := cost_intersect_plain hT hne hlen hw (fun h => by have := hp h; omega) h3
  rw [e] at this
  exact ⟨R, by rw [h3, this], h2⟩

example : List.Forall₂ (PlainTrie 0 4) [Ex.sF, Ex.sL] [Ex.flat.nav 0, Ex.level.nav true 0] ∧
    costIntersect [Ex.flat.nav 0, Ex.level.nav true 0] false true ⟨4, [1, 0], [0, 1]⟩ = .ok ([1, 2, 3, 5, 14], ⟨20, 12, 0⟩) ∧
    commonAbove [Ex.sF, Ex.sL] 4 0 = 10 ∧ forksAbove [Ex.sF, Ex.sL] 4 1 = 6 :=
  ⟨.cons Ex.flat_plain (.cons Ex.level_plain .nil), by decide +kernel⟩

/-- C58, plain fast tries with words of `2^lg` bits, likewise; of each trie it reads exactly one word for each block of `2^lg` that
every set meets. -/
theorem C58_fast_plain_reads {lg pad h : Nat} (hlg : 3 ≤ lg ∧ lg ≤ 6) {sets : List (List Nat)} {Ts : List FNav}
    (hTs : List.Forall₂ (FastPlain lg pad h) sets Ts) (hne : Ts ≠ []) (hlen : Ts.length ≤ 16) (env : Env) (hw : env.hw ≠ 0)
    (parallel : Bool) (hp : parallel = true → 2 ≤ h ∧ env.hw < 2 ^ 16) :
    ∃ R, costFastIntersect lg Ts false parallel env = .ok (R, ⟨sets.length * commonAbove sets (h - 1 + lg) lg,
        sets.length * forksAbove sets (h - 1 + lg) lg, sets.length * commonCount sets (h - 1 + lg) lg⟩) ∧ IsIntersection sets R := by
  have hT := hTs.imp fun _ _ h => h.holds hlg
  obtain ⟨R, h1, h2⟩ : ∃ R, fastIntersect lg Ts false parallel env = .ok R ∧ IsIntersection sets R := by
    cases parallel with
    | false => exact fastIntersect_seq_plain hlg.2 hT hne hlen hw
    | true => exact fastIntersect_par_plain ⟨by omega, hlg.2⟩ hT (by have := hp rfl; omega) hne hlen hw (hp rfl).2
  rw [← costFastIntersect_map] at h1
  obtain ⟨κ, h3⟩ := map_fst_ok h1
  have := cost_fast_plain hlg.2 hT hne hlen hw (fun h => by have := hp h; omega) h3
  exact ⟨R, by rw [h3, this], h2⟩

example : List.Forall₂ (FastPlain 3 0 3) [Ex.sV, Ex.sW] [Ex.fast.nav 0, Ex.fast2.nav 0] ∧
    costFastIntersect 3 [Ex.fast.nav 0, Ex.fast2.nav 0] false false ⟨8, [], []⟩ = .ok ([4, 17, 31], ⟨6, 6, 6⟩) ∧
    commonAbove [Ex.sV, Ex.sW] 5 3 = 3 ∧ forksAbove [Ex.sV, Ex.sW] 5 3 = 3 ∧ commonCount [Ex.sV, Ex.sW] 5 3 = 3 :=
  ⟨.cons Ex.fast_plain (.cons Ex.fast2_plain .nil), by decide +kernel⟩

/-- C58, run-aware calls, sequentially: of the trie of each set exactly one node is read for each block larger than 1 that every set
meets and that is not inside a larger collapsed block of that set. -/
theorem C58_runs_reads {pad h : Nat} {cs : List (Bool × List Nat)} {Ts : List Nav} (hTs : List.Forall₂ (CodedTrie pad h) cs Ts)
    (hne : Ts ≠ []) (hlen : Ts.length ≤ 16) (env : Env) (hw : env.hw ≠ 0) :
    ∃ R, costIntersect Ts true false env = .ok (R, ⟨openAbove cs h 0, openForksAbove cs h 1, 0⟩) ∧ IsIntersection (cs.map Prod.snd) R := by
  have hT : List.Forall₂ (HoldsR (h - 1)) (cs.map Prod.snd) Ts := List.forall₂_map_left_iff.2 (hTs.imp fun _ _ h => h.runs.holds)
  have hd : h - 1 ≤ 62 := by
    cases hTs with
    | nil => exact (hne rfl).elim
    | cons h _ => exact h.runs.holds.depth
  have e : h - 1 + 1 = h := by
    cases hTs with
    | nil => exact (hne rfl).elim
    | cons H _ =>
      rw [← H.runs.holds.height]
      cases H with
      | plain H => exact H.height_eq
      | flat _ _ _ _ _ _ hh _ => exact hh
      | level _ _ _ _ _ _ _ hh => exact hh
  obtain ⟨ts, t1, t2⟩ := forall2_trees (Q := fun n t => Rep n (leafF n) (h - 1) 0 t 0) (Q' := CTree 1 (h - 1)) hTs fun _ _ H => H.tree
  obtain ⟨R, h1, h2⟩ := intersect_seq_runs hT hne hlen hw
  rw [← costIntersect_map] at h1
  obtain ⟨κ, h3⟩ := map_fst_ok h1
  have := cost_runs_seq hd t1 t2 (forall2_imp_right hT fun _ _ h => h.height) hne hlen hw h3
  rw [e] at this
  exact ⟨R, by rw [h3, this], h2⟩

/-- Two run-encoded tries: more nodes and moves are saved than are spent on the collapsed blocks. -/
example : List.Forall₂ (CodedTrie 0 4) [(true, Ex.sA), (true, Ex.sB)] [Ex.levelA.nav false 0, Ex.levelB.nav false 0] ∧
    costIntersect [Ex.levelA.nav false 0, Ex.levelB.nav false 0] true false ⟨8, [], []⟩ =
      .ok (Ex.sA.filter (· ∈ Ex.sB), ⟨openAbove [(true, Ex.sA), (true, Ex.sB)] 4 0, openForksAbove [(true, Ex.sA), (true, Ex.sB)] 4 1, 0⟩) ∧
    openAbove [(true, Ex.sA), (true, Ex.sB)] 4 0 < openAbove [(false, Ex.sA), (false, Ex.sB)] 4 0 ∧
    openAbove [(false, Ex.sA), (false, Ex.sB)] 4 0 = 2 * commonAbove [Ex.sA, Ex.sB] 4 0 :=
  ⟨.cons Ex.levelA_coded (.cons Ex.levelB_coded .nil), by decide +kernel⟩

/-- C58, run-aware calls on fast tries, likewise. -/
theorem C58_fast_runs_reads {lg pad h : Nat} (hlg : 3 ≤ lg ∧ lg ≤ 6) {cs : List (Bool × List Nat)} {Ts : List FNav}
    (hTs : List.Forall₂ (FastCoded lg pad h) cs Ts) (hne : Ts ≠ []) (hlen : Ts.length ≤ 16) (env : Env) (hw : env.hw ≠ 0) :
    ∃ R, costFastIntersect lg Ts true false env = .ok (R, ⟨openAbove cs (h - 1 + lg) lg, openForksAbove cs (h - 1 + lg) lg,
        openAt cs (h - 1 + lg) lg⟩) ∧ IsIntersection (cs.map Prod.snd) R := by
  have hT : List.Forall₂ (FHoldsR lg (h - 1)) (cs.map Prod.snd) Ts := List.forall₂_map_left_iff.2 (hTs.imp fun _ _ h => h.toRuns.holds hlg)
  have hd : h - 1 + lg ≤ 62 := by
    cases hTs with
    | nil => exact (hne rfl).elim
    | cons h _ => exact (h.toRuns.holds hlg).depth
  obtain ⟨ts, t1, t2⟩ := forall2_trees (Q := fun n t => Rep n.toNav (leafW lg n) (h - 1) 0 t 0) (Q' := CTree lg (h - 1)) hTs
    fun _ _ H => H.tree hlg
  obtain ⟨R, h1, h2⟩ := fastIntersect_seq_runs hlg.2 hT hne hlen hw
  rw [← costFastIntersect_map] at h1
  obtain ⟨κ, h3⟩ := map_fst_ok h1
  have := cost_fast_runs_seq hlg.2 hd t1 t2 (forall2_imp_right hT fun _ _ h => h.height) hne hlen hw h3
  exact ⟨R, by rw [h3, this], h2⟩

/-- A run-encoded trie with collapsed blocks. -/
example : List.Forall₂ (FastCoded 3 0 4) [(true, Ex.sW), (true, Ex.sW)] [Ex.fastD.nav 0, Ex.fastD.nav 0] ∧
    costFastIntersect 3 [Ex.fastD.nav 0, Ex.fastD.nav 0] true false ⟨8, [], []⟩ =
      .ok (Ex.sW, ⟨openAbove [(true, Ex.sW), (true, Ex.sW)] 6 3, openForksAbove [(true, Ex.sW), (true, Ex.sW)] 6 3,
        openAt [(true, Ex.sW), (true, Ex.sW)] 6 3⟩) ∧
    openAt [(true, Ex.sW), (true, Ex.sW)] 6 3 < 2 * commonCount [Ex.sW, Ex.sW] 6 3 :=
  ⟨.cons Ex.fastD_coded (.cons Ex.fastD_coded .nil), by decide +kernel⟩

/-- C58, the bound: no call on plain tries reads more than `h` nodes per trie and element of any one of the sets, however large the
others are. -/
theorem C58_bound {pad h : Nat} {sets : List (List Nat)} {Ts : List Nav} (hTs : List.Forall₂ (PlainTrie pad h) sets Ts) (hne : Ts ≠ [])
    (hlen : Ts.length ≤ 16) (env : Env) (hw : env.hw ≠ 0) (parallel : Bool) (hp : parallel = true → 2 ≤ h ∧ env.hw < 2 ^ 16) :
    ∃ R κ, costIntersect Ts false parallel env = .ok (R, κ) ∧
      ∀ S ∈ sets, κ.nodes ≤ Ts.length * (h * S.length) ∧ κ.moves ≤ Ts.length * ((h - 1) * S.length) ∧ κ.words = 0 := by
  obtain ⟨R, h1, -⟩ := C58_plain_reads hTs hne hlen env hw parallel hp
  rw [← hTs.length_eq]
  exact ⟨R, _, h1, fun S hS => ⟨Nat.mul_le_mul_left _ (commonAbove_le hS h 0), Nat.mul_le_mul_left _ (forksAbove_le hS h 1), rfl⟩⟩

/-- A set of one element: 8 nodes are read, 4 per trie. -/
example : ∃ t, levelCtor [9] 16 = .ok t ∧ PlainTrie 0 4 [9] (t.nav true 0) ∧
    costIntersect [Ex.flat.nav 0, t.nav true 0] false false ⟨8, [], []⟩ = .ok ([], ⟨8, 6, 0⟩) := by
  refine ⟨⟨0, false, false, [[false, true], [true, false], [true, false], [false, true]]⟩, by decide +kernel,
    .level (u := 16) true (by decide +kernel) (by decide +kernel) (by decide) (by decide) (by decide +kernel) rfl, by decide +kernel⟩

/-- Likewise for fast tries, whose height is `h - 1` levels and words of `2^lg` bits. -/
theorem C58_fast_bound {lg pad h : Nat} (hlg : 3 ≤ lg ∧ lg ≤ 6) {sets : List (List Nat)} {Ts : List FNav}
    (hTs : List.Forall₂ (FastPlain lg pad h) sets Ts) (hne : Ts ≠ []) (hlen : Ts.length ≤ 16) (env : Env) (hw : env.hw ≠ 0)
    (parallel : Bool) (hp : parallel = true → 2 ≤ h ∧ env.hw < 2 ^ 16) :
    ∃ R κ, costFastIntersect lg Ts false parallel env = .ok (R, κ) ∧
      ∀ S ∈ sets, κ.nodes ≤ Ts.length * ((h - 1) * S.length) ∧ κ.moves ≤ Ts.length * ((h - 1) * S.length) ∧
        κ.words ≤ Ts.length * S.length := by
  obtain ⟨R, h1, -⟩ := C58_fast_plain_reads hlg hTs hne hlen env hw parallel hp
  rw [← hTs.length_eq]
  refine ⟨R, _, h1, fun S hS => ?_⟩
  have h1 := commonAbove_le hS (h - 1 + lg) lg
  have h2 := forksAbove_le hS (h - 1 + lg) lg
  rw [Nat.add_sub_cancel] at h1 h2
  exact ⟨Nat.mul_le_mul_left _ h1, Nat.mul_le_mul_left _ h2, Nat.mul_le_mul_left _ (commonCount_le hS _ _)⟩

/-- C58: a run-aware call on tries of which some are run-encoded reads and moves at most as much as a plain call on tries of the same
sets none of which is. -/
theorem C58_runs_save {pad pad' h : Nat} {cs : List (Bool × List Nat)} {Ts Ts' : List Nav} (hTs : List.Forall₂ (CodedTrie pad h) cs Ts)
    (hTs' : List.Forall₂ (PlainTrie pad' h) (cs.map Prod.snd) Ts')
    (hne : Ts ≠ []) (hlen : Ts.length ≤ 16) (env env' : Env) (hw : env.hw ≠ 0) (hw' : env'.hw ≠ 0) :
    ∃ R κ κ', costIntersect Ts true false env = .ok (R, κ) ∧ costIntersect Ts' false false env' = .ok (R, κ') ∧
      κ.nodes ≤ κ'.nodes ∧ κ.moves ≤ κ'.moves := by
  have hl : Ts'.length = Ts.length := by rw [← hTs'.length_eq, List.length_map, hTs.length_eq]
  have hne' : Ts' ≠ [] := fun e => hne (List.length_eq_zero_iff.1 (by rw [← hl, e]; rfl))
  obtain ⟨R, h1, h2⟩ := C58_runs_reads hTs hne hlen env hw
  obtain ⟨R', h3, h4⟩ := C58_plain_reads hTs' hne' (by omega) env' hw' false (fun h => nomatch h)
  rw [IsIntersection.unique h2 h4] at h1
  refine ⟨R', _, _, h1, h3, ?_, ?_⟩
  · rw [List.length_map]
    exact openAbove_le cs h 0
  · rw [List.length_map]
    exact openForksAbove_le cs h 1

/-- Plain tries of the sets of the example above. -/
example : PlainTrie 0 4 Ex.sA (LevelTrie.nav ⟨0, false, false, [[true, true], [true, true, true, true],
      [true, true, true, false, true, true, false, true], [true, true, true, true, false, true, true, true, true, true, true, false]]⟩ true 0) ∧
    PlainTrie 0 4 Ex.sB (LevelTrie.nav ⟨0, false, false, [[true, true], [true, true, true, true],
      [true, true, true, true, true, false, false, true], [true, true, true, true, true, true, true, true, true, false, true, false]]⟩ true 0) :=
  ⟨.level (u := 16) true (by decide +kernel) (by decide +kernel) (by decide) (by decide) (by decide +kernel) rfl,
    .level (u := 16) true (by decide +kernel) (by decide +kernel) (by decide) (by decide) (by decide +kernel) rfl⟩

theorem C58_fast_runs_save {lg pad pad' h : Nat} (hlg : 3 ≤ lg ∧ lg ≤ 6) {cs : List (Bool × List Nat)} {Ts Ts' : List FNav}
    (hTs : List.Forall₂ (FastCoded lg pad h) cs Ts) (hTs' : List.Forall₂ (FastPlain lg pad' h) (cs.map Prod.snd) Ts')
    (hne : Ts ≠ []) (hlen : Ts.length ≤ 16) (env env' : Env) (hw : env.hw ≠ 0) (hw' : env'.hw ≠ 0) :
    ∃ R κ κ', costFastIntersect lg Ts true false env = .ok (R, κ) ∧ costFastIntersect lg Ts' false false env' = .ok (R, κ') ∧
      κ.nodes ≤ κ'.nodes ∧ κ.moves ≤ κ'.moves ∧ κ.words ≤ κ'.words := by
  have hl : Ts'.length = Ts.length := by rw [← hTs'.length_eq, List.length_map, hTs.length_eq]
  have hne' : Ts' ≠ [] := fun e => hne (List.length_eq_zero_iff.1 (by rw [← hl, e]; rfl))
  obtain ⟨R, h1, h2⟩ := C58_fast_runs_reads hlg hTs hne hlen env hw
  obtain ⟨R', h3, h4⟩ := C58_fast_plain_reads hlg hTs' hne' (by omega) env' hw' false (fun h => nomatch h)
  rw [IsIntersection.unique h2 h4] at h1
  refine ⟨R', _, _, h1, h3, ?_, ?_, ?_⟩
  · rw [List.length_map]
    exact openAbove_le cs _ lg
  · rw [List.length_map]
    exact openForksAbove_le cs _ lg
  · rw [List.length_map]
    exact openAt_le cs _ lg

example : FastPlain 3 0 4 Ex.sW (FastTrie.nav ⟨4, 9, 6, false, true, [true, false, true, true, true, true, true, true], [255, 255, 2, 128]⟩ 0) :=
  .mk (u := 64) (junk := Ex.junk) (by decide +kernel) (by decide +kernel) (by decide) (by decide) (by decide +kernel) rfl

end CBT
