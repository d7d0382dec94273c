import Verif.Props.Tools
import Verif.Props.ExactRuns

/-!
# C35, C43 for parallel queries on collections with runs, exactly

The query tools answer in parallel by default. On files built with runs their answers are not the intersections
(`C35_fast_parallel_runs_negation`, `C43_tries_parallel_runs_negation`); here is what they are.
-/

namespace CBT

open Spec

/-- The answer to a query on the tries of `lists`, all run-encoded, with universes of `t` bits and `hw` hardware threads: no
answer for more than 16 sets; what `runsResult` says if the threads' blocks are above the level `lim`; the intersection
otherwise. -/
def AnswersRuns (lists : List (List Nat)) (t lim hw : Nat) (q : List Nat) (a : Option (List Nat)) : Prop :=
  (q.length ≤ 16 → ∃ R, a = some R ∧
    if Nat.log2 hw ≤ lim then R = runsResult (q.map fun i => (true, lists.getD i [])) (t - Nat.log2 hw) (Nat.log2 hw)
    else IsIntersection (q.map fun i => lists.getD i []) R) ∧ (16 < q.length → a = none)

theorem intersect_short {Ts : List Nav} {h : Nat} (hT : ∀ T ∈ Ts, T.height = h) (h2 : 2 ≤ h) (h3 : h < 2 ^ 63) {env : Env}
    (hc : h < Nat.log2 env.hw + 2) (runs : Bool) : intersect Ts runs true env = intersect Ts runs false env := by
  cases Ts with
  | nil => rfl
  | cons T0 Ts =>
    have e := hT T0 (by simp)
    have hn : ¬ Nat.log2 env.hw ≤ (h + 2 ^ 64 - 2) % 2 ^ 64 := by omega
    simp only [intersect, intersectBody, e, hn, and_false, if_false, Bool.false_eq_true]

theorem fastIntersect_short {lg : Nat} {Ts : List FNav} {h : Nat} (hT : ∀ T ∈ Ts, T.height = h) (h2 : 2 ≤ h) (h3 : h < 2 ^ 63) {env : Env}
    (hc : h < Nat.log2 env.hw + 2) (runs : Bool) : fastIntersect lg Ts runs true env = fastIntersect lg Ts runs false env := by
  cases Ts with
  | nil => rfl
  | cons T0 Ts =>
    have e := hT T0 (by simp)
    have hn : ¬ Nat.log2 env.hw ≤ (h + 2 ^ 64 - 2) % 2 ^ 64 := by omega
    simp only [fastIntersect, intersectBody, e, hn, and_false, if_false, Bool.false_eq_true]

/-- C35 for `--parallel t` and files with runs: exactly what is answered. -/
theorem C35_fast_parallel_runs_exact (B : BvIO) (K : Nat → RankIO) {lg : Nat} (hlg : 3 ≤ lg ∧ lg ≤ 6) (pad : Nat)
    (junk junk' : Nat → FastJunk) (hj : ∀ i, (junk i).heightWithRuns < 2 ^ 16) {mn mx rank : Nat} (hr : rank < 2 ^ 32) (hr1 : rank ≠ 1)
    (levelwise : Bool) {one u : Nat} (hone : one < 2 ^ 32) (hu : 2 ^ lg < u) (hu' : u < 2 ^ 32) {lists : List (List Nat)}
    (hl : ∀ l ∈ lists, l.length < 2 ^ 30) (hv : ∀ l ∈ kept mn mx lists, ValidSet l u) (hn : (kept mn mx lists).length < 2 ^ 32)
    {hw : Nat} (hw0 : hw ≠ 0) (hw1 : hw < 2 ^ 16) (env : Nat → Env) (he : ∀ i, (env i).hw = hw)
    {queries : List (List Nat)} (hq : queries ≠ []) (hq0 : ∀ q ∈ queries, q ≠ [])
    (hq1 : ∀ q ∈ queries, q.length ≤ 16 → ∀ i ∈ q, i < (kept mn mx lists).length) :
    ∃ f as, buildFast B K pad junk mn mx rank true levelwise (2 ^ lg) (collectionBytes one u lists) = .ok (some f) ∧
      queryFast B K pad junk' true env queries f = .ok as ∧
      List.Forall₂ (AnswersRuns (kept mn mx lists) (Nat.log2 (u - 1) + 1) (Nat.log2 (u - 1) - lg) hw) queries as := by
  have hlu : 2 ^ (lg - 1) < u := Nat.lt_of_le_of_lt (Nat.pow_le_pow_right (by decide) (by omega)) hu
  have hlog : lg ≤ Nat.log2 (u - 1) := (Nat.le_log2 (Nat.sub_ne_zero_of_lt (by have := Nat.two_pow_pos lg; omega))).2 (Nat.le_sub_one_of_lt hu)
  have hlog' : Nat.log2 (u - 1) < 32 := (Nat.log2_lt (by have := Nat.two_pow_pos lg; omega)).2 (by omega)
  have hh : fastHeight lg u = Nat.log2 (u - 1) - lg + 2 := by rw [fastHeight]; omega
  obtain ⟨f, as, h1, h2, h3⟩ := queryFast_ok B K hlg pad junk junk' hj hr hr1 true levelwise hone hlu hu' hl hv hn true env
    (P := fun sets R => if Nat.log2 hw ≤ Nat.log2 (u - 1) - lg then
        R = runsResult (sets.map fun S => (true, S)) (Nat.log2 (u - 1) + 1 - Nat.log2 hw) (Nat.log2 hw)
      else IsIntersection sets R)
    (fun sets Ts i h1 _ h3 h4 => by
      by_cases hc : Nat.log2 hw ≤ Nat.log2 (u - 1) - lg
      · simp only [if_pos hc]
        have := C13_fast_parallel_runs_result_partial hlg (cs := sets.map fun S => (true, S)) (List.forall₂_map_left_iff.2 h1) h3 h4
          (env i) (by rw [he]; exact hw0) (by rw [he]; exact hw1) (by rw [he, hh]; omega)
        rw [he, show fastHeight lg u - 1 - Nat.log2 hw + lg = Nat.log2 (u - 1) + 1 - Nat.log2 hw by omega] at this
        exact ⟨_, this, rfl⟩
      · simp only [if_neg hc]
        have hH := forall2_imp_right h1 fun _ _ h => (h.toRuns.holds hlg).height
        rw [fastIntersect_short (h := fastHeight lg u) (fun T hT => by rw [hH T hT]; omega) (by omega) (by omega)
          (by rw [he]; omega)]
        exact C10_fast_seq_intersect_runs hlg (h1.imp fun _ _ h => h.toRuns) h3 h4 (env i) (by rw [he]; exact hw0)) hq hq0 hq1
  refine ⟨f, as, h1, h2, h3.imp fun q a h => ⟨fun hq => ?_, h.2⟩⟩
  obtain ⟨R, hR, hP⟩ := h.1 hq
  refine ⟨R, hR, ?_⟩
  simpa only [List.map_map, Function.comp_def] using hP

example : AnswersRuns (kept 1 100 Ex.coll) 6 2 4 [2, 0] (some [31]) ∧
    ¬ AnswersRuns (kept 1 100 Ex.coll) 6 2 4 [2, 0] (some [3, 4, 31]) ∧
    (buildFast Ex.bvIO (fun _ => Ex.rankIO) 0 (fun _ => Ex.junk) 1 100 0 true false 8 (collectionBytes 1 64 Ex.coll) >>= fun f =>
      queryFast Ex.bvIO (fun _ => Ex.rankIO) 0 (fun _ => Ex.junk) true (fun _ => ⟨4, [], []⟩) [[2, 0]] (f.getD [])) =
        .ok [some [31]] := by
  have e : runsResult ([2, 0].map fun i => (true, (kept 1 100 Ex.coll).getD i [])) (6 - Nat.log2 4) (Nat.log2 4) = [31] := by
    decide +kernel
  refine ⟨⟨fun _ => ⟨_, rfl, ?_⟩, by decide⟩, fun h => ?_, by decide +kernel⟩
  · rw [if_pos (by decide +kernel), e]
  · obtain ⟨R, e1, e2⟩ := h.1 (by decide)
    injection e1 with e1
    rw [if_pos (by decide +kernel), e, ← e1] at e2
    exact absurd e2 (by decide)

/-- C43 in the default mode with runs: exactly what is answered. -/
theorem C43_tries_parallel_runs_exact_partial (F : Formats) (pad : Nat) {mn mx rank block : Nat} (hr : rank < 2 ^ 32)
    (hb : block < 2 ^ 32) (levelwise : Bool) (hs : Supported rank block levelwise) {one u : Nat} (hone : one < 2 ^ 32) (hu : 3 ≤ u)
    (hu' : u < 2 ^ 32) {lists : List (List Nat)} (hl : ∀ l ∈ lists, l.length < 2 ^ 30)
    (hv : ∀ l ∈ kept mn mx lists, ValidSet l u) (hn : (kept mn mx lists).length < 2 ^ 32)
    (hc : levelwise = false → ∀ l ∈ kept mn mx lists, ∃ x ∈ l, ∃ y, y / 4 = x / 4 ∧ y ∉ l)
    {hw : Nat} (hw0 : hw ≠ 0) (hw1 : hw < 2 ^ 16) (env : Nat → Env) (he : ∀ i, (env i).hw = hw)
    {queries : List (List Nat)} (hq0 : ∀ q ∈ queries, q ≠ []) (hq1 : ∀ q ∈ queries, ∀ i ∈ q, i < (kept mn mx lists).length) :
    ∃ f as, buildTries F pad true mn mx rank block true levelwise (collectionBytes one u lists) = .ok f ∧
      queryLog F pad true env queries f = .ok as ∧
      List.Forall₂ (AnswersRuns (kept mn mx lists) (Nat.log2 (u - 1) + 1) (Nat.log2 (u - 1) - 1) hw) queries as := by
  have hlog : 1 ≤ Nat.log2 (u - 1) := (Nat.le_log2 (by omega)).2 (by omega)
  have hlog' : Nat.log2 (u - 1) < 32 := (Nat.log2_lt (by omega)).2 (by omega)
  have hh : trieHeight u = Nat.log2 (u - 1) + 1 := rfl
  obtain ⟨f, as, h1, h2, h3⟩ := queryLog_ok F pad hr hb hs hone hu hu' hl hv hn (fun _ => hc) true env
    (P := fun sets R => if Nat.log2 hw ≤ Nat.log2 (u - 1) - 1 then
        R = runsResult (sets.map fun S => (true, S)) (Nat.log2 (u - 1) + 1 - Nat.log2 hw) (Nat.log2 hw)
      else IsIntersection sets R)
    (fun sets Ts i h1 _ h3 h4 => by
      by_cases hc : Nat.log2 hw ≤ Nat.log2 (u - 1) - 1
      · simp only [if_pos hc]
        have := C12_parallel_runs_result_partial (cs := sets.map fun S => (true, S)) (List.forall₂_map_left_iff.2 h1) h3 h4
          (env i) (by rw [he]; exact hw0) (by rw [he]; exact hw1) (by rw [he, hh]; omega)
        rw [he] at this
        exact ⟨_, this, rfl⟩
      · simp only [if_neg hc]
        have hH := forall2_imp_right h1 fun _ _ h => h.runs.holds.height
        rw [intersect_short (h := trieHeight u) (fun T hT => by rw [hH T hT]; omega) (by omega) (by omega)
          (by rw [he]; omega)]
        exact C08_seq_intersect_runs_partial (h1.imp fun _ _ h => h.runs) h3 h4 (env i) (by rw [he]; exact hw0)) hq0 hq1
  refine ⟨f, as, h1, h2, h3.imp fun q a h => ⟨fun hq => ?_, h.2⟩⟩
  obtain ⟨R, hR, hP⟩ := h.1 hq
  refine ⟨R, hR, ?_⟩
  simpa only [List.map_map, Function.comp_def] using hP

example : AnswersRuns (kept 1 100 Ex.coll) 6 4 4 [2, 0] (some [31]) ∧
    (buildTries Ex.formats 0 true 1 100 0 512 true true (collectionBytes 1 64 Ex.coll) >>= fun f =>
      queryLog Ex.formats 0 true (fun _ => ⟨4, [], []⟩) [[2, 0]] f) = .ok [some [31]] := by
  have e : runsResult ([2, 0].map fun i => (true, (kept 1 100 Ex.coll).getD i [])) (6 - Nat.log2 4) (Nat.log2 4) = [31] := by
    decide +kernel
  refine ⟨⟨fun _ => ⟨_, rfl, ?_⟩, by decide⟩, by decide +kernel⟩
  rw [if_pos (by decide +kernel), e]

end CBT
