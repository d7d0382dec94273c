import Verif.Proof.WideSets
import Verif.Props.ManyThreads
import Verif.Props.ExactRuns

/-!
# C91, exactly: parallel calls on any number of hardware threads

The number of blocks and the number of half-blocks are counted modulo 65536; what is beyond is forgotten, and the program divides by
zero if all half-blocks are. `orDivide` turns `none` into the division by zero.
-/

namespace CBT

open Spec

/-- C91, exactly, for plain tries and both values of the `runs` argument, if the call starts threads at all
(`floor(log2(hw)) + 2 ≤ h`; otherwise it is the sequential call). -/
theorem C91_exact {pad h : Nat} {sets : List (List Nat)} {Ts : List Nav} (hTs : List.Forall₂ (PlainTrie pad h) sets Ts)
    (hne : Ts ≠ []) (hlen : Ts.length ≤ 16) (runs : Bool) (env : Env) (hw : env.hw ≠ 0) (hw2 : env.hw < 2 ^ 32)
    (hc : Nat.log2 env.hw + 2 ≤ h) :
    intersect Ts runs true env = orDivide (widePlain sets (h - Nat.log2 env.hw) (Nat.log2 env.hw)) := by
  have hT : List.Forall₂ (HoldsP (h - 1)) sets Ts := hTs.imp fun _ _ h => h.holds
  obtain ⟨d, rfl⟩ : ∃ d, h = d + 1 + Nat.log2 env.hw + 1 := ⟨h - 2 - Nat.log2 env.hw, by omega⟩
  rw [show d + 1 + Nat.log2 env.hw + 1 - Nat.log2 env.hw = d + 1 + 1 by omega]
  rw [Nat.add_sub_cancel] at hT
  obtain ⟨ts, h1, h2, h3⟩ := HoldsP.trees hT
  have hd : d + 1 + Nat.log2 env.hw ≤ 62 := by
    cases hT with
    | nil => exact (hne rfl).elim
    | cons h _ => exact h.depth
  have hcs : sets ≠ [] := by rintro rfl; cases hTs; exact hne rfl
  have hts : ts ≠ [] := by rintro rfl; cases h1; exact hne rfl
  have hb := forall2_imp_left hT fun _ _ h => h.below
  have hct : List.Forall₂ (CTree 1 (d + 1 + Nat.log2 env.hw)) (sets.map fun S => (false, S)) ts := by
    rw [List.forall₂_map_left_iff]
    exact forall2_and_left (forall2_and_right h3 h2 fun _ _ h hn => And.intro hn h) hb
      fun S t h hb => ⟨hb, t, h.1, h.2, rfl⟩
  have := par_body_wide id leafF (runs := runs) (c := flatCfg (d + 1 + Nat.log2 env.hw + 1)) (height := d + 1 + Nat.log2 env.hw + 1)
    hne (flat_leafOK Ts _) (flat_leafOKR Ts _) h1 hlen (by rfl) (by rfl) (show d + 1 + Nat.log2 env.hw + 1 < 64 by omega) hw hw2 (by omega)
  rw [List.map_id, wideOut_plain hts h2, wideOut_eq (agree_of hct (by simpa using hcs)), wideResult_plain hcs (by omega)] at this
  rw [intersect_unfold hne (forall2_imp_right hT fun _ _ h => h.height), this]

example : List.Forall₂ (PlainTrie 0 4) [Ex.sF, Ex.sL] [Ex.flat.nav 0, Ex.level.nav true 0] ∧
    widePlain [Ex.sF, Ex.sL] 2 2 = some [1, 2, 3, 5, 14] :=
  ⟨.cons Ex.flat_plain (.cons Ex.level_plain .nil), by decide +kernel⟩

/-- C91, fast tries. -/
theorem C91_fast_exact {lg pad h : Nat} (hlg : 3 ≤ lg ∧ lg ≤ 6) {sets : List (List Nat)} {Ts : List FNav}
    (hTs : List.Forall₂ (FastPlain lg pad h) sets Ts) (hne : Ts ≠ []) (hlen : Ts.length ≤ 16) (runs : Bool) (env : Env) (hw : env.hw ≠ 0)
    (hw2 : env.hw < 2 ^ 32) (hc : Nat.log2 env.hw + 2 ≤ h) :
    fastIntersect lg Ts runs true env = orDivide (widePlain sets (h - 1 - Nat.log2 env.hw + lg) (Nat.log2 env.hw)) := by
  have hT : List.Forall₂ (FHoldsP lg (h - 1)) sets Ts := hTs.imp fun _ _ h => h.holds hlg
  obtain ⟨d, rfl⟩ : ∃ d, h = d + 1 + Nat.log2 env.hw + 1 := ⟨h - 2 - Nat.log2 env.hw, by omega⟩
  rw [show d + 1 + Nat.log2 env.hw + 1 - 1 - Nat.log2 env.hw + lg = d + 1 + lg by omega]
  rw [Nat.add_sub_cancel] at hT
  obtain ⟨ts, h1, h2, h3⟩ := FHoldsP.trees hT
  have hd : d + 1 + Nat.log2 env.hw + lg ≤ 62 := by
    cases hT with
    | nil => exact (hne rfl).elim
    | cons h _ => exact h.depth
  have hcs : sets ≠ [] := by rintro rfl; cases hTs; exact hne rfl
  have hts : ts ≠ [] := by rintro rfl; cases h1; exact hne rfl
  have hb := forall2_imp_left hT fun _ _ h => h.below
  have hct : List.Forall₂ (CTree lg (d + 1 + Nat.log2 env.hw)) (sets.map fun S => (false, S)) ts := by
    rw [List.forall₂_map_left_iff]
    exact forall2_and_left (forall2_and_right h3 h2 fun _ _ h hn => And.intro hn h) hb
      fun S t h hb => ⟨hb, t, h.1, h.2, rfl⟩
  have := par_body_wide FNav.toNav (leafW lg) (runs := runs) (c := fastCfg lg Ts (d + 1 + Nat.log2 env.hw + 1))
    (height := d + 1 + Nat.log2 env.hw + 1) hne (fast_leafOK hlg.2 Ts _) (fast_leafOKR hlg.2 Ts _) h1 hlen (by rfl)
    (by simp only [fastCfg]; omega) (by simp only [fastCfg]; omega) hw hw2 (by omega)
  rw [wideOut_plain hts h2, wideOut_eq (agree_of hct (by simpa using hcs)), wideResult_plain hcs (by omega)] at this
  rw [fastIntersect_unfold hne (forall2_imp_right hT fun _ _ h => h.height), this]

example : List.Forall₂ (FastPlain 3 0 3) [Ex.sV, Ex.sW] [Ex.fast.nav 0, Ex.fast2.nav 0] ∧
    widePlain [Ex.sV, Ex.sW] (3 - 1 - 1 + 3) 1 = some [4, 17, 31] :=
  ⟨.cons Ex.fast_plain (.cons Ex.fast2_plain .nil), by decide +kernel⟩

/-- C91: on any number of hardware threads, whatever a parallel call on plain tries returns is a prefix of the intersection: nothing
wrong, in the right order, and only the largest elements can be missing. -/
theorem C91_prefix {pad h : Nat} {sets : List (List Nat)} {Ts : List Nav} (hTs : List.Forall₂ (PlainTrie pad h) sets Ts)
    (hne : Ts ≠ []) (hlen : Ts.length ≤ 16) (runs : Bool) (env : Env) (hw : env.hw ≠ 0) (hw2 : env.hw < 2 ^ 32)
    (hc : Nat.log2 env.hw + 2 ≤ h) {R : List Nat} (hR : intersect Ts runs true env = .ok R) : ∃ I, IsIntersection sets I ∧ R <+: I := by
  rw [C91_exact hTs hne hlen runs env hw hw2 hc] at hR
  have hcs : sets ≠ [] := by rintro rfl; cases hTs; exact hne rfl
  have hb := forall2_imp_left hTs fun _ _ h => h.holds.below
  cases hr : widePlain sets (h - Nat.log2 env.hw) (Nat.log2 env.hw) with
  | none => rw [hr] at hR; cases hR
  | some l =>
    rw [hr] at hR
    cases hR
    refine widePlain_prefix hcs (by omega) (fun S hS x hx => ?_) hr
    have := hb S hS x hx
    rwa [show h - 1 + 1 = h - Nat.log2 env.hw + Nat.log2 env.hw by omega] at this

/-- C91, fast tries. -/
theorem C91_fast_prefix {lg pad h : Nat} (hlg : 3 ≤ lg ∧ lg ≤ 6) {sets : List (List Nat)} {Ts : List FNav}
    (hTs : List.Forall₂ (FastPlain lg pad h) sets Ts) (hne : Ts ≠ []) (hlen : Ts.length ≤ 16) (runs : Bool) (env : Env) (hw : env.hw ≠ 0)
    (hw2 : env.hw < 2 ^ 32) (hc : Nat.log2 env.hw + 2 ≤ h) {R : List Nat} (hR : fastIntersect lg Ts runs true env = .ok R) :
    ∃ I, IsIntersection sets I ∧ R <+: I := by
  rw [C91_fast_exact hlg hTs hne hlen runs env hw hw2 hc] at hR
  have hcs : sets ≠ [] := by rintro rfl; cases hTs; exact hne rfl
  have hb := forall2_imp_left hTs fun _ _ h => (h.holds hlg).below
  cases hr : widePlain sets (h - 1 - Nat.log2 env.hw + lg) (Nat.log2 env.hw) with
  | none => rw [hr] at hR; cases hR
  | some l =>
    rw [hr] at hR
    cases hR
    refine widePlain_prefix hcs (by omega) (fun S hS x hx => ?_) hr
    have := hb S hS x hx
    rwa [show h - 1 + lg = h - 1 - Nat.log2 env.hw + lg + Nat.log2 env.hw by omega] at this

/-- C91, exactly, for run-aware calls on plain and run-encoded tries. -/
theorem C91_runs_exact {pad h : Nat} {cs : List (Bool × List Nat)} {Ts : List Nav}
    (hTs : List.Forall₂ (CodedTrie pad h) cs Ts) (hne : Ts ≠ []) (hlen : Ts.length ≤ 16)
    (env : Env) (hw : env.hw ≠ 0) (hw2 : env.hw < 2 ^ 32) (hcut : Nat.log2 env.hw + 2 ≤ h) :
    intersect Ts true true env = orDivide (wideResult cs (h - Nat.log2 env.hw) (Nat.log2 env.hw)) := by
  obtain ⟨d, hd⟩ : ∃ d, h - 1 = d + 1 + Nat.log2 env.hw := ⟨h - 2 - Nat.log2 env.hw, by omega⟩
  obtain ⟨e, rfl⟩ : ∃ e, h = e + 1 := ⟨h - 1, by omega⟩
  rw [Nat.add_sub_cancel] at hd
  subst hd
  have hcs : cs ≠ [] := by rintro rfl; cases hTs; exact hne rfl
  obtain ⟨ts, h1, h2⟩ := forall2_trees (Q := fun n t => Rep n (leafF n) (d + 1 + Nat.log2 env.hw) 0 t 0)
    (Q' := CTree 1 (d + 1 + Nat.log2 env.hw)) hTs fun _ _ H => H.tree
  have hd : d + 1 + Nat.log2 env.hw ≤ 62 := by
    cases hTs with
    | nil => exact (hne rfl).elim
    | cons h _ => exact h.runs.holds.depth
  have hh := forall2_imp_right hTs fun _ _ h => h.runs.holds.height
  rw [Nat.add_sub_cancel] at hh
  have := par_body_wide id leafF (runs := true) (c := flatCfg (d + 1 + Nat.log2 env.hw + 1)) (height := d + 1 + Nat.log2 env.hw + 1)
    hne (flat_leafOK Ts _) (flat_leafOKR Ts _) h1 hlen (by rfl) (by rfl) (show d + 1 + Nat.log2 env.hw + 1 < 64 by omega) hw hw2 (by omega)
  rw [List.map_id, wideOut_eq (agree_of h2 hcs)] at this
  rw [intersect_unfold hne hh, this, show d + 1 + Nat.log2 env.hw + 1 - Nat.log2 env.hw = d + 1 + 1 by omega]

/-- C91, fast tries. -/
theorem C91_fast_runs_exact {lg pad h : Nat} (hlg : 3 ≤ lg ∧ lg ≤ 6) {cs : List (Bool × List Nat)} {Ts : List FNav}
    (hTs : List.Forall₂ (FastCoded lg pad h) cs Ts) (hne : Ts ≠ []) (hlen : Ts.length ≤ 16)
    (env : Env) (hw : env.hw ≠ 0) (hw2 : env.hw < 2 ^ 32) (hcut : Nat.log2 env.hw + 2 ≤ h) :
    fastIntersect lg Ts true true env = orDivide (wideResult cs (h - 1 - Nat.log2 env.hw + lg) (Nat.log2 env.hw)) := by
  obtain ⟨d, hd⟩ : ∃ d, h - 1 = d + 1 + Nat.log2 env.hw := ⟨h - 2 - Nat.log2 env.hw, by omega⟩
  obtain ⟨e, rfl⟩ : ∃ e, h = e + 1 := ⟨h - 1, by omega⟩
  rw [Nat.add_sub_cancel] at hd
  subst hd
  have hcs : cs ≠ [] := by rintro rfl; cases hTs; exact hne rfl
  obtain ⟨ts, h1, h2⟩ := forall2_trees (Q := fun n t => Rep n.toNav (leafW lg n) (d + 1 + Nat.log2 env.hw) 0 t 0)
    (Q' := CTree lg (d + 1 + Nat.log2 env.hw)) hTs fun _ _ H => H.tree hlg
  have hd : d + 1 + Nat.log2 env.hw + lg ≤ 62 := by
    cases hTs with
    | nil => exact (hne rfl).elim
    | cons h _ => exact (h.toRuns.holds hlg).depth
  have hh := forall2_imp_right hTs fun _ _ h => (h.toRuns.holds hlg).height
  rw [Nat.add_sub_cancel] at hh
  have := par_body_wide FNav.toNav (leafW lg) (runs := true) (c := fastCfg lg Ts (d + 1 + Nat.log2 env.hw + 1)) (height := d + 1 + Nat.log2 env.hw + 1)
    hne (fast_leafOK hlg.2 Ts _) (fast_leafOKR hlg.2 Ts _) h1 hlen (by rfl) (by simp only [fastCfg]; omega)
    (by simp only [fastCfg]; omega) hw hw2 (by omega)
  rw [wideOut_eq (agree_of h2 hcs)] at this
  rw [fastIntersect_unfold hne hh, this, show d + 1 + Nat.log2 env.hw + 1 - 1 - Nat.log2 env.hw + lg = d + 1 + lg by omega]

/-- The run-encoded tries of `C12_parallel_runs_result_partial`. -/
example : wideResult [(true, Ex.sA), (true, Ex.sB)] 2 2 = some [14] ∧ wideResult [(false, Ex.sA), (true, Ex.sB)] 2 2 = some [8, 14] ∧
    wideResult [(true, Ex.sC), (true, Ex.sC)] 2 2 = some [8, 9, 10, 11, 12, 13, 14, 15, 0] ∧
    wideResult [(true, Ex.sW), (false, [3, 17, 31])] 4 2 = some [17, 31] := by decide +kernel

/-! ## A set for which this happens -/

theorem commonBlocks_range_eq {n j m : Nat} (hn : n ≤ 2 ^ m) : commonBlocks [List.range (n * 2 ^ j)] j m = List.range n := by
  apply sorted_ext
  · exact List.Pairwise.filter _ List.pairwise_lt_range
  · exact List.pairwise_lt_range
  · intro k
    have hp := Nat.two_pow_pos j
    rw [commonBlocks, List.mem_filter, List.mem_range, List.mem_range, meetsAll_iff]
    constructor
    · rintro ⟨-, h⟩
      obtain ⟨x, hx, rfl⟩ := h _ List.mem_cons_self
      exact (Nat.div_lt_iff_lt_mul hp).2 (List.mem_range.1 hx)
    · intro h
      refine ⟨by omega, fun S hS => ?_⟩
      rw [List.mem_singleton.1 hS]
      exact ⟨k * 2 ^ j, List.mem_range.2 ((Nat.mul_lt_mul_right hp).2 h), Nat.mul_div_cancel _ hp⟩

/-- C91: with 131072 hardware threads, of the numbers below 262148 in a universe of 524288, intersected with themselves, the first four
are returned. -/
theorem C91_first_four_negation : ∃ (S : List Nat) (T : Nav), PlainTrie 0 19 S T ∧ S = List.range 262148 ∧
    intersect [T] false true ⟨2 ^ 17, [], []⟩ = .ok [0, 1, 2, 3] ∧ intersect [T] false false ⟨2 ^ 17, [], []⟩ = .ok S := by
  obtain ⟨T, hT⟩ := range_flat (n := 262148) (d := 18) (by omega) (by omega) (by omega) (by omega) 0
  have hTs : List.Forall₂ (PlainTrie 0 19) [List.range 262148] [T] := .cons hT .nil
  have hlog : Nat.log2 (2 ^ 17) = 17 := Nat.log2_two_pow
  refine ⟨_, T, hT, rfl, ?_, ?_⟩
  · rw [C91_exact hTs (by simp) (by simp) false _ (by simp) (by simp) (by rw [hlog])]
    simp only [hlog, show 19 - 17 = 2 from rfl]
    have e1 : keptCommon [List.range 262148] 2 17 = [0] := by
      rw [keptCommon, show 262148 = 65537 * 2 ^ 2 from rfl, commonBlocks_range_eq (by omega), List.length_range,
        show 65537 % 2 ^ 16 = 1 from rfl, List.take_range]
      rfl
    have e2 : keptHalves [List.range 262148] 2 17 = [0, 1] := by
      apply sorted_ext
      · exact List.Pairwise.filter _ (List.Pairwise.filter _ List.pairwise_lt_range)
      · simp
      · intro k
        rw [keptHalves, List.mem_filter, e1, decide_eq_true_eq, show 2 - 1 = 1 from rfl, show 17 + 1 = 18 from rfl,
          show 262148 = 131074 * 2 ^ 1 from rfl, commonBlocks_range_eq (by omega)]
        simp only [List.mem_range, List.mem_cons, List.not_mem_nil, or_false]
        omega
    have e3 : elementsIn [List.range 262148] (2 + 17) 1 [0, 1] = [0, 1, 2, 3] := by
      apply sorted_ext
      · exact List.Pairwise.filter _ List.pairwise_lt_range
      · decide
      · intro x
        rw [elementsIn, List.mem_filter]
        simp only [List.all_cons, List.all_nil, Bool.and_true, Bool.and_eq_true, decide_eq_true_eq, List.mem_range, List.mem_cons,
          List.not_mem_nil, or_false]
        omega
    rw [widePlain, if_neg (by omega), e2, if_neg (by decide), show [0, 1].length % 2 ^ 16 = 2 from rfl,
      show List.take 2 [0, 1] = [0, 1] from rfl, show (2 : Nat) - 1 = 1 from rfl, e3]
    rfl
  · obtain ⟨R, h1, h2⟩ := C07_seq_intersect_plain hTs (by simp) (by simp) ⟨2 ^ 17, [], []⟩ (by simp)
    rw [h1, IsIntersection.unique h2 (isInter_range _)]

end CBT
