import Verif.Props.ExactRuns
import Verif.Proof.VisitedSets

/-!
# C58 and C90, run-aware parallel calls: exactly what is read
-/

namespace CBT

open Spec

theorem costBody_shallow {Ts : List Nav} {c : CfgC} {height : Nat} {env : Env} (h : ¬ Nat.log2 env.hw ≤ (height + 2 ^ 64 - 2) % 2 ^ 64)
    (runs parallel : Bool) : costBody Ts c height runs parallel env = costBody Ts c height runs false env := by
  rw [costBody, costBody]
  simp only [h, and_false, if_false]

/-- C58, run-aware parallel calls on tries deep enough for the threads: a node of each trie is read exactly for each visited block larger
than 1 that is not inside a larger collapsed block of that trie; likewise the moves to children. -/
theorem C58_runs_parallel_exact {pad h : Nat} {cs : List (Bool × List Nat)} {Ts : List Nav} (hTs : List.Forall₂ (CodedTrie pad h) cs Ts)
    (hne : Ts ≠ []) (hlen : Ts.length ≤ 16) (env : Env) (hw : env.hw ≠ 0) (hw2 : env.hw < 2 ^ 16) (hcut : Nat.log2 env.hw + 2 ≤ h) :
    costIntersect Ts true true env = .ok (runsResult cs (h - Nat.log2 env.hw) (Nat.log2 env.hw),
      ⟨visitedAbove cs (h - Nat.log2 env.hw) (Nat.log2 env.hw) 0, visitedForksAbove cs (h - Nat.log2 env.hw) (Nat.log2 env.hw) 1, 0⟩) := by
  have e0 := C12_parallel_runs_result_partial hTs hne hlen env hw hw2 hcut
  rw [← costIntersect_map] at e0
  obtain ⟨κ, e1⟩ := map_fst_ok e0
  rw [e1]
  obtain ⟨d, hd⟩ : ∃ d, h - 1 = d + 1 + Nat.log2 env.hw := ⟨h - 2 - Nat.log2 env.hw, by omega⟩
  obtain ⟨e, rfl⟩ : ∃ e, h = e + 1 := ⟨h - 1, by omega⟩
  rw [Nat.add_sub_cancel] at hd
  subst hd
  have hcs : cs ≠ [] := by rintro rfl; cases hTs; exact hne rfl
  obtain ⟨ts, h1, h2⟩ := forall2_trees (Q := fun n t => Rep n (leafF n) (d + 1 + Nat.log2 env.hw) 0 t 0)
    (Q' := CTree 1 (d + 1 + Nat.log2 env.hw)) hTs fun _ _ H => H.tree
  have hd : d + 1 + Nat.log2 env.hw ≤ 62 := by
    cases hTs with
    | nil => exact (hne rfl).elim
    | cons h _ => exact h.runs.holds.depth
  have hh := forall2_imp_right hTs fun _ _ h => h.runs.holds.height
  rw [Nat.add_sub_cancel] at hh
  rw [costIntersect_unfold hne hh, ← List.map_id Ts] at e1
  have hκ := costBody_par_runs id leafF (flat_leafOKRc Ts (d + 1 + Nat.log2 env.hw + 1)) hne h1 hlen (by rfl) (by rfl)
    (show d + 1 + Nat.log2 env.hw + 1 < 64 by omega) hw hw2 (by omega) e1
  have := parCostR_sets (J := d + 1 + 1) h2 hcs rfl ⟨1, 0, 0⟩
  simp only [Nat.one_mul, Nat.zero_mul, Nat.add_zero] at this
  rw [h1.length_eq, this] at hκ
  rw [hκ, show d + 1 + Nat.log2 env.hw + 1 - Nat.log2 env.hw = d + 1 + 1 by omega, visitedAbove_zero _ _ _ (by omega)]

/-- C58, fast tries: likewise, with a word for each visited block of the size of a word. -/
theorem C58_fast_runs_parallel_exact {lg pad h : Nat} (hlg : 3 ≤ lg ∧ lg ≤ 6) {cs : List (Bool × List Nat)} {Ts : List FNav}
    (hTs : List.Forall₂ (FastCoded lg pad h) cs Ts) (hne : Ts ≠ []) (hlen : Ts.length ≤ 16)
    (env : Env) (hw : env.hw ≠ 0) (hw2 : env.hw < 2 ^ 16) (hcut : Nat.log2 env.hw + 2 ≤ h) {J : Nat} (hJ : J = h - 1 - Nat.log2 env.hw + lg) :
    costFastIntersect lg Ts true true env = .ok (runsResult cs J (Nat.log2 env.hw),
      ⟨visitedAbove cs J (Nat.log2 env.hw) lg, visitedForksAbove cs J (Nat.log2 env.hw) lg, visitedAt cs J (Nat.log2 env.hw) lg⟩) := by
  have e0 := C13_fast_parallel_runs_result_partial hlg hTs hne hlen env hw hw2 hcut
  rw [← costFastIntersect_map, ← hJ] at e0
  obtain ⟨κ, e1⟩ := map_fst_ok e0
  rw [e1]
  obtain ⟨d, hd⟩ : ∃ d, h - 1 = d + 1 + Nat.log2 env.hw := ⟨h - 2 - Nat.log2 env.hw, by omega⟩
  obtain ⟨e, rfl⟩ : ∃ e, h = e + 1 := ⟨h - 1, by omega⟩
  rw [Nat.add_sub_cancel] at hd
  subst hd
  have hcs : cs ≠ [] := by rintro rfl; cases hTs; exact hne rfl
  obtain ⟨ts, h1, h2⟩ := forall2_trees (Q := fun n t => Rep n.toNav (leafW lg n) (d + 1 + Nat.log2 env.hw) 0 t 0)
    (Q' := CTree lg (d + 1 + Nat.log2 env.hw)) hTs fun _ _ H => H.tree hlg
  have hd : d + 1 + Nat.log2 env.hw + lg ≤ 62 := by
    cases hTs with
    | nil => exact (hne rfl).elim
    | cons h _ => exact (h.toRuns.holds hlg).depth
  have hh := forall2_imp_right hTs fun _ _ h => (h.toRuns.holds hlg).height
  rw [Nat.add_sub_cancel] at hh
  rw [costFastIntersect_unfold hne hh] at e1
  have hκ := costBody_par_runs FNav.toNav (leafW lg) (fast_leafOKRc hlg.2 Ts (d + 1 + Nat.log2 env.hw + 1)) hne h1 hlen (by rfl)
    (by simp only [fastCfgC, fastCfg]; omega) (by simp only [fastCfgC, fastCfg]; omega) hw hw2 (by omega) e1
  have := parCostR_sets (J := J) h2 hcs (by omega) ⟨0, 0, 1⟩
  simp only [Nat.one_mul, Nat.zero_mul, Nat.add_zero] at this
  rw [h1.length_eq, this] at hκ
  rw [hκ]

/-- C58, run-aware parallel calls on tries too shallow for the threads: what the sequential call reads. -/
theorem C58_runs_parallel_shallow {pad h : Nat} {cs : List (Bool × List Nat)} {Ts : List Nav} (hTs : List.Forall₂ (CodedTrie pad h) cs Ts)
    (hne : Ts ≠ []) (hlen : Ts.length ≤ 16) (env : Env) (hw : env.hw ≠ 0) (h2 : 2 ≤ h) (hcut : h < Nat.log2 env.hw + 2) :
    ∃ R, costIntersect Ts true true env = .ok (R, ⟨openAbove cs h 0, openForksAbove cs h 1, 0⟩) ∧ IsIntersection (cs.map Prod.snd) R := by
  obtain ⟨R, h1, h3⟩ := C58_runs_reads hTs hne hlen env hw
  have hd : h - 1 ≤ 62 := by
    cases hTs with
    | nil => exact (hne rfl).elim
    | cons h _ => exact h.runs.holds.depth
  have hh := forall2_imp_right hTs fun _ _ h => h.runs.holds.height
  rw [costIntersect_unfold hne hh] at h1
  exact ⟨R, by rw [costIntersect_unfold hne hh, costBody_shallow (by omega)]; exact h1, h3⟩

theorem C58_fast_runs_parallel_shallow {lg pad h : Nat} (hlg : 3 ≤ lg ∧ lg ≤ 6) {cs : List (Bool × List Nat)} {Ts : List FNav}
    (hTs : List.Forall₂ (FastCoded lg pad h) cs Ts) (hne : Ts ≠ []) (hlen : Ts.length ≤ 16) (env : Env) (hw : env.hw ≠ 0) (h2 : 2 ≤ h)
    (hcut : h < Nat.log2 env.hw + 2) :
    ∃ R, costFastIntersect lg Ts true true env =
        .ok (R, ⟨openAbove cs (h - 1 + lg) lg, openForksAbove cs (h - 1 + lg) lg, openAt cs (h - 1 + lg) lg⟩) ∧
      IsIntersection (cs.map Prod.snd) R := by
  obtain ⟨R, h1, h3⟩ := C58_fast_runs_reads hlg hTs hne hlen env hw
  have hd : h - 1 + lg ≤ 62 := by
    cases hTs with
    | nil => exact (hne rfl).elim
    | cons h _ => exact (h.toRuns.holds hlg).depth
  have hh := forall2_imp_right hTs fun _ _ h => (h.toRuns.holds hlg).height
  rw [costFastIntersect_unfold hne hh] at h1
  exact ⟨R, by rw [costFastIntersect_unfold hne hh, costBody_shallow (by omega)]; exact h1, h3⟩

/-- On four threads the result is short of six elements and four nodes are not read; on eight the tries are too shallow. -/
example : List.Forall₂ (CodedTrie 0 4) [(true, Ex.sA), (true, Ex.sB)] [Ex.levelA.nav false 0, Ex.levelB.nav false 0] ∧
    runsResult [(true, Ex.sA), (true, Ex.sB)] 2 2 = [14] ∧ visitedAbove [(true, Ex.sA), (true, Ex.sB)] 2 2 0 = 12 ∧
    visitedForksAbove [(true, Ex.sA), (true, Ex.sB)] 2 2 1 = 6 ∧ openAbove [(true, Ex.sA), (true, Ex.sB)] 4 0 = 16 ∧
    costIntersect [Ex.levelA.nav false 0, Ex.levelB.nav false 0] true true ⟨4, [], []⟩ = .ok ([14], ⟨12, 6, 0⟩) ∧
    costIntersect [Ex.levelA.nav false 0, Ex.levelB.nav false 0] true true ⟨8, [], []⟩ = .ok ([0, 1, 2, 3, 5, 8, 14], ⟨16, 9, 0⟩) :=
  ⟨.cons Ex.levelA_coded (.cons Ex.levelB_coded .nil), by decide +kernel⟩

/-- A run-encoded fast trie with a plain one on four threads: the block of 16 that is full in the first only is not looked into. -/
example : List.Forall₂ (FastCoded 3 0 4) [(true, Ex.sW), (false, [3, 17, 31])] [Ex.fastD.nav 0, Ex.fastE.nav 0] ∧
    costFastIntersect 3 [Ex.fastD.nav 0, Ex.fastE.nav 0] true true ⟨4, [], []⟩ =
      .ok (runsResult [(true, Ex.sW), (false, [3, 17, 31])] 4 2, ⟨visitedAbove [(true, Ex.sW), (false, [3, 17, 31])] 4 2 3,
        visitedForksAbove [(true, Ex.sW), (false, [3, 17, 31])] 4 2 3, visitedAt [(true, Ex.sW), (false, [3, 17, 31])] 4 2 3⟩) ∧
    visitedAbove [(true, Ex.sW), (false, [3, 17, 31])] 4 2 3 = 8 ∧ visitedAt [(true, Ex.sW), (false, [3, 17, 31])] 4 2 3 <
      openAt [(true, Ex.sW), (false, [3, 17, 31])] 6 3 :=
  ⟨.cons Ex.fastD_coded (.cons (.plain Ex.fastE_plain) .nil), by decide +kernel⟩

/-- C58: when no block of at least the size handed to threads is collapsed in some tries and not in all, which is when the result is
complete, the parallel call reads exactly what the sequential one does. -/
theorem C58_runs_parallel_even {pad h : Nat} {cs : List (Bool × List Nat)} {Ts : List Nav} (hTs : List.Forall₂ (CodedTrie pad h) cs Ts)
    (hne : Ts ≠ []) (hlen : Ts.length ≤ 16) (env env' : Env) (hw : env.hw ≠ 0) (hw2 : env.hw < 2 ^ 16) (hw' : env'.hw ≠ 0)
    (hcut : Nat.log2 env.hw + 2 ≤ h) (hu : ¬ ∃ x, x < 2 ^ h ∧ uneven cs h (h - Nat.log2 env.hw) x) :
    ∃ R R' κ, costIntersect Ts true true env = .ok (R, κ) ∧ costIntersect Ts true false env' = .ok (R', κ) := by
  obtain ⟨R, h1, -⟩ := C58_runs_reads hTs hne hlen env' hw'
  have ht : h - Nat.log2 env.hw + Nat.log2 env.hw = h := by omega
  refine ⟨_, R, _, C58_runs_parallel_exact hTs hne hlen env hw hw2 hcut, ?_⟩
  rw [visitedAbove_even (by rwa [ht]), visitedForksAbove_even (by rwa [ht]), ht]
  exact h1

theorem C58_fast_runs_parallel_even {lg pad h : Nat} (hlg : 3 ≤ lg ∧ lg ≤ 6) {cs : List (Bool × List Nat)} {Ts : List FNav}
    (hTs : List.Forall₂ (FastCoded lg pad h) cs Ts) (hne : Ts ≠ []) (hlen : Ts.length ≤ 16) (env env' : Env) (hw : env.hw ≠ 0)
    (hw2 : env.hw < 2 ^ 16) (hw' : env'.hw ≠ 0) (hcut : Nat.log2 env.hw + 2 ≤ h)
    (hu : ¬ ∃ x, x < 2 ^ (h - 1 + lg) ∧ uneven cs (h - 1 + lg) (h - 1 - Nat.log2 env.hw + lg) x) :
    ∃ R R' κ, costFastIntersect lg Ts true true env = .ok (R, κ) ∧ costFastIntersect lg Ts true false env' = .ok (R', κ) := by
  obtain ⟨R, h1, -⟩ := C58_fast_runs_reads hlg hTs hne hlen env' hw'
  have ht : h - 1 - Nat.log2 env.hw + lg + Nat.log2 env.hw = h - 1 + lg := by omega
  refine ⟨_, R, _, C58_fast_runs_parallel_exact hlg hTs hne hlen env hw hw2 hcut rfl, ?_⟩
  rw [visitedAbove_even (by rwa [ht]), visitedForksAbove_even (by rwa [ht]), visitedAt_even (by rwa [ht]), ht]
  exact h1

/-- On two threads: no block of 8 or more is full in one of the sets only. -/
example : ¬ ∃ x, x < 2 ^ 4 ∧ uneven [(true, Ex.sA), (true, Ex.sA)] 4 (4 - Nat.log2 2) x := by
  rintro ⟨x, -, i, -, -, h3, h4⟩
  simp only [someCollapsed, allCollapsed, List.any_cons, List.all_cons, List.any_nil, List.all_nil, Bool.or_false, Bool.and_true, Bool.or_self,
    Bool.and_self] at h3 h4
  rw [h3] at h4
  cases h4

/-! ## C90 -/

/-- C90, run-aware parallel calls: the order of the tries changes neither the result nor what is read, nor does it matter which of the classes
represents a set. -/
theorem C90_runs_parallel_order {pad pad' h : Nat} {cs cs' : List (Bool × List Nat)} {Ts Ts' : List Nav}
    (hTs : List.Forall₂ (CodedTrie pad h) cs Ts) (hTs' : List.Forall₂ (CodedTrie pad' h) cs' Ts') (hperm : cs.Perm cs') (hne : Ts ≠ [])
    (hlen : Ts.length ≤ 16) (env env' : Env) (hw : env.hw ≠ 0) (hw2 : env.hw < 2 ^ 16) (hw' : env'.hw < 2 ^ 16)
    (he : Nat.log2 env'.hw = Nat.log2 env.hw) (hw0 : env'.hw ≠ 0) (h2 : 2 ≤ h) :
    ∃ R κ, costIntersect Ts true true env = .ok (R, κ) ∧ costIntersect Ts' true true env' = .ok (R, κ) := by
  have hl : Ts'.length = Ts.length := by rw [← hTs'.length_eq, ← hperm.length_eq, hTs.length_eq]
  have hne' : Ts' ≠ [] := fun e => hne (List.length_eq_zero_iff.1 (by rw [← hl, e]; rfl))
  by_cases hcut : Nat.log2 env.hw + 2 ≤ h
  · have h1 := C58_runs_parallel_exact hTs hne hlen env hw hw2 hcut
    have h2 := C58_runs_parallel_exact hTs' hne' (by omega) env' hw0 hw' (by omega)
    rw [he, ← visitedAbove_perm hperm, ← visitedForksAbove_perm hperm, ← runsResult_perm hperm] at h2
    exact ⟨_, _, h1, h2⟩
  · obtain ⟨R, h1, i1⟩ := C58_runs_parallel_shallow hTs hne hlen env hw h2 (by omega)
    obtain ⟨R', h3, i3⟩ := C58_runs_parallel_shallow hTs' hne' (by omega) env' hw0 h2 (by omega)
    have e : R = R' := IsIntersection.unique i1 ⟨i3.1, fun x => (i3.2 x).trans
      ⟨fun H S hS => H S ((hperm.map _).mem_iff.1 hS), fun H S hS => H S ((hperm.map _).mem_iff.2 hS)⟩⟩
    rw [← openAbove_perm hperm, ← openForksAbove_perm hperm] at h3
    exact ⟨R, _, h1, e ▸ h3⟩

theorem C90_fast_runs_parallel_order {lg pad pad' h : Nat} (hlg : 3 ≤ lg ∧ lg ≤ 6) {cs cs' : List (Bool × List Nat)} {Ts Ts' : List FNav}
    (hTs : List.Forall₂ (FastCoded lg pad h) cs Ts) (hTs' : List.Forall₂ (FastCoded lg pad' h) cs' Ts') (hperm : cs.Perm cs') (hne : Ts ≠ [])
    (hlen : Ts.length ≤ 16) (env env' : Env) (hw : env.hw ≠ 0) (hw2 : env.hw < 2 ^ 16) (hw' : env'.hw < 2 ^ 16)
    (he : Nat.log2 env'.hw = Nat.log2 env.hw) (hw0 : env'.hw ≠ 0) (h2 : 2 ≤ h) :
    ∃ R κ, costFastIntersect lg Ts true true env = .ok (R, κ) ∧ costFastIntersect lg Ts' true true env' = .ok (R, κ) := by
  have hl : Ts'.length = Ts.length := by rw [← hTs'.length_eq, ← hperm.length_eq, hTs.length_eq]
  have hne' : Ts' ≠ [] := fun e => hne (List.length_eq_zero_iff.1 (by rw [← hl, e]; rfl))
  by_cases hcut : Nat.log2 env.hw + 2 ≤ h
  · have h1 := C58_fast_runs_parallel_exact hlg hTs hne hlen env hw hw2 hcut rfl
    have h2 := C58_fast_runs_parallel_exact hlg hTs' hne' (by omega) env' hw0 hw' (by omega) rfl
    rw [he, ← visitedAbove_perm hperm, ← visitedForksAbove_perm hperm, ← visitedAt_perm hperm, ← runsResult_perm hperm] at h2
    exact ⟨_, _, h1, h2⟩
  · obtain ⟨R, h1, i1⟩ := C58_fast_runs_parallel_shallow hlg hTs hne hlen env hw h2 (by omega)
    obtain ⟨R', h3, i3⟩ := C58_fast_runs_parallel_shallow hlg hTs' hne' (by omega) env' hw0 h2 (by omega)
    have e : R = R' := IsIntersection.unique i1 ⟨i3.1, fun x => (i3.2 x).trans
      ⟨fun H S hS => H S ((hperm.map _).mem_iff.1 hS), fun H S hS => H S ((hperm.map _).mem_iff.2 hS)⟩⟩
    rw [← openAbove_perm hperm, ← openForksAbove_perm hperm, ← openAt_perm hperm] at h3
    exact ⟨R, _, h1, e ▸ h3⟩

/-- The other order, and fewer elements than the sets share. -/
example : List.Perm [(true, Ex.sA), (true, Ex.sB)] [(true, Ex.sB), (true, Ex.sA)] ∧
    costIntersect [Ex.levelB.nav false 0, Ex.levelA.nav false 0] true true ⟨5, [0, 1], [1]⟩ = .ok ([14], ⟨12, 6, 0⟩) :=
  ⟨List.Perm.swap _ _ _, by decide +kernel⟩

/-- C90, run-aware parallel calls on machines with equally many threads: adding tries adds at most, for each of them, one node for every
block that all sets meet, though other blocks are replaced by their halves and other elements lost. -/
theorem C90_runs_parallel_added {pad pad' h : Nat} {cs ds : List (Bool × List Nat)} {Ts Ts' : List Nav} (hTs : List.Forall₂ (CodedTrie pad h) cs Ts)
    (hTs' : List.Forall₂ (CodedTrie pad' h) (cs ++ ds) Ts') (hne : Ts ≠ []) (hlen' : Ts'.length ≤ 16) (env env' : Env)
    (hw : env.hw ≠ 0) (hw2 : env.hw < 2 ^ 16) (hw' : env'.hw < 2 ^ 16) (he : Nat.log2 env'.hw = Nat.log2 env.hw) (hw0 : env'.hw ≠ 0) (h2 : 2 ≤ h) :
    ∃ R R' κ κ', costIntersect Ts true true env = .ok (R, κ) ∧ costIntersect Ts' true true env' = .ok (R', κ') ∧
      κ'.nodes ≤ κ.nodes + ds.length * commonAbove ((cs ++ ds).map Prod.snd) h 0 ∧
      κ'.moves ≤ κ.moves + ds.length * forksAbove ((cs ++ ds).map Prod.snd) h 1 ∧
      ∀ c ∈ cs ++ ds, commonAbove ((cs ++ ds).map Prod.snd) h 0 ≤ h * c.2.length := by
  have l1 := hTs.length_eq
  have l2 := hTs'.length_eq
  rw [List.length_append] at l2
  have hne' : Ts' ≠ [] := fun e => hne (List.length_eq_zero_iff.1 (by rw [e, List.length_nil] at l2; omega))
  have hc := fun c (hc : c ∈ cs ++ ds) => commonAbove_le (sets := (cs ++ ds).map Prod.snd) (List.mem_map.2 ⟨c, hc, rfl⟩) h 0
  by_cases hcut : Nat.log2 env.hw + 2 ≤ h
  · have h1 := C58_runs_parallel_exact hTs hne (by omega) env hw hw2 hcut
    have h2 := C58_runs_parallel_exact hTs' hne' hlen' env' hw0 hw' (by omega)
    rw [he] at h2
    have ht : h - Nat.log2 env.hw + Nat.log2 env.hw = h := by omega
    have a1 := visitedAbove_add cs ds (h - Nat.log2 env.hw) (Nat.log2 env.hw) 0
    have a2 := visitedForksAbove_add cs ds (h - Nat.log2 env.hw) (Nat.log2 env.hw) 1
    rw [ht] at a1 a2
    exact ⟨_, _, _, _, h1, h2, a1, a2, hc⟩
  · obtain ⟨R, h1, -⟩ := C58_runs_parallel_shallow hTs hne (by omega) env hw h2 (by omega)
    obtain ⟨R', h3, -⟩ := C58_runs_parallel_shallow hTs' hne' hlen' env' hw0 h2 (by omega)
    exact ⟨R, R', _, _, h1, h3, openAbove_add cs ds h 0, openForksAbove_add cs ds h 1, hc⟩

theorem C90_fast_runs_parallel_added {lg pad pad' h : Nat} (hlg : 3 ≤ lg ∧ lg ≤ 6) {cs ds : List (Bool × List Nat)} {Ts Ts' : List FNav}
    (hTs : List.Forall₂ (FastCoded lg pad h) cs Ts) (hTs' : List.Forall₂ (FastCoded lg pad' h) (cs ++ ds) Ts') (hne : Ts ≠ [])
    (hlen' : Ts'.length ≤ 16) (env env' : Env) (hw : env.hw ≠ 0) (hw2 : env.hw < 2 ^ 16) (hw' : env'.hw < 2 ^ 16)
    (he : Nat.log2 env'.hw = Nat.log2 env.hw) (hw0 : env'.hw ≠ 0) (h2 : 2 ≤ h) :
    ∃ R R' κ κ', costFastIntersect lg Ts true true env = .ok (R, κ) ∧ costFastIntersect lg Ts' true true env' = .ok (R', κ') ∧
      κ'.nodes ≤ κ.nodes + ds.length * commonAbove ((cs ++ ds).map Prod.snd) (h - 1 + lg) lg ∧
      κ'.moves ≤ κ.moves + ds.length * forksAbove ((cs ++ ds).map Prod.snd) (h - 1 + lg) lg ∧
      κ'.words ≤ κ.words + ds.length * commonCount ((cs ++ ds).map Prod.snd) (h - 1 + lg) lg := by
  have l1 := hTs.length_eq
  have l2 := hTs'.length_eq
  rw [List.length_append] at l2
  have hne' : Ts' ≠ [] := fun e => hne (List.length_eq_zero_iff.1 (by rw [e, List.length_nil] at l2; omega))
  by_cases hcut : Nat.log2 env.hw + 2 ≤ h
  · have h1 := C58_fast_runs_parallel_exact hlg hTs hne (by omega) env hw hw2 hcut rfl
    have h2 := C58_fast_runs_parallel_exact hlg hTs' hne' hlen' env' hw0 hw' (by omega) rfl
    rw [he] at h2
    have ht : h - 1 - Nat.log2 env.hw + lg + Nat.log2 env.hw = h - 1 + lg := by omega
    have a1 := visitedAbove_add cs ds (h - 1 - Nat.log2 env.hw + lg) (Nat.log2 env.hw) lg
    have a2 := visitedForksAbove_add cs ds (h - 1 - Nat.log2 env.hw + lg) (Nat.log2 env.hw) lg
    have a3 := visitedAt_add cs ds (h - 1 - Nat.log2 env.hw + lg) (Nat.log2 env.hw) lg
    rw [ht] at a1 a2 a3
    exact ⟨_, _, _, _, h1, h2, a1, a2, a3⟩
  · obtain ⟨R, h1, -⟩ := C58_fast_runs_parallel_shallow hlg hTs hne (by omega) env hw h2 (by omega)
    obtain ⟨R', h3, -⟩ := C58_fast_runs_parallel_shallow hlg hTs' hne' hlen' env' hw0 h2 (by omega)
    exact ⟨R, R', _, _, h1, h3, openAbove_add cs ds _ lg, openForksAbove_add cs ds _ lg, openAt_add cs ds _ lg⟩

/-- A third trie on four threads. -/
example : List.Forall₂ (CodedTrie 0 4) ([(true, Ex.sA), (true, Ex.sB)] ++ [(true, Ex.sC)])
      [Ex.levelA.nav false 0, Ex.levelB.nav false 0, Ex.levelC.nav false 0] ∧
    costIntersect [Ex.levelA.nav false 0, Ex.levelB.nav false 0] true true ⟨4, [], []⟩ = .ok ([14], ⟨12, 6, 0⟩) ∧
    costIntersect [Ex.levelA.nav false 0, Ex.levelB.nav false 0, Ex.levelC.nav false 0] true true ⟨4, [], []⟩ =
      .ok (runsResult [(true, Ex.sA), (true, Ex.sB), (true, Ex.sC)] 2 2, ⟨visitedAbove [(true, Ex.sA), (true, Ex.sB), (true, Ex.sC)] 2 2 0,
        visitedForksAbove [(true, Ex.sA), (true, Ex.sB), (true, Ex.sC)] 2 2 1, 0⟩) :=
  ⟨.cons Ex.levelA_coded (.cons Ex.levelB_coded (.cons Ex.levelC_coded .nil)), by decide +kernel⟩

end CBT
