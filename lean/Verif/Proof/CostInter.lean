import Verif.Proof.CostPar
import Verif.Proof.CostRunsSets

/-!
# The counters of `Intersect`, from the sets
-/

namespace CBT

open Spec

theorem costIntersect_map (Ts : List Nav) (runs parallel : Bool) (env : Env) :
    (costIntersect Ts runs parallel env).map Prod.fst = intersect Ts runs parallel env := by
  cases Ts with
  | nil => rfl
  | cons T Ts =>
    rw [costIntersect, intersect]
    split
    · rfl
    · exact costBody_map _ (flatCfgC_erases _) _ _ _ _

theorem costFastIntersect_map (lg : Nat) (Ts : List FNav) (runs parallel : Bool) (env : Env) :
    (costFastIntersect lg Ts runs parallel env).map Prod.fst = fastIntersect lg Ts runs parallel env := by
  cases Ts with
  | nil => rfl
  | cons T Ts =>
    rw [costFastIntersect, fastIntersect]
    split
    · rfl
    · split
      · rfl
      · exact costBody_map _ (fastCfgC_erases _ _ _) _ _ _ _

theorem costIntersect_unfold {d : Nat} {Ts : List Nav} (hne : Ts ≠ []) (hh : ∀ n ∈ Ts, n.height = d + 1) (runs parallel : Bool)
    (env : Env) : costIntersect Ts runs parallel env = costBody Ts (flatCfgC (d + 1)) (d + 1) runs parallel env := by
  cases Ts with
  | nil => exact (hne rfl).elim
  | cons T Ts =>
    have h0 : T.height = d + 1 := hh T (by simp)
    rw [costIntersect, h0, if_neg]
    simp only [List.any_eq_true, not_exists, not_and, decide_eq_true_eq, not_not]
    exact fun n hn => hh n hn

theorem costFastIntersect_unfold {lg d : Nat} {Ts : List FNav} (hne : Ts ≠ []) (hh : ∀ n ∈ Ts, n.height = d + 1) (runs parallel : Bool)
    (env : Env) : costFastIntersect lg Ts runs parallel env =
      costBody (Ts.map FNav.toNav) (fastCfgC lg Ts (d + 1)) (d + 1) runs parallel env := by
  cases Ts with
  | nil => exact (hne rfl).elim
  | cons T Ts =>
    have h0 : T.height = d + 1 := hh T (by simp)
    rw [costFastIntersect, h0, if_neg, if_neg (by omega)]
    simp only [List.any_eq_true, not_exists, not_and, decide_eq_true_eq, not_not]
    exact fun n hn => hh n hn

theorem map_fst_ok {A B : Type} {x : R (A × B)} {a : A} (h : x.map Prod.fst = .ok a) : ∃ b, x = .ok (a, b) := by
  cases x with
  | error _ => cases h
  | ok y => exact ⟨y.2, by cases h; rfl⟩

/-! ## Sums over levels -/

theorem above_zero (f : Nat → Nat) (d : Nat) : ((List.range (d + 1 - 0)).map fun i => f (0 + 1 + i)).sum =
    ((List.range (d + 1 - 1)).map fun i => f (1 + 1 + i)).sum + f 1 := by
  rw [Nat.sub_zero, Nat.add_sub_cancel, List.range_succ_eq_map, List.map_cons, List.sum_cons, List.map_map, Nat.add_comm]
  congr 2
  refine List.map_congr_left fun i _ => ?_
  simp only [Function.comp]
  congr 1
  omega

theorem commonAbove_zero (sets : List (List Nat)) (d : Nat) :
    commonAbove sets (d + 1) 0 = commonAbove sets (d + 1) 1 + commonCount sets (d + 1) 1 := above_zero (commonCount sets (d + 1)) d

theorem openAbove_zero (cs : List (Bool × List Nat)) (d : Nat) :
    openAbove cs (d + 1) 0 = openAbove cs (d + 1) 1 + openAt cs (d + 1) 1 := above_zero (openAt cs (d + 1)) d

/-! ## Without runs, in any mode -/

theorem cost_intersect_plain {d : Nat} {sets : List (List Nat)} {Ts : List Nav} (h : List.Forall₂ (HoldsP d) sets Ts)
    (hne : Ts ≠ []) (hlen : Ts.length ≤ 16) {env : Env} (hw : env.hw ≠ 0) {parallel : Bool}
    (hp : parallel = true → 1 ≤ d ∧ env.hw < 2 ^ 16) {R : List Nat} {κ : Cost} (hx : costIntersect Ts false parallel env = .ok (R, κ)) :
    κ = ⟨sets.length * commonAbove sets (d + 1) 0, sets.length * forksAbove sets (d + 1) 1, 0⟩ := by
  obtain ⟨ts, h1, h2, h3⟩ := HoldsP.trees h
  have hd : d ≤ 62 := by
    cases h with
    | nil => exact (hne rfl).elim
    | cons h _ => exact h.depth
  rw [costIntersect_unfold hne (forall2_imp_right h fun _ _ h => h.height), ← List.map_id Ts] at hx
  have := costBody_plain id leafF (d := d) (flat_leafOKc Ts (d + 1)) h1 hlen (by rfl) (by rfl) (show d + 1 < 64 by omega) hw hp
    (by omega) (by simpa using hx)
  rw [this, treeCost_sets h2 h3 (forall2_imp_left h fun _ _ h => h.below), commonAbove_zero, h.length_eq]
  simp [Nat.mul_add]

theorem cost_fast_plain {lg d : Nat} (hlg : lg ≤ 6) {sets : List (List Nat)} {Ts : List FNav} (h : List.Forall₂ (FHoldsP lg d) sets Ts)
    (hne : Ts ≠ []) (hlen : Ts.length ≤ 16) {env : Env} (hw : env.hw ≠ 0) {parallel : Bool}
    (hp : parallel = true → 1 ≤ d ∧ env.hw < 2 ^ 16) {R : List Nat} {κ : Cost}
    (hx : costFastIntersect lg Ts false parallel env = .ok (R, κ)) :
    κ = ⟨sets.length * commonAbove sets (d + lg) lg, sets.length * forksAbove sets (d + lg) lg, sets.length * commonCount sets (d + lg) lg⟩ := by
  obtain ⟨ts, h1, h2, h3⟩ := FHoldsP.trees h
  have hd : d + lg ≤ 62 := by
    cases h with
    | nil => exact (hne rfl).elim
    | cons h _ => exact h.depth
  rw [costFastIntersect_unfold hne (forall2_imp_right h fun _ _ h => h.height)] at hx
  have := costBody_plain FNav.toNav (leafW lg) (d := d) (fast_leafOKc hlg Ts (d + 1)) h1 hlen (by rfl)
    (by simp only [fastCfgC, fastCfg]; omega) (by simp only [fastCfgC, fastCfg]; omega) hw hp (by omega) hx
  rw [this, treeCost_sets h2 h3 (forall2_imp_left h fun _ _ h => h.below), h.length_eq]
  simp

/-! ## With runs, sequentially -/

section
variable {α : Type} (nav : α → Nav) (leaf : α → Nat → Nat → Nat → Prop)

theorem actives_some {d : Nat} : (ts : List (Tr d)) → actives (ts.map some) = ts
  | [] => rfl
  | t :: ts => by
    have := actives_some ts
    simp only [actives] at this ⊢
    rw [List.map_cons, List.filterMap_cons, this]
    rfl

theorem costBody_runs {as : List α} {c : CfgC} {b e d height : Nat} {ts : List (Tr d)} {env : Env} {lc : Nat → Cost}
    (hc : LeafOKRc nav leaf as c b e lc)
    (hts : List.Forall₂ (fun a t => Rep (nav a) (leaf a) d 0 t 0) as ts) (hlen : as.length ≤ 16) (hstop : c.cfg.stop = d + e)
    (htop : c.cfg.top = d + b) (h64 : c.cfg.top < 64) (hw : env.hw ≠ 0) {R : List Nat} {κ : Cost}
    (hx : costBody (as.map nav) c height true false env = .ok (R, κ)) : κ = treeCostR lc d ts := by
  rw [costBody] at hx
  simp only [hw, if_false, Bool.false_eq_true, false_and, hstop, if_true] at hx
  rw [runsANDc_reps nav leaf hc h64 d 0 (ts.map some) _ _ 0 [] (RepsA.of_reps nav leaf _ _ _ _ (Reps.root nav leaf 16 hlen hts)
    (by simpa using hlen) (by simp)) (by omega) (dvd_zero _), actives_some] at hx
  cases hx
  rfl

end

theorem cost_runs_seq {d : Nat} (hd : d ≤ 62) {cs : List (Bool × List Nat)} {Ts : List Nav} {ts : List (Tr d)}
    (h1 : List.Forall₂ (fun n t => Rep n (leafF n) d 0 t 0) Ts ts) (h2 : List.Forall₂ (CTree 1 d) cs ts)
    (hh : ∀ n ∈ Ts, n.height = d + 1) (hne : Ts ≠ []) (hlen : Ts.length ≤ 16) {env : Env} (hw : env.hw ≠ 0) {R : List Nat} {κ : Cost}
    (hx : costIntersect Ts true false env = .ok (R, κ)) :
    κ = ⟨openAbove cs (d + 1) 0, openForksAbove cs (d + 1) 1, 0⟩ := by
  have hcs : cs ≠ [] := by rintro rfl; cases h2; cases h1; exact hne rfl
  rw [costIntersect_unfold hne hh, ← List.map_id Ts] at hx
  have := costBody_runs id leafF (d := d) (flat_leafOKRc Ts (d + 1)) h1 hlen (by rfl) (by rfl) (show d + 1 < 64 by omega) hw
    (by simpa using hx)
  rw [this, openAbove_zero]
  have := treeCostR_sets h2 hcs ⟨1, 0, 0⟩
  simpa using this

theorem cost_fast_runs_seq {lg d : Nat} (hlg : lg ≤ 6) (hd : d + lg ≤ 62) {cs : List (Bool × List Nat)} {Ts : List FNav} {ts : List (Tr d)}
    (h1 : List.Forall₂ (fun n t => Rep n.toNav (leafW lg n) d 0 t 0) Ts ts) (h2 : List.Forall₂ (CTree lg d) cs ts)
    (hh : ∀ n ∈ Ts, n.height = d + 1) (hne : Ts ≠ []) (hlen : Ts.length ≤ 16) {env : Env} (hw : env.hw ≠ 0) {R : List Nat} {κ : Cost}
    (hx : costFastIntersect lg Ts true false env = .ok (R, κ)) :
    κ = ⟨openAbove cs (d + lg) lg, openForksAbove cs (d + lg) lg, openAt cs (d + lg) lg⟩ := by
  have hcs : cs ≠ [] := by rintro rfl; cases h2; cases h1; exact hne rfl
  rw [costFastIntersect_unfold hne hh] at hx
  have := costBody_runs FNav.toNav (leafW lg) (d := d) (fast_leafOKRc hlg Ts (d + 1)) h1 hlen (by rfl)
    (by simp only [fastCfgC, fastCfg]; omega) (by simp only [fastCfgC, fastCfg]; omega) hw hx
  rw [this]
  have := treeCostR_sets h2 hcs ⟨0, 0, 1⟩
  simpa using this

/-! ## Bounds -/

theorem commonCount_le {sets : List (List Nat)} {S : List Nat} (hS : S ∈ sets) (t j : Nat) : commonCount sets t j ≤ S.length := by
  rw [commonCount, ← List.length_map (as := S) (· / 2 ^ j)]
  refine (List.Nodup.subperm (List.Nodup.filter _ List.nodup_range) fun k hk => ?_).length_le
  obtain ⟨x, hx, hx'⟩ := meetsAll_iff.1 (List.mem_filter.1 hk).2 S hS
  exact List.mem_map.2 ⟨x, hx, hx'⟩

theorem forkCount_le (sets : List (List Nat)) (t j : Nat) : forkCount sets t j ≤ commonCount sets t j := List.length_filter_le _ _

theorem sum_le_mul {f : Nat → Nat} {M : Nat} (h : ∀ i, f i ≤ M) : (l : List Nat) → (l.map f).sum ≤ l.length * M
  | [] => by simp
  | a :: l => by
    have := sum_le_mul h l
    have := h a
    rw [List.map_cons, List.sum_cons, List.length_cons, Nat.add_mul, Nat.one_mul]
    omega

theorem commonAbove_le {sets : List (List Nat)} {S : List Nat} (hS : S ∈ sets) (t b : Nat) : commonAbove sets t b ≤ (t - b) * S.length := by
  have := sum_le_mul (f := fun i => commonCount sets t (b + 1 + i)) (M := S.length) (fun i => commonCount_le hS t _) (List.range (t - b))
  rwa [List.length_range] at this

theorem forksAbove_le {sets : List (List Nat)} {S : List Nat} (hS : S ∈ sets) (t b : Nat) : forksAbove sets t b ≤ (t - b) * S.length := by
  have := sum_le_mul (f := fun i => forkCount sets t (b + 1 + i)) (M := S.length)
    (fun i => Nat.le_trans (forkCount_le sets t _) (commonCount_le hS t _)) (List.range (t - b))
  rwa [List.length_range] at this

theorem openCount_le (cs : List (Bool × List Nat)) (t j k : Nat) : openCount cs t j k ≤ cs.length := List.countP_le_length

theorem openAt_le (cs : List (Bool × List Nat)) (t j : Nat) : openAt cs t j ≤ cs.length * commonCount (cs.map Prod.snd) t j := by
  have := sum_le_mul (f := openCount cs t j) (M := cs.length) (fun k => openCount_le cs t j k) (commonBlocks (cs.map Prod.snd) j (t - j))
  rwa [Nat.mul_comm] at this

theorem openForkAt_le (cs : List (Bool × List Nat)) (t j : Nat) : openForkAt cs t j ≤ cs.length * forkCount (cs.map Prod.snd) t j := by
  have := sum_le_mul (f := fun k => openCount cs t (j - 1) (2 * k)) (M := cs.length) (fun k => openCount_le cs t _ _)
    ((commonBlocks (cs.map Prod.snd) j (t - j)).filter fun k => decide (commonHalves (cs.map Prod.snd) (j - 1) k ≠ 0))
  rwa [Nat.mul_comm] at this

theorem sum_le_scaled {f g : Nat → Nat} {n : Nat} (h : ∀ i, f i ≤ n * g i) : (l : List Nat) → (l.map f).sum ≤ n * (l.map g).sum
  | [] => by simp
  | a :: l => by
    have := sum_le_scaled h l
    have := h a
    rw [List.map_cons, List.map_cons, List.sum_cons, List.sum_cons, Nat.mul_add]
    omega

theorem openAbove_le (cs : List (Bool × List Nat)) (t b : Nat) : openAbove cs t b ≤ cs.length * commonAbove (cs.map Prod.snd) t b :=
  sum_le_scaled (fun i => openAt_le cs t (b + 1 + i)) _

theorem openForksAbove_le (cs : List (Bool × List Nat)) (t b : Nat) : openForksAbove cs t b ≤ cs.length * forksAbove (cs.map Prod.snd) t b :=
  sum_le_scaled (fun i => openForkAt_le cs t (b + 1 + i)) _

end CBT
