import Verif.Proof.CostTree
import Verif.Proof.RunsAnd

/-!
# The counters of `runsAND` on trees
-/

namespace CBT

/-- The trees with children. -/
def inner {d : Nat} (vs : List (Tr (d + 1))) : List (Tr (d + 1)) := vs.filter fun t => !t.bare

/-- What `runsAND` counts at and below the nodes `vs` of the active tries; `lc n` at a leaf of `n` active tries. -/
def treeCostR (lc : Nat → Cost) : (d : Nat) → List (Tr d) → Cost
  | 0, vs => lc vs.length
  | d + 1, vs => (Cost.add ⟨vs.length, if allL (inner vs) || allR (inner vs) then (inner vs).length else 0, 0⟩
      (if allL (inner vs) then treeCostR lc d (lefts (inner vs)) else .zero)).add
      (if allR (inner vs) then treeCostR lc d (rights (inner vs)) else .zero)

theorem treeCostR_nil {lc : Nat → Cost} (h : lc 0 = .zero) : (d : Nat) → treeCostR lc d [] = .zero
  | 0 => h
  | d + 1 => by
    have e : lefts (d := d) [] = [] := rfl
    have e' : rights (d := d) [] = [] := rfl
    rw [treeCostR, show inner (d := d) [] = [] from rfl, e, e', treeCostR_nil h d]
    simp [allL, allR, Cost.add, Cost.zero]

/-- The active ones. -/
def actives {d : Nat} (ts : List (Option (Tr d))) : List (Tr d) := ts.filterMap id

theorem actives_deact {d : Nat} : (ts : List (Option (Tr (d + 1)))) → actives (deact ts) = inner (actives ts)
  | [] => rfl
  | none :: ts => actives_deact ts
  | some t :: ts => by
    have ih := actives_deact ts
    simp only [actives, deact, List.map_cons, inner, List.filterMap_cons, id, List.filter_cons, Option.filter] at ih ⊢
    by_cases hb : t.bare = true
    · simp [hb, ih]
    · simp [Bool.not_eq_true _ ▸ hb, ih]

theorem actives_lefts {d : Nat} : (ts : List (Option (Tr (d + 1)))) → actives (leftsO ts) = lefts (actives ts)
  | [] => rfl
  | none :: ts => actives_lefts ts
  | some t :: ts => by
    have ih := actives_lefts ts
    simp only [actives, leftsO, lefts, List.map_cons, List.filterMap_cons, id, Option.bind_some] at ih ⊢
    cases t.l <;> simp [ih]

theorem actives_rights {d : Nat} : (ts : List (Option (Tr (d + 1)))) → actives (rightsO ts) = rights (actives ts)
  | [] => rfl
  | none :: ts => actives_rights ts
  | some t :: ts => by
    have ih := actives_rights ts
    simp only [actives, rightsO, rights, List.map_cons, List.filterMap_cons, id, Option.bind_some] at ih ⊢
    cases t.r <;> simp [ih]

theorem allL_actives {d : Nat} : (ts : List (Option (Tr (d + 1)))) → allL (actives ts) = allLO ts
  | [] => rfl
  | none :: ts => allL_actives ts
  | some t :: ts => congrArg (t.l.isSome && ·) (allL_actives ts)

theorem allR_actives {d : Nat} : (ts : List (Option (Tr (d + 1)))) → allR (actives ts) = allRO ts
  | [] => rfl
  | none :: ts => allR_actives ts
  | some t :: ts => congrArg (t.r.isSome && ·) (allR_actives ts)

/-- All nodes are without children. -/
theorem inner_nil {d : Nat} : (ts : List (Option (Tr (d + 1)))) → anyLO ts = false → anyRO ts = false → inner (actives ts) = []
  | [], _, _ => rfl
  | none :: ts, h1, h2 => inner_nil ts h1 h2
  | some t :: ts, h1, h2 => by
    simp only [anyLO, anyRO, List.any_cons, Bool.or_eq_false_iff, Option.any_some] at h1 h2
    have ih := inner_nil ts h1.2 h2.2
    have hb : t.bare = true := by
      have := h1.1
      have := h2.1
      cases hl : t.l <;> cases hr : t.r <;> simp_all [Tr.bare]
    simp only [actives, inner, List.filterMap_cons, id, List.filter_cons] at ih ⊢
    simp [hb, ih]

section
variable {α : Type} (nav : α → Nav) (leaf : α → Nat → Nat → Nat → Prop)

theorem RepsA.count {d ℓ : Nat} : ∀ (as : List α) (ts : List (Option (Tr d))) (os : List (Option Nat)) (bs : List Bool),
    RepsA nav leaf d ℓ as ts os bs → (bs.take as.length).count true = (actives ts).length := by
  apply RepsA.rec'
  · intro os bs
    simp [actives]
  · intro a as t ts id' os bs _ _ ih
    simp only [List.length_cons, List.take_succ_cons, actives, List.filterMap_cons, id] at ih ⊢
    simp [ih]
  · intro a as ts o os bs _ ih
    simp only [List.length_cons, List.take_succ_cons, actives, List.filterMap_cons, id] at ih ⊢
    simp [ih]

/-- What the configuration has to do on the last `e` levels. -/
structure LeafOKRc (as : List α) (c : CfgC) (b e : Nat) (lc : Nat → Cost) : Prop where
  skip : c.cfg.skipLast = false ∨ e ≠ 0
  zero : lc 0 = .zero
  leafAnd : ∀ (ℓ : Nat) (ts : List (Option (Tr 0))) (os : List (Option Nat)) (bs : List Bool) (pref : Nat) (r : List Nat),
    RepsA nav leaf 0 ℓ as ts os bs → c.cfg.top = ℓ + b → 2 ^ b ∣ pref →
    runsANDc (as.map nav) c e ℓ os bs pref r = .ok (r ++ enum b (allO b 0 ts) pref, lc (actives ts).length)

theorem runsANDc_reps {as : List α} {c : CfgC} {b e : Nat} {lc : Nat → Cost} (hc : LeafOKRc nav leaf as c b e lc) (htop : c.cfg.top < 64) :
    ∀ (d ℓ : Nat) (ts : List (Option (Tr d))) (os : List (Option Nat)) (bs : List Bool) (pref : Nat) (r : List Nat),
    RepsA nav leaf d ℓ as ts os bs → c.cfg.top = ℓ + d + b → 2 ^ (d + b) ∣ pref →
    runsANDc (as.map nav) c (d + e) ℓ os bs pref r = .ok (r ++ enum (d + b) (allO b d ts) pref, treeCostR lc d (actives ts)) := by
  intro d
  induction d with
  | zero =>
    intro ℓ ts os bs pref r hr ht hd
    rw [Nat.zero_add, Nat.zero_add]
    exact hc.leafAnd ℓ ts os bs pref r hr (by omega) (by simpa using hd)
  | succ d ih =>
    intro ℓ ts os bs pref r hr ht hd
    have hd' : 2 ^ (d + b + 1) ∣ pref := by rwa [show d + b + 1 = d + 1 + b by omega]
    have hs : shl1 (c.cfg.top - ℓ - 1) = .ok (2 ^ (d + b)) := by
      rw [ht, show ℓ + (d + 1) + b - ℓ - 1 = d + b by omega]; exact shl1_ok (by omega)
    have hskip : (c.cfg.skipLast && decide (d + e = 0)) = false := by
      rcases hc.skip with h | h
      · rw [h]; rfl
      · rw [decide_eq_false (by omega)]; simp
    obtain ⟨tmp, h3, hrt⟩ := runsNodes_reps nav leaf as ts os bs hr true true false false
    rw [Bool.true_and, Bool.true_and, Bool.false_or, Bool.false_or, node2_tt, node2_ff] at h3
    have hcnt := RepsA.count nav leaf _ _ _ _ hr
    have hcnt' := RepsA.count nav leaf _ _ _ _ hrt
    rw [actives_deact] at hcnt'
    rw [show d + 1 + e = (d + e) + 1 by omega, runsANDc, runsNodesC_eq, h3, R_map_ok]
    simp only [R_bind_ok, hskip, hs, or_two_pow hd', childrenActiveC_eq, List.length_map, hcnt, hcnt', Bool.false_eq_true, if_false, treeCostR]
    rw [← actives_deact, allL_actives, allR_actives, ← actives_lefts, ← actives_rights]
    by_cases h0 : node2 (anyLO ts) (anyRO ts) = 0
    · obtain ⟨h1, h2⟩ := node2_eq_zero.1 h0
      rw [h0]
      simp only [ne_eq, not_true, and_false, if_false, if_true]
      rw [ht, show ℓ + (d + 1) + b - ℓ = d + 1 + b by omega,
        fillRange_ok r (by omega) hd (P := allO b (d + 1) ts) (fun x _ => allO_none h1 h2), R_bind_ok, actives_lefts, actives_rights, actives_deact, inner_nil ts h1 h2]
      have e : lefts (d := d) [] = [] := rfl
      have e' : rights (d := d) [] = [] := rfl
      rw [e, e', treeCostR_nil hc.zero]
      simp [Cost.add, Cost.zero]
    · simp only [ne_eq, h0, not_false_iff, and_true, if_false]
      rw [enum_allO]
      cases hL : allLO (deact ts) with
      | false =>
        cases hR : allRO (deact ts) with
        | false => simp [node2_ff, Cost.add, Cost.zero]
        | true =>
          obtain ⟨cs, e1, h1⟩ := childrenActive_right nav leaf as _ os tmp hrt hR
          simp only [node2_ft, one_ne_zero, Nat.reduceEqDiff, if_false, if_true, e1, R_bind_ok, R_map_ok]
          rw [ih (ℓ + 1) _ cs _ _ r h1 (by omega) (dvd_hi hd')]
          simp [Cost.add, Cost.zero, actives_deact]
      | true =>
        obtain ⟨cs, e1, h1, h2⟩ := childrenActive_left nav leaf as _ os tmp hrt hL
        cases hR : allRO (deact ts) with
        | false =>
          simp only [node2_tf, OfNat.ofNat_ne_zero, Nat.reduceEqDiff, if_false, if_true, e1, R_bind_ok, R_map_ok]
          rw [ih (ℓ + 1) _ cs _ _ r h1 (by omega) (dvd_lo hd')]
          simp [Cost.add, Cost.zero, actives_deact]
        | true =>
          simp only [node2_tt, OfNat.ofNat_ne_zero, Nat.reduceEqDiff, if_false, if_true, e1, R_bind_ok, R_map_ok]
          rw [ih (ℓ + 1) _ cs _ _ r h1 (by omega) (dvd_lo hd'), R_bind_ok,
            ih (ℓ + 1) _ _ _ _ _ (h2 hR) (by omega) (dvd_hi hd')]
          simp [Cost.add, actives_deact]

end

theorem flat_leafOKRc (as : List Nav) (height : Nat) : LeafOKRc id leafF as (flatCfgC height) 1 1 fun n => ⟨n, 0, 0⟩ := by
  refine ⟨Or.inr (by simp), rfl, ?_⟩
  intro ℓ ts os bs pref r hr ht hd
  have h0 := (flat_leafOKR as height).leafAnd ℓ ts os bs pref r hr ht hd
  have hcnt := RepsA.count id leafF _ _ _ _ hr
  rw [← show (flatCfgC height).cfg = flatCfg height from rfl, ← runsANDc_fst _ (flatCfgC_erases height)] at h0
  obtain ⟨x, hx, hx'⟩ : ∃ x, runsANDc (as.map id) (flatCfgC height) 1 ℓ os bs pref r = .ok x ∧ x.1 = r ++ enum 1 (allO 1 0 ts) pref := by
    cases hA : runsANDc (as.map id) (flatCfgC height) 1 ℓ os bs pref r with
    | error _ => rw [hA] at h0; cases h0
    | ok x => rw [hA] at h0; exact ⟨x, rfl, by simpa [Except.map] using h0⟩
  rw [hx]
  rw [runsANDc] at hx
  simp only [runsNodesC_eq, childrenActiveC_eq, R_bind_map] at hx
  obtain ⟨⟨tmp, an, orr⟩, _, hx⟩ := bind_ok hx
  obtain ⟨x1, x2⟩ := x
  simp only at hx' hx
  subst hx'
  simp only [runsANDc, flatCfgC, R_bind_ok] at hx
  rw [← hcnt]
  have key : ∀ {y : List Nat × Cost} {r k}, (Except.ok y : R (List Nat × Cost)) = .ok (r, k) → y.2 = k := by
    intro y r k h
    cases h
    rfl
  refine congrArg (fun k => Except.ok (_, k)) ?_
  split at hx
  · rw [← key hx]; simp
  split at hx
  · obtain ⟨_, _, hx⟩ := bind_ok hx
    rw [← key hx]; simp
  split at hx
  · obtain ⟨ln, _, hx⟩ := bind_ok hx
    rw [← key hx]; simp [Cost.add, Cost.zero, flatCfg]
  split at hx
  · obtain ⟨_, _, hx⟩ := bind_ok hx
    obtain ⟨ln, _, hx⟩ := bind_ok hx
    rw [← key hx]; simp [Cost.add, Cost.zero, flatCfg]
  split at hx
  · obtain ⟨_, _, hx⟩ := bind_ok hx
    obtain ⟨ln, _, hx⟩ := bind_ok hx
    rw [← key hx]; simp [Cost.add, Cost.zero, flatCfg]
  · rw [← key hx]; simp

theorem fast_leafOKRc {lg : Nat} (hlg : lg ≤ 6) (as : List FNav) (height : Nat) :
    LeafOKRc FNav.toNav (leafW lg) as (fastCfgC lg as height) lg 0 fun n => ⟨0, 0, n⟩ := by
  refine ⟨Or.inl rfl, rfl, ?_⟩
  intro ℓ ts os bs pref r hr ht hd
  have h0 := (fast_leafOKR hlg as height).leafAnd ℓ ts os bs pref r hr ht hd
  have hcnt := RepsA.count FNav.toNav (leafW lg) _ _ _ _ hr
  rw [runsAND] at h0
  simp only [fastCfg] at h0
  rw [runsANDc]
  simp only [fastCfgC, andWordsActiveC_eq, R_bind_map]
  obtain ⟨w, hw, h0⟩ := bind_ok h0
  rw [hw, R_bind_ok, h0, R_bind_ok, hcnt]

end CBT
