import Verif.Proof.Cost
import Verif.Proof.And

/-!
# The counters of `AND` on trees
-/

namespace CBT

theorem Cost.ext' {a b : Cost} (h1 : a.nodes = b.nodes) (h2 : a.moves = b.moves) (h3 : a.words = b.words) : a = b := by
  cases a; cases b; simp_all

theorem Cost.add_assoc (a b c : Cost) : (a.add b).add c = a.add (b.add c) := by
  simp only [Cost.add, Nat.add_assoc]

theorem Cost.add_zero (a : Cost) : a.add .zero = a := rfl

theorem Cost.zero_add (a : Cost) : Cost.zero.add a = a := by
  simp [Cost.add, Cost.zero]

/-- What `AND` counts at and below a node of `n` tries; `lc` at a leaf. -/
def treeCost (lc : Cost) (n : Nat) : (d : Nat) → List (Tr d) → Cost
  | 0, _ => lc
  | d + 1, ts => (Cost.add ⟨n, if allL ts || allR ts then n else 0, 0⟩ (if allL ts then treeCost lc n d (lefts ts) else .zero)).add
      (if allR ts then treeCost lc n d (rights ts) else .zero)

section
variable {α : Type} (nav : α → Nav) (leaf : α → Nat → Nat → Nat → Prop)

/-- What the configuration has to do on the last `e` levels. -/
structure LeafOKc (as : List α) (c : CfgC) (b e : Nat) (lc : Cost) : Prop where
  skip : c.cfg.skipLast = false ∨ e ≠ 0
  leafAnd : ∀ (ℓ : Nat) (ts : List (Tr 0)) (os : List (Option Nat)) (pref : Nat) (r : List Nat), Reps nav leaf 0 ℓ as ts os →
    c.cfg.top = ℓ + b → 2 ^ b ∣ pref → ANDc (as.map nav) c e ℓ os pref r = .ok (r ++ enum b (allHas b 0 ts) pref, lc)

theorem ANDc_reps {as : List α} {c : CfgC} {b e : Nat} {lc : Cost} (hc : LeafOKc nav leaf as c b e lc) (htop : c.cfg.top ≤ 64) :
    ∀ (d ℓ : Nat) (ts : List (Tr d)) (os : List (Option Nat)) (pref : Nat) (r : List Nat), Reps nav leaf d ℓ as ts os →
    c.cfg.top = ℓ + d + b → 2 ^ (d + b) ∣ pref →
    ANDc (as.map nav) c (d + e) ℓ os pref r = .ok (r ++ enum (d + b) (allHas b d ts) pref, treeCost lc as.length d ts) := by
  intro d
  induction d with
  | zero =>
    intro ℓ ts os pref r hr ht hd
    rw [Nat.zero_add, Nat.zero_add]
    exact hc.leafAnd ℓ ts os pref r hr (by omega) (by simpa using hd)
  | succ d ih =>
    intro ℓ ts os pref r hr ht hd
    have hd' : 2 ^ (d + b + 1) ∣ pref := by rwa [show d + b + 1 = d + 1 + b by omega]
    have hs : shl1 (c.cfg.top - ℓ - 1) = .ok (2 ^ (d + b)) := by
      rw [ht, show ℓ + (d + 1) + b - ℓ - 1 = d + b by omega]; exact shl1_ok (by omega)
    have hskip : (c.cfg.skipLast && decide (d + e = 0)) = false := by
      rcases hc.skip with h | h
      · rw [h]; rfl
      · rw [decide_eq_false (by omega)]; simp
    have h3 : andNodesC (as.map nav) os ℓ 3 = .ok (node2 (allL ts) (allR ts), ⟨as.length, 0, 0⟩) := by
      have := andNodes_reps nav leaf as ts os hr true true
      rw [Bool.true_and, Bool.true_and] at this
      rw [andNodesC_eq, show andNodes (as.map nav) os ℓ 3 = _ from this, R_map_ok, List.length_map]
    rw [show d + 1 + e = (d + e) + 1 by omega, ANDc, h3, enum_allHas]
    simp only [R_bind_ok, hskip, hs, or_two_pow hd', childrenC_eq, List.length_map, treeCost]
    cases hL : allL ts with
    | false =>
      cases hR : allR ts with
      | false => simp [node2_ff, Cost.add, Cost.zero]
      | true =>
        obtain ⟨cs, e1, h1⟩ := children_right nav leaf as ts os hr hR
        simp only [node2_ft, Nat.reduceEqDiff, if_false, if_true, e1, R_bind_ok, R_map_ok]
        rw [ih (ℓ + 1) _ cs _ r h1 (by omega) (dvd_hi hd')]
        simp [Cost.add, Cost.zero]
    | true =>
      obtain ⟨cs, e1, h1, h2⟩ := children_left nav leaf as ts os hr hL
      cases hR : allR ts with
      | false =>
        simp only [node2_tf, Nat.reduceEqDiff, if_false, if_true, e1, R_bind_ok, R_map_ok]
        rw [ih (ℓ + 1) _ cs _ r h1 (by omega) (dvd_lo hd')]
        simp [Cost.add, Cost.zero]
      | true =>
        simp only [node2_tt, Nat.reduceEqDiff, if_false, if_true, e1, R_bind_ok, R_map_ok]
        rw [ih (ℓ + 1) _ cs _ r h1 (by omega) (dvd_lo hd')]
        simp only [R_bind_ok]
        rw [ih (ℓ + 1) _ _ _ _ (h2 hR) (by omega) (dvd_hi hd')]
        simp [Cost.add]

end

theorem flat_leafOKc (as : List Nav) (height : Nat) : LeafOKc id leafF as (flatCfgC height) 1 1 ⟨as.length, 0, 0⟩ := by
  refine ⟨Or.inr (by simp), ?_⟩
  intro ℓ ts os pref r hr ht hd
  have h0 := (flat_leafOK as height).leafAnd ℓ ts os pref r hr ht hd
  rw [← show (flatCfgC height).cfg = flatCfg height from rfl, ← ANDc_fst _ (flatCfgC_erases height)] at h0
  obtain ⟨x, hx, hx'⟩ : ∃ x, ANDc (as.map id) (flatCfgC height) 1 ℓ os pref r = .ok x ∧ x.1 = r ++ enum 1 (allHas 1 0 ts) pref := by
    cases hA : ANDc (as.map id) (flatCfgC height) 1 ℓ os pref r with
    | error _ => rw [hA] at h0; cases h0
    | ok x => rw [hA] at h0; exact ⟨x, rfl, by simpa [Except.map] using h0⟩
  rw [hx]
  rw [ANDc] at hx
  simp only [andNodesC_eq, childrenC_eq, R_bind_map] at hx
  obtain ⟨res, _, hx⟩ := bind_ok hx
  obtain ⟨x1, x2⟩ := x
  simp only at hx' hx
  subst hx'
  simp only [ANDc, flatCfgC, R_bind_ok] at hx
  have key : ∀ {y : List Nat × Cost} {r k}, (Except.ok y : R (List Nat × Cost)) = .ok (r, k) → y.2 = k := by
    intro y r k h
    cases h
    rfl
  refine congrArg (fun k => Except.ok (_, k)) ?_
  split at hx
  · rw [← key hx]; simp
  split at hx
  · obtain ⟨ln, _, hx⟩ := bind_ok hx
    rw [← key hx]; simp [Cost.add, Cost.zero, flatCfg]
  split at hx
  · obtain ⟨_, _, hx⟩ := bind_ok hx
    obtain ⟨ln, _, hx⟩ := bind_ok hx
    rw [← key hx]; simp [Cost.add, Cost.zero, flatCfg]
  split at hx
  · obtain ⟨_, _, hx⟩ := bind_ok hx
    obtain ⟨ln, _, hx⟩ := bind_ok hx
    rw [← key hx]; simp [Cost.add, Cost.zero, flatCfg]
  · rw [← key hx]; simp

theorem fast_leafOKc {lg : Nat} (hlg : lg ≤ 6) (as : List FNav) (height : Nat) :
    LeafOKc FNav.toNav (leafW lg) as (fastCfgC lg as height) lg 0 ⟨0, 0, as.length⟩ := by
  refine ⟨Or.inl rfl, ?_⟩
  intro ℓ ts os pref r hr ht hd
  have h0 := (fast_leafOK hlg as height).leafAnd ℓ ts os pref r hr ht hd
  rw [AND] at h0
  simp only [fastCfg] at h0
  rw [ANDc]
  simp only [fastCfgC, andWordsC_eq, R_bind_map]
  obtain ⟨w, hw, h0⟩ := bind_ok h0
  rw [hw, R_bind_ok, h0, R_bind_ok]

end CBT
