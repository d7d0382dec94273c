import Verif.SpecReads
import Verif.Proof.CostRunsPar
import Verif.Proof.CostRunsSets

/-!
# The counters of run-aware parallel calls in terms of the sets
-/

namespace CBT

open Spec Classical

/-- The trees that are followed further: where `S` holds, all have to have children. -/
def goOn (b : Nat) (S : Nat → Nat → Bool) {d : Nat} (p : Nat) (vs : List (Tr (d + 1))) : List (Tr (d + 1)) :=
  if S (d + 1 + b) p then vs else inner vs

/-- What is counted if below the blocks where `S` holds nothing is done unless all trees have children. -/
def treeCostP (lc : Nat → Cost) (b : Nat) (S : Nat → Nat → Bool) : (d : Nat) → Nat → List (Tr d) → Cost
  | 0, _, vs => lc vs.length
  | d + 1, p, vs => (Cost.add ⟨vs.length, if allL (goOn b S p vs) || allR (goOn b S p vs) then (goOn b S p vs).length else 0, 0⟩
      (if allL (goOn b S p vs) then treeCostP lc b S d p (lefts (goOn b S p vs)) else .zero)).add
      (if allR (goOn b S p vs) then treeCostP lc b S d (p + 2 ^ (d + b)) (rights (goOn b S p vs)) else .zero)

theorem treeCostP_low {lc : Nat → Cost} {b : Nat} {S : Nat → Nat → Bool} : (d p : Nat) → (vs : List (Tr d)) →
    (∀ i ≤ d + b, ∀ x, S i x = false) → treeCostP lc b S d p vs = treeCostR lc d vs
  | 0, _, _, _ => rfl
  | d + 1, p, vs, h => by
    have e : goOn b S p vs = inner vs := by rw [goOn, h _ (Nat.le_refl _), if_neg (by simp)]
    rw [treeCostP, treeCostR, e, treeCostP_low d p _ fun i hi => h i (by omega), treeCostP_low d _ _ fun i hi => h i (by omega)]

theorem lefts_length {d : Nat} {ws : List (Tr (d + 1))} (h : allL ws = true) : (lefts ws).length = ws.length := by
  have := countP_lefts (p := fun _ => true) (q := fun _ => true) ws h fun _ _ _ _ => rfl
  rwa [List.countP_true, List.countP_true, eq_comm] at this

theorem rights_length {d : Nat} {ws : List (Tr (d + 1))} (h : allR ws = true) : (rights ws).length = ws.length := by
  have := countP_rights (p := fun _ => true) (q := fun _ => true) ws h fun _ _ _ _ => rfl
  rwa [List.countP_true, List.countP_true, eq_comm] at this

theorem walk_trees_length {b : Nat} : (k : Nat) → {d : Nat} → (p : Nat) → (ts : List (Tr (d + k))) → ∀ u ∈ walk b k p ts, u.2.length = ts.length
  | 0, _, p, ts, u, hu => by
    rw [walk, List.mem_singleton] at hu
    rw [hu]
  | k + 1, d, p, ts, u, hu => by
    rw [walk, List.mem_append] at hu
    rcases hu with hu | hu
    · split at hu
      · rename_i h
        rw [walk_trees_length k _ _ u hu, lefts_length h]
      · cases hu
    · split at hu
      · rename_i h
        rw [walk_trees_length k _ _ u hu, rights_length h]
      · cases hu

theorem treeCostP_top {lc : Nat → Cost} {b : Nat} {S : Nat → Nat → Bool} : (k : Nat) → {d : Nat} → (p : Nat) → (ts : List (Tr (d + k))) →
    (∀ i x, d + b < i → i ≤ d + k + b → p ≤ x → x < p + 2 ^ (d + k + b) → S i x = true) →
    (topCost ts.length k ts).add (costSum ((walk b k p ts).map fun u => treeCostP lc b S d u.1 u.2)) = treeCostP lc b S (d + k) p ts
  | 0, d, p, ts, _ => by
    rw [topCost, walk, Cost.zero_add]
    exact Cost.add_zero _
  | k + 1, d, p, ts, h => by
    have hp := pow_split (d + k) b
    have hpos := Nat.two_pow_pos (d + k + b)
    have e : goOn (d := d + k) b S p ts = ts := by
      rw [goOn, h (d + k + 1 + b) p (by omega) (by omega) (Nat.le_refl _) (by rw [show d + (k + 1) + b = d + k + 1 + b by omega]; omega),
        if_pos rfl]
    have hs : ∀ i x, i ≤ d + k + b → x < p + 2 ^ (d + k + b) + 2 ^ (d + k + b) → i ≤ d + (k + 1) + b ∧ x < p + 2 ^ (d + (k + 1) + b) := by
      intro i x h1 h2
      rw [show d + (k + 1) + b = d + k + 1 + b by omega]
      omega
    rw [walk, topCost, show treeCostP lc b S (d + (k + 1)) p ts = treeCostP lc b S (d + k + 1) p ts from rfl, treeCostP, e, List.map_append,
      costSum_append]
    have hl : allL (d := d + k) ts = true → (topCost ts.length k (lefts (d := d + k) ts)).add
        (costSum ((walk b k p (lefts (d := d + k) ts)).map fun u => treeCostP lc b S d u.1 u.2)) =
        treeCostP lc b S (d + k) p (lefts (d := d + k) ts) := by
      intro H
      have ih := treeCostP_top (lc := lc) (b := b) (S := S) k p (lefts (d := d + k) ts) fun i x h1 h2 h3 h4 =>
        h i x h1 (hs i x h2 (by omega)).1 h3 (hs i x h2 (by omega)).2
      rwa [lefts_length H] at ih
    have hr : allR (d := d + k) ts = true → (topCost ts.length k (rights (d := d + k) ts)).add
        (costSum ((walk b k (p + 2 ^ (d + k + b)) (rights (d := d + k) ts)).map fun u => treeCostP lc b S d u.1 u.2)) =
        treeCostP lc b S (d + k) (p + 2 ^ (d + k + b)) (rights (d := d + k) ts) := by
      intro H
      have ih := treeCostP_top (lc := lc) (b := b) (S := S) k (p + 2 ^ (d + k + b)) (rights (d := d + k) ts) fun i x h1 h2 h3 h4 =>
        h i x h1 (hs i x h2 (by omega)).1 (by omega) (hs i x h2 (by omega)).2
      rwa [rights_length H] at ih
    cases hL : allL (d := d + k) ts <;> cases hR : allR (d := d + k) ts
    · simp [costSum, Cost.add, Cost.zero]
    · have hr := hr hR
      simp only [Bool.false_eq_true, if_false, if_true, Bool.false_or, ← hr]
      simp [costSum, Cost.add, Cost.zero, Nat.add_assoc]
    · have hl := hl hL
      simp only [Bool.false_eq_true, if_false, if_true, Bool.or_false, ← hl]
      simp [costSum, Cost.add, Cost.zero, Nat.add_assoc]
    · have hl := hl hL
      have hr := hr hR
      simp only [if_true, Bool.or_true, ← hl, ← hr]
      simp only [Cost.add, Cost.mk.injEq]
      refine ⟨?_, ?_, ?_⟩ <;> omega

theorem costSum_congr {A : Type} {f g : A → Cost} {l : List A} (h : ∀ a ∈ l, f a = g a) : costSum (l.map f) = costSum (l.map g) := by
  rw [List.map_congr_left h]

theorem costSum_add {A : Type} {f g : A → Cost} : (l : List A) → (costSum (l.map f)).add (costSum (l.map g)) = costSum (l.map fun a => (f a).add (g a))
  | [] => rfl
  | a :: l => by
    rw [List.map_cons, List.map_cons, List.map_cons, costSum_cons, costSum_cons, costSum_cons, ← costSum_add l]
    simp only [Cost.add, Cost.mk.injEq]
    refine ⟨?_, ?_, ?_⟩ <;> omega

theorem costSum_flatMap {A B : Type} {f : B → Cost} {g : A → List B} : (l : List A) →
    costSum ((l.flatMap g).map f) = costSum (l.map fun a => costSum ((g a).map f))
  | [] => rfl
  | a :: l => by
    rw [List.flatMap_cons, List.map_append, costSum_append, costSum_flatMap l]
    rfl

/-- A parallel call, where `S` holds of the blocks that are dealt with before threads are started. -/
theorem parCostR_eq {lc : Nat → Cost} {b d k : Nat} {S : Nat → Nat → Bool} {ts : List (Tr (d + 1 + k))}
    (h1 : ∀ i x, d + 1 + b < i → S i x = true) (h2 : ∀ i x, i ≤ d + b → S i x = false)
    (h3 : ∀ u ∈ (walk b k 0 ts).take (splitCount b ts), ∀ x, u.1 ≤ x → x < u.1 + 2 ^ (d + 1 + b) → S (d + 1 + b) x = true)
    (h4 : ∀ u ∈ (walk b k 0 ts).drop (splitCount b ts), S (d + 1 + b) u.1 = false)
    (h5 : ∀ u ∈ walk b k 0 ts, u.2.length = ts.length) : parCostR lc b ts.length ts = treeCostP lc b S (d + 1 + k) 0 ts := by
  rw [← treeCostP_top k 0 ts fun i x hi _ _ _ => h1 i x hi, parCostR, taskCostR, taskCostR, halfCost, Cost.add_assoc]
  congr 1
  conv_rhs => rw [← List.take_append_drop (splitCount b ts) (walk b k 0 ts), List.map_append, costSum_append]
  rw [← Cost.add_assoc]
  congr 1
  · rw [costSum_flatMap, costSum_add]
    refine costSum_congr fun u hu => ?_
    have := treeCostP_top (lc := lc) (b := b) (S := S) 1 u.1 u.2 fun i x i1 i2 x1 x2 => by
      obtain rfl : i = d + 1 + b := by omega
      exact h3 u hu x x1 x2
    rw [h5 u (List.mem_of_mem_take hu)] at this
    rw [← this]
    congr 1
    exact costSum_congr fun v _ => (treeCostP_low d v.1 v.2 fun i hi x => h2 i x hi).symm
  · refine costSum_congr fun u hu => ?_
    have e : goOn b S u.1 u.2 = inner u.2 := by rw [goOn, h4 u hu, if_neg (by simp)]
    rw [treeCostP, treeCostR, e, treeCostP_low d _ _ fun i hi x => h2 i x hi, treeCostP_low d _ _ fun i hi x => h2 i x hi]

/-! ## Trees -/

/-- The block of size `2^j` around `x` is looked at. -/
def Vis (b d : Nat) (S : Nat → Nat → Bool) (p : Nat) (vs : List (Tr d)) (j x : Nat) : Prop :=
  Met b d vs j x ∧ ∀ i, j < i → i ≤ d + b → S i (p + x) = true → anyC b d vs i x = false

/-- `S` is a property of blocks, and holds of the larger blocks around a block it holds of. -/
structure UpClosed (S : Nat → Nat → Bool) : Prop where
  up : ∀ i i' x, i ≤ i' → S i x = true → S i' x = true
  blk : ∀ i x y, x / 2 ^ i = y / 2 ^ i → S i x = S i y

section
variable {b d : Nat} {S : Nat → Nat → Bool} {p : Nat}

theorem goOn_noneBare {vs : List (Tr (d + 1))} (h : allL (goOn b S p vs) = true ∨ allR (goOn b S p vs) = true) : NoneBare (goOn b S p vs) :=
  h.elim noneBare_of_allL noneBare_of_allR

theorem dvd_block {m x : Nat} (hp : 2 ^ m ∣ p) (hx : x < 2 ^ m) : (p + x) / 2 ^ m = p / 2 ^ m := by
  obtain ⟨q, rfl⟩ := hp
  rw [Nat.mul_comm, block_div hx, Nat.mul_div_cancel _ (Nat.two_pow_pos m)]

theorem S_low (hS : UpClosed S) (hp : 2 ^ (d + 1 + b) ∣ p) (h : S (d + 1 + b) p = false) {i x : Nat} (hi : i ≤ d + 1 + b)
    (hx : x < 2 ^ (d + 1 + b)) : S i (p + x) = false := by
  cases hc : S i (p + x) with
  | false => rfl
  | true =>
    have := hS.up i _ _ hi hc
    rw [hS.blk _ _ p (dvd_block hp hx), h] at this
    cases this

theorem vis_lo (hS : UpClosed S) (hp : 2 ^ (d + 1 + b) ∣ p) {vs : List (Tr (d + 1))} {j x : Nat} (hj : j ≤ d + b) (hx : x < 2 ^ (d + b)) :
    Vis b (d + 1) S p vs j x ↔ allL (goOn b S p vs) = true ∧ Vis b d S p (lefts (goOn b S p vs)) j x := by
  have h2 := pow_split d b
  have hx' : x < 2 ^ (d + 1 + b) := by omega
  cases h : S (d + 1 + b) p with
  | true =>
    have e : goOn b S p vs = vs := by rw [goOn, h, if_pos rfl]
    have hb : S (d + 1 + b) (p + x) = true := by rw [hS.blk _ _ p (dvd_block hp hx'), h]
    rw [e, Vis, Vis]
    constructor
    · rintro ⟨g1, g2⟩
      have hn : NoneBare vs := by
        have := g2 (d + 1 + b) (by omega) (Nat.le_refl _) hb
        rwa [anyC_root, ← noneBare_iff] at this
      rw [met_lo hn hj hx] at g1
      refine ⟨g1.1, g1.2, fun i i1 i2 i3 => ?_⟩
      rw [← anyC_lo hn i2 hx]
      exact g2 i i1 (by omega) i3
    · rintro ⟨g1, g2, g3⟩
      have hn := noneBare_of_allL g1
      rw [met_lo hn hj hx]
      refine ⟨⟨g1, g2⟩, fun i i1 i2 i3 => ?_⟩
      by_cases hi : i = d + 1 + b
      · subst hi
        rw [anyC_root, ← noneBare_iff]
        exact hn
      · rw [anyC_lo hn (by omega) hx]
        exact g3 i i1 (by omega) i3
  | false =>
    have e : goOn b S p vs = inner vs := by rw [goOn, h, if_neg (by simp)]
    have v1 : Vis b (d + 1) S p vs j x ↔ Met b (d + 1) vs j x :=
      and_iff_left fun i _ i2 i3 => by rw [S_low hS hp h i2 hx'] at i3; cases i3
    have v2 : Vis b d S p (lefts (inner vs)) j x ↔ Met b d (lefts (inner vs)) j x :=
      and_iff_left fun i _ i2 i3 => by rw [S_low hS hp h (by omega) hx'] at i3; cases i3
    rw [e, v1, v2, met_inner hx', met_lo (inner_noneBare vs) hj hx]

theorem vis_hi (hS : UpClosed S) (hp : 2 ^ (d + 1 + b) ∣ p) {vs : List (Tr (d + 1))} {j x : Nat} (hj : j ≤ d + b) (hx : x < 2 ^ (d + b)) :
    Vis b (d + 1) S p vs j (2 ^ (d + b) + x) ↔
      allR (goOn b S p vs) = true ∧ Vis b d S (p + 2 ^ (d + b)) (rights (goOn b S p vs)) j x := by
  have h2 := pow_split d b
  have hx' : 2 ^ (d + b) + x < 2 ^ (d + 1 + b) := by omega
  cases h : S (d + 1 + b) p with
  | true =>
    have e : goOn b S p vs = vs := by rw [goOn, h, if_pos rfl]
    have hb : S (d + 1 + b) (p + (2 ^ (d + b) + x)) = true := by rw [hS.blk _ _ p (dvd_block hp hx'), h]
    rw [e, Vis, Vis]
    constructor
    · rintro ⟨g1, g2⟩
      have hn : NoneBare vs := by
        have := g2 (d + 1 + b) (by omega) (Nat.le_refl _) hb
        rwa [anyC_root, ← noneBare_iff] at this
      rw [met_hi hn hj] at g1
      refine ⟨g1.1, g1.2, fun i i1 i2 i3 => ?_⟩
      rw [← anyC_hi hn i2]
      exact g2 i i1 (by omega) (by rwa [← Nat.add_assoc])
    · rintro ⟨g1, g2, g3⟩
      have hn := noneBare_of_allR g1
      rw [met_hi hn hj]
      refine ⟨⟨g1, g2⟩, fun i i1 i2 i3 => ?_⟩
      by_cases hi : i = d + 1 + b
      · subst hi
        rw [anyC_root, ← noneBare_iff]
        exact hn
      · rw [anyC_hi hn (by omega)]
        exact g3 i i1 (by omega) (by rwa [Nat.add_assoc])
  | false =>
    have e : goOn b S p vs = inner vs := by rw [goOn, h, if_neg (by simp)]
    have v1 : Vis b (d + 1) S p vs j (2 ^ (d + b) + x) ↔ Met b (d + 1) vs j (2 ^ (d + b) + x) :=
      and_iff_left fun i _ i2 i3 => by rw [S_low hS hp h i2 hx'] at i3; cases i3
    have v2 : Vis b d S (p + 2 ^ (d + b)) (rights (inner vs)) j x ↔ Met b d (rights (inner vs)) j x :=
      and_iff_left fun i _ i2 i3 => by rw [Nat.add_assoc, S_low hS hp h (by omega) hx'] at i3; cases i3
    rw [e, v1, v2, met_inner hx', met_hi (inner_noneBare vs) hj]

/-- Trees without children do not count below. -/
theorem countP_goOn {q : Tr (d + 1) → Bool} (vs : List (Tr (d + 1))) (hq : ∀ t ∈ vs, t.bare = true → q t = false) :
    vs.countP q = (goOn b S p vs).countP q := by
  rw [goOn]
  split
  · rfl
  · exact countP_inner vs hq

theorem nz_goOn {vs : List (Tr (d + 1))} (h : ∀ t ∈ vs, NZ b (d + 1) t) : ∀ t ∈ goOn b S p vs, NZ b (d + 1) t := by
  rw [goOn]
  split
  · exact h
  · exact nz_inner h

end

noncomputable def sumP (b d : Nat) (S : Nat → Nat → Bool) (p : Nat) (vs : List (Tr d)) (j : Nat) : Nat :=
  wsum (2 ^ (d + b - j)) (fun k => Vis b d S p vs j (k * 2 ^ j)) fun k => vs.countP fun t => opn b d t j (k * 2 ^ j)

noncomputable def sumQ (b d : Nat) (S : Nat → Nat → Bool) (p : Nat) (vs : List (Tr d)) (j : Nat) : Nat :=
  wsum (2 ^ (d + b - j)) (fun k => Vis b d S p vs (j - 1) (k * 2 ^ j) ∨ Vis b d S p vs (j - 1) (k * 2 ^ j + 2 ^ (j - 1)))
    fun k => vs.countP fun t => !cov b d t j (k * 2 ^ j)

section
variable {b d : Nat} {S : Nat → Nat → Bool} {p : Nat}

theorem sumP_succ (hS : UpClosed S) (hp : 2 ^ (d + 1 + b) ∣ p) (vs : List (Tr (d + 1))) {j : Nat} (hj : j ≤ d + b) :
    sumP b (d + 1) S p vs j =
      (if allL (goOn b S p vs) then sumP b d S p (lefts (goOn b S p vs)) j else 0) +
      (if allR (goOn b S p vs) then sumP b d S (p + 2 ^ (d + b)) (rights (goOn b S p vs)) j else 0) := by
  have hpos := Nat.two_pow_pos j
  have hbare : ∀ x, ∀ t ∈ vs, t.bare = true → opn b (d + 1) t j x = false := by
    intro x t _ hb
    rw [opn, cov_bare hb, decide_eq_false (by omega)]
    rfl
  have hlt : ∀ k < 2 ^ (d + b - j), k * 2 ^ j < 2 ^ (d + b) := fun k hk => start_lt hj hk hpos
  rw [sumP, show d + 1 + b - j = d + b - j + 1 by omega]
  refine wsum_split (fun k hk => ?_) (fun k hk => ?_) (fun k hk hA => ?_) fun k hk hB => ?_
  · exact vis_lo hS hp hj (hlt k hk)
  · rw [hi_start hj]
    exact vis_hi hS hp hj (hlt k hk)
  · rw [countP_goOn (b := b) (S := S) (p := p) vs (hbare _)]
    exact countP_lefts _ hA fun t ht s hs => opn_lo (goOn_noneBare (Or.inl hA) t ht) hs hj (hlt k hk)
  · rw [hi_start hj, countP_goOn (b := b) (S := S) (p := p) vs (hbare _)]
    exact countP_rights _ hB fun t ht s hs => opn_hi (goOn_noneBare (Or.inr hB) t ht) hs hj

theorem sumQ_succ (hS : UpClosed S) (hp : 2 ^ (d + 1 + b) ∣ p) (vs : List (Tr (d + 1))) {j : Nat} (hj : j ≤ d + b) (h0 : 0 < j) :
    sumQ b (d + 1) S p vs j =
      (if allL (goOn b S p vs) then sumQ b d S p (lefts (goOn b S p vs)) j else 0) +
      (if allR (goOn b S p vs) then sumQ b d S (p + 2 ^ (d + b)) (rights (goOn b S p vs)) j else 0) := by
  have hpos := Nat.two_pow_pos j
  have hhalf : 2 ^ (j - 1) < 2 ^ j := Nat.pow_lt_pow_right (by omega) (by omega)
  have hbare : ∀ x, ∀ t ∈ vs, t.bare = true → (!cov b (d + 1) t j x) = false := by
    intro x t _ hb
    rw [cov_bare hb]
    rfl
  have h1 : ∀ k < 2 ^ (d + b - j), k * 2 ^ j < 2 ^ (d + b) := fun k hk => start_lt hj hk hpos
  have h2 : ∀ k < 2 ^ (d + b - j), k * 2 ^ j + 2 ^ (j - 1) < 2 ^ (d + b) := fun k hk => start_lt hj hk hhalf
  rw [sumQ, show d + 1 + b - j = d + b - j + 1 by omega]
  refine wsum_split (fun k hk => ?_) (fun k hk => ?_) (fun k hk hA => ?_) fun k hk hB => ?_
  · rw [vis_lo hS hp (by omega) (h1 k hk), vis_lo hS hp (by omega) (h2 k hk), and_or_left]
  · rw [hi_start hj, Nat.add_assoc, vis_hi hS hp (by omega) (h1 k hk), vis_hi hS hp (by omega) (h2 k hk), and_or_left]
  · rw [countP_goOn (b := b) (S := S) (p := p) vs (hbare _)]
    exact countP_lefts _ hA fun t ht s hs => by rw [cov_lo (goOn_noneBare (Or.inl hA) t ht) hj (h1 k hk), hs]; rfl
  · rw [hi_start hj, countP_goOn (b := b) (S := S) (p := p) vs (hbare _)]
    exact countP_rights _ hB fun t ht s hs => by rw [cov_hi (goOn_noneBare (Or.inr hB) t ht) hj, hs]; rfl

theorem vis_root {vs : List (Tr d)} (h : ∀ t ∈ vs, NZ b d t) : Vis b d S p vs (d + b) 0 := ⟨met_root h, fun i h1 h2 => by omega⟩

theorem sumP_root {vs : List (Tr d)} (h : ∀ t ∈ vs, NZ b d t) : sumP b d S p vs (d + b) = vs.length := by
  rw [sumP, Nat.sub_self, Nat.pow_zero, wsum]
  simp [vis_root h, opn]

theorem sumQ_root (hS : UpClosed S) (hp : 2 ^ (d + 1 + b) ∣ p) {vs : List (Tr (d + 1))} (h : ∀ t ∈ vs, NZ b (d + 1) t) :
    sumQ b (d + 1) S p vs (d + 1 + b) = if allL (goOn b S p vs) || allR (goOn b S p vs) then (goOn b S p vs).length else 0 := by
  have hpos := Nat.two_pow_pos (d + b)
  have e0 : Vis b (d + 1) S p vs (d + b) 0 ↔ allL (goOn b S p vs) = true := by
    rw [vis_lo hS hp (Nat.le_refl _) hpos]
    exact and_iff_left (vis_root (nz_lefts (nz_goOn h)))
  have e1 : Vis b (d + 1) S p vs (d + b) (2 ^ (d + b)) ↔ allR (goOn b S p vs) = true := by
    have := vis_hi hS hp (vs := vs) (Nat.le_refl (d + b)) (x := 0) hpos
    rw [Nat.add_zero (2 ^ (d + b))] at this
    rw [this]
    exact and_iff_left (vis_root (nz_rights (nz_goOn h)))
  rw [sumQ, Nat.sub_self, Nat.pow_zero, wsum]
  simp only [List.range_one, List.map_cons, List.map_nil, List.sum_cons, List.sum_nil, Nat.add_zero, Nat.zero_mul, Nat.zero_add,
    show d + 1 + b - 1 = d + b by omega, e0, e1, Bool.or_eq_true, cov_root]
  by_cases hg : allL (goOn b S p vs) = true ∨ allR (goOn b S p vs) = true
  · rw [if_pos hg, if_pos hg, countP_goOn (b := b) (S := S) (p := p) vs fun t _ hb => by rw [hb]; rfl]
    exact List.countP_eq_length.2 fun t ht => by rw [goOn_noneBare hg t ht]; rfl
  · rw [if_neg hg, if_neg hg]

end

theorem treeCostP_eq {b : Nat} {S : Nat → Nat → Bool} (hS : UpClosed S) (lc : Cost) : (d p : Nat) → 2 ^ (d + b) ∣ p → (vs : List (Tr d)) →
    (∀ t ∈ vs, NZ b d t) →
    treeCostP (fun n => ⟨lc.nodes * n, lc.moves * n, lc.words * n⟩) b S d p vs =
      ⟨((List.range d).map fun i => sumP b d S p vs (b + 1 + i)).sum + lc.nodes * sumP b d S p vs b,
        ((List.range d).map fun i => sumQ b d S p vs (b + 1 + i)).sum + lc.moves * sumP b d S p vs b, lc.words * sumP b d S p vs b⟩
  | 0, p, _, vs, h => by
    have := sumP_root (S := S) (p := p) h
    rw [Nat.zero_add] at this
    rw [this, treeCostP]
    simp
  | d + 1, p, hp, vs, h => by
    have hp' : 2 ^ (d + b + 1) ∣ p := by rwa [show d + b + 1 = d + 1 + b by omega]
    have il := treeCostP_eq hS lc d p (dvd_lo hp') (lefts (goOn b S p vs)) (nz_lefts (nz_goOn h))
    have ir := treeCostP_eq hS lc d (p + 2 ^ (d + b)) (dvd_hi hp') (rights (goOn b S p vs)) (nz_rights (nz_goOn h))
    rw [List.range_succ]
    simp only [List.map_append, List.map_cons, List.map_nil, List.sum_append, List.sum_cons, List.sum_nil, Nat.add_zero]
    rw [sum_split (f := fun i => sumP b (d + 1) S p vs (b + 1 + i)) fun i hi => sumP_succ hS hp vs (by omega),
      sum_split (f := fun i => sumQ b (d + 1) S p vs (b + 1 + i)) fun i hi => sumQ_succ hS hp vs (by omega) (by omega),
      sumP_succ hS hp vs (j := b) (by omega),
      show b + 1 + d = d + 1 + b by omega, sumP_root h, sumQ_root hS hp h, treeCostP, il, ir]
    cases allL (goOn b S p vs) <;> cases allR (goOn b S p vs) <;> simp [Cost.add, Cost.zero] <;> (try constructor) <;> (try constructor) <;> ring

/-! ## Sets -/

section
variable {b d k : Nat} {cs : List (Bool × List Nat)} {ts : List (Tr (d + 1 + k))}

/-- The block is dealt with before threads are started: it is larger than the blocks handed to threads, or is one that is replaced by its halves. -/
def early (cs : List (Bool × List Nat)) (J cut i k : Nat) : Bool := decide (J < i) || (decide (i = J) && isSplit cs J cut k)

theorem visited_spec {cs : List (Bool × List Nat)} {J cut i x : Nat} : visited cs J cut i (x / 2 ^ i) = true ↔
    meetsAll (cs.map Prod.snd) i (x / 2 ^ i) = true ∧ ∀ m, i < m → m ≤ J + cut → early cs J cut m (x / 2 ^ m) = true →
      someCollapsed cs m (x / 2 ^ m) = false := by
  have hd : ∀ m, i ≤ m → x / 2 ^ i * 2 ^ i / 2 ^ m = x / 2 ^ m := by
    intro m hm
    obtain ⟨e, rfl⟩ := Nat.exists_eq_add_of_le hm
    rw [Nat.pow_add, ← Nat.div_div_eq_div_mul, Nat.mul_div_cancel _ (Nat.two_pow_pos i), Nat.div_div_eq_div_mul]
  rw [visited, Bool.and_eq_true, and_comm]
  refine and_congr_right fun _ => ?_
  rw [hd _ (Nat.le_max_left _ _), exposed_spec]
  refine ⟨fun H m h1 h2 he => H m ?_ h2, fun H m h1 h2 => H m (by omega) h2 ?_⟩
  · simp only [early, Bool.or_eq_true, Bool.and_eq_true, decide_eq_true_eq] at he
    rcases he with he | ⟨rfl, he⟩
    · split <;> omega
    · rw [hd _ (by omega), if_pos he]; omega
  · simp only [early, Bool.or_eq_true, Bool.and_eq_true, decide_eq_true_eq]
    by_cases hJ : J < m
    · exact .inl hJ
    · refine .inr ?_
      split at h1
      next hs =>
        obtain rfl : m = J := by omega
        rw [hd _ (by omega)] at hs
        exact ⟨rfl, hs⟩
      next => omega

/-- The blocks that are dealt with before threads are started. -/
def earlyAt (cs : List (Bool × List Nat)) (J cut i x : Nat) : Bool := early cs J cut i (x / 2 ^ i)

theorem earlyAt_up (cs : List (Bool × List Nat)) (J cut : Nat) : UpClosed (earlyAt cs J cut) := by
  refine ⟨fun i i' x hi h => ?_, fun i x y h => by rw [earlyAt, earlyAt, h]⟩
  simp only [earlyAt, early, Bool.or_eq_true, Bool.and_eq_true, decide_eq_true_eq] at h ⊢
  rcases h with h | ⟨rfl, h⟩
  · left; omega
  · by_cases hii : i' = i
    · subst hii
      exact Or.inr ⟨rfl, h⟩
    · left; omega

theorem parCostR_early (A : Agree b (d + 1 + k) cs ts) (lc : Nat → Cost) :
    parCostR lc b ts.length ts = treeCostP lc b (earlyAt cs (d + 1 + b) k) (d + 1 + k) 0 ts := by
  have hsort : (taskBlocks cs (d + 1 + b) k).Pairwise (· < ·) := List.Pairwise.filter _ List.pairwise_lt_range
  refine parCostR_eq (fun i x hi => ?_) (fun i x hi => ?_) (fun u hu x x1 x2 => ?_) (fun u hu => ?_) fun u hu => walk_trees_length k 0 ts u hu
  · simp [earlyAt, early, hi]
  · rw [earlyAt, early, decide_eq_false (by omega), decide_eq_false (by omega)]
    rfl
  · rw [splitCount_eq A, walk_blocks A, ← List.map_take, List.mem_map] at hu
    obtain ⟨q, hq, rfl⟩ := hu
    simp only at x1 x2
    obtain ⟨y, rfl⟩ : ∃ y, x = q * 2 ^ (d + 1 + b) + y := ⟨x - q * 2 ^ (d + 1 + b), by omega⟩
    rw [earlyAt, block_div (by omega), early, isSplit, decide_eq_true hq]
    simp
  · rw [splitCount_eq A, walk_blocks A, ← List.map_drop, List.mem_map] at hu
    obtain ⟨q, hq, rfl⟩ := hu
    have hnd : ((taskBlocks cs (d + 1 + b) k).take (splitBlocks cs (d + 1 + b) k) ++
        (taskBlocks cs (d + 1 + b) k).drop (splitBlocks cs (d + 1 + b) k)).Nodup := by
      rw [List.take_append_drop]
      exact hsort.imp fun h => Nat.ne_of_lt h
    rw [List.nodup_append] at hnd
    rw [earlyAt, Nat.mul_div_cancel _ (Nat.two_pow_pos _), early, isSplit, decide_eq_false (fun h => hnd.2.2 q h q hq rfl)]
    simp

theorem vis_iff {J : Nat} (A : Agree b (d + 1 + k) cs ts) (hJ : J = d + 1 + b) {j x : Nat} (hb : b ≤ j) (hj : j ≤ d + 1 + k + b)
    (hx : x < 2 ^ (d + 1 + k + b)) : Vis b (d + 1 + k) (earlyAt cs J k) 0 ts j x ↔ visited cs J k j (x / 2 ^ j) = true := by
  have ht : J + k = d + 1 + k + b := by omega
  rw [Vis, visited_spec, A.met j x hj hx, ht]
  refine and_congr_right fun _ => ?_
  constructor
  · intro H m h1 h2 he
    rw [← A.any _ _ (by omega) (by omega) hx]
    exact H _ h1 h2 (by rw [Nat.zero_add]; exact he)
  · intro H i i1 i2 i3
    rw [Nat.zero_add, earlyAt] at i3
    rw [A.any _ _ (by omega) i2 hx]
    exact H i i1 i2 i3

theorem sumP_sets {J : Nat} (h : List.Forall₂ (CTree b (d + 1 + k)) cs ts) (hne : cs ≠ []) (hJ : J = d + 1 + b) {j : Nat} (hb : b ≤ j)
    (hj : j ≤ d + 1 + k + b) : sumP b (d + 1 + k) (earlyAt cs J k) 0 ts j = visitedAt cs J k j := by
  have A := agree_of h hne
  have hpos := Nat.two_pow_pos j
  have ht : J + k = d + 1 + k + b := by omega
  rw [sumP, visitedAt, sum_filter, wsum, ht]
  refine congrArg List.sum (List.map_congr_left fun q hq => ?_)
  have hlt := start_lt hj (List.mem_range.1 hq) hpos
  rw [Nat.add_zero] at hlt
  have hq' : q * 2 ^ j / 2 ^ j = q := Nat.mul_div_cancel _ hpos
  have e := vis_iff A hJ hb hj hlt
  rw [hq'] at e
  refine if_congr e ?_ rfl
  rw [openCount]
  exact (forall2_countP h fun c t hc => by rw [← hc.opn hb hj hlt, hq']).symm

theorem sumQ_sets {J : Nat} (h : List.Forall₂ (CTree b (d + 1 + k)) cs ts) (hne : cs ≠ []) (hJ : J = d + 1 + b) {j : Nat} (hb : b < j)
    (hj : j ≤ d + 1 + k + b) : sumQ b (d + 1 + k) (earlyAt cs J k) 0 ts j = visitedForkAt cs J k j := by
  have A := agree_of h hne
  have hpos := Nat.two_pow_pos j
  have hpos' := Nat.two_pow_pos (j - 1)
  have hp : 2 ^ j = 2 ^ (j - 1) * 2 := by rw [← Nat.pow_succ, show (j - 1).succ = j by omega]
  have hhalf : 2 ^ (j - 1) < 2 ^ j := Nat.pow_lt_pow_right (by omega) (by omega)
  have ht : J + k = d + 1 + k + b := by omega
  rw [sumQ, visitedForkAt, sum_filter, wsum, ht]
  refine congrArg List.sum (List.map_congr_left fun q hq => ?_)
  have h1 := start_lt hj (List.mem_range.1 hq) hpos
  have h2 := start_lt hj (List.mem_range.1 hq) hhalf
  rw [Nat.add_zero] at h1
  have e1 : q * 2 ^ j / 2 ^ (j - 1) = 2 * q := by
    rw [hp, ← Nat.mul_assoc, Nat.mul_right_comm, Nat.mul_div_cancel _ hpos', Nat.mul_comm]
  have e2 : (q * 2 ^ j + 2 ^ (j - 1)) / 2 ^ (j - 1) = 2 * q + 1 := by rw [Nat.add_div_right _ hpos', e1]
  have a1 := vis_iff A hJ (j := j - 1) (by omega) (by omega) h1
  have a2 := vis_iff A hJ (j := j - 1) (by omega) (by omega) h2
  rw [e1] at a1
  rw [e2] at a2
  have hif : (Vis b (d + 1 + k) (earlyAt cs J k) 0 ts (j - 1) (q * 2 ^ j) ∨
      Vis b (d + 1 + k) (earlyAt cs J k) 0 ts (j - 1) (q * 2 ^ j + 2 ^ (j - 1))) ↔
      (visited cs J k (j - 1) (2 * q) || visited cs J k (j - 1) (2 * q + 1)) = true := by rw [a1, a2, Bool.or_eq_true]
  have hc : (ts.countP fun t => !CBT.cov b (d + 1 + k) t j (q * 2 ^ j)) = openCount cs (d + 1 + k + b) (j - 1) (2 * q) := by
    rw [openCount]
    refine (forall2_countP h fun c t hc => ?_).symm
    have := hc.exposed (j := j - 1) (by omega) (by omega) h1
    rw [e1, show j - 1 + 1 = j by omega] at this
    exact this
  rw [hc]
  by_cases hq : (visited cs J k (j - 1) (2 * q) || visited cs J k (j - 1) (2 * q + 1)) = true
  · rw [if_pos hq, if_pos (hif.2 hq)]
  · rw [if_neg hq, if_neg fun h => hq (hif.1 h)]

/-- What a run-aware parallel call counts. -/
theorem parCostR_sets {J : Nat} (h : List.Forall₂ (CTree b (d + 1 + k)) cs ts) (hne : cs ≠ []) (hJ : J = d + 1 + b) (lc : Cost) :
    parCostR (fun n => ⟨lc.nodes * n, lc.moves * n, lc.words * n⟩) b ts.length ts =
      ⟨visitedAbove cs J k b + lc.nodes * visitedAt cs J k b, visitedForksAbove cs J k b + lc.moves * visitedAt cs J k b,
        lc.words * visitedAt cs J k b⟩ := by
  have A := agree_of h hne
  rw [parCostR_early A, ← hJ, treeCostP_eq (earlyAt_up _ _ _) lc _ 0 (dvd_zero _) ts A.nz, sumP_sets h hne hJ (Nat.le_refl b) (by omega),
    visitedAbove, visitedForksAbove, show J + k - b = d + 1 + k by omega]
  congr 3
  · exact List.map_congr_left fun i hi => sumP_sets h hne hJ (by omega) (by have := List.mem_range.1 hi; omega)
  · exact List.map_congr_left fun i hi => sumQ_sets h hne hJ (by omega) (by have := List.mem_range.1 hi; omega)

end

end CBT
