import Verif.SpecCost
import Verif.Proof.CostTree
import Verif.Proof.MemoryLeak

/-!
# The counters in terms of the sets
-/

namespace CBT

open Spec Classical

/-- How many numbers below `n` have the property. -/
noncomputable def cnt (n : Nat) (Q : Nat → Prop) : Nat := (List.range n).countP fun k => decide (Q k)

theorem cnt_congr {n : Nat} {Q Q' : Nat → Prop} (h : ∀ k < n, (Q k ↔ Q' k)) : cnt n Q = cnt n Q' := by
  refine List.countP_congr fun k hk => ?_
  simp only [decide_eq_true_eq]
  exact h k (List.mem_range.1 hk)

theorem cnt_split {m : Nat} {Q Ql Qr : Nat → Prop} {A B : Bool} (hl : ∀ k < 2 ^ m, (Q k ↔ A = true ∧ Ql k))
    (hr : ∀ k < 2 ^ m, (Q (k + 2 ^ m) ↔ B = true ∧ Qr k)) :
    cnt (2 ^ (m + 1)) Q = (if A then cnt (2 ^ m) Ql else 0) + (if B then cnt (2 ^ m) Qr else 0) := by
  have h1 : cnt (2 ^ (m + 1)) Q = cnt (2 ^ m) Q + cnt (2 ^ m) (fun k => Q (k + 2 ^ m)) := by
    rw [cnt, Nat.pow_succ, Nat.mul_two, List.range_add, List.countP_append, List.countP_map]
    congr 1
    refine List.countP_congr fun k _ => ?_
    simp [Nat.add_comm]
  rw [h1, cnt_congr hl, cnt_congr hr]
  cases A <;> cases B <;> simp [cnt]

theorem sum_split {d : Nat} {f g h : Nat → Nat} {A B : Bool} (H : ∀ i < d, f i = (if A then g i else 0) + (if B then h i else 0)) :
    ((List.range d).map f).sum = (if A then ((List.range d).map g).sum else 0) + (if B then ((List.range d).map h).sum else 0) := by
  induction d with
  | zero => cases A <;> cases B <;> rfl
  | succ d ih =>
    rw [List.range_succ]
    simp only [List.map_append, List.map_cons, List.map_nil, List.sum_append, List.sum_cons, List.sum_nil, Nat.add_zero]
    rw [ih fun i hi => H i (by omega), H d (by omega)]
    cases A <;> cases B <;> simp
    omega

noncomputable def cntN (b d : Nat) (ts : List (Tr d)) (j : Nat) : Nat := cnt (2 ^ (d + b - j)) (Blk b d ts j)

noncomputable def cntM (b d : Nat) (ts : List (Tr d)) (j : Nat) : Nat :=
  cnt (2 ^ (d + b - j)) fun k => Blk b d ts (j - 1) (2 * k) ∨ Blk b d ts (j - 1) (2 * k + 1)

theorem cntN_succ {b d : Nat} (ts : List (Tr (d + 1))) {j : Nat} (hj : j ≤ d + b) : cntN b (d + 1) ts j =
    (if allL ts then cntN b d (lefts ts) j else 0) + (if allR ts then cntN b d (rights ts) j else 0) := by
  rw [cntN, show d + 1 + b - j = d + b - j + 1 by omega]
  exact cnt_split (fun k hk => blk_lo ts hj hk) fun k _ => blk_hi ts hj

theorem cntM_succ {b d : Nat} (ts : List (Tr (d + 1))) {j : Nat} (hj : j ≤ d + b) (h0 : 0 < j) : cntM b (d + 1) ts j =
    (if allL ts then cntM b d (lefts ts) j else 0) + (if allR ts then cntM b d (rights ts) j else 0) := by
  rw [cntM, show d + 1 + b - j = d + b - j + 1 by omega]
  have e : 2 ^ (d + b - (j - 1)) = 2 * 2 ^ (d + b - j) := two_pow_half (by omega)
  refine cnt_split (fun k hk => ?_) fun k _ => ?_
  · rw [blk_lo ts (by omega) (by omega), blk_lo ts (by omega) (by omega), and_or_left]
  · rw [show 2 * (k + 2 ^ (d + b - j)) = 2 * k + 2 ^ (d + b - (j - 1)) by omega,
      show 2 * k + 2 ^ (d + b - (j - 1)) + 1 = 2 * k + 1 + 2 ^ (d + b - (j - 1)) by omega,
      blk_hi ts (by omega), blk_hi ts (by omega), and_or_left]

theorem cntN_root {b d : Nat} {ts : List (Tr d)} (h : ∀ t ∈ ts, NE b d t) : cntN b d ts (d + b) = 1 := by
  rw [cntN, Nat.sub_self, Nat.pow_zero, cnt]
  simp [blk_root h]

theorem cntM_root {b d : Nat} {ts : List (Tr (d + 1))} (h : ∀ t ∈ ts, NE b (d + 1) t) :
    cntM b (d + 1) ts (d + 1 + b) = if allL ts || allR ts then 1 else 0 := by
  rw [cntM, Nat.sub_self, Nat.pow_zero, cnt]
  have e0 : Blk b (d + 1) ts (d + b) 0 ↔ allL ts = true := by
    rw [blk_lo ts (Nat.le_refl _) (by simp)]
    exact and_iff_left (blk_root (ne_lefts h))
  have e1 : Blk b (d + 1) ts (d + b) 1 ↔ allR ts = true := by
    have := blk_hi (b := b) ts (Nat.le_refl (d + b)) (k := 0)
    rw [Nat.sub_self, Nat.pow_zero, Nat.zero_add] at this
    rw [this]
    exact and_iff_left (blk_root (ne_rights h))
  simp only [List.range_one, List.countP_cons, List.countP_nil, Nat.zero_add, decide_eq_true_eq, Nat.mul_zero,
    show d + 1 + b - 1 = d + b by omega, e0, e1, Bool.or_eq_true]

theorem treeCost_eq {b : Nat} (lc : Cost) (n : Nat) : (d : Nat) → (ts : List (Tr d)) → (∀ t ∈ ts, NE b d t) →
    treeCost lc n d ts = ⟨n * ((List.range d).map fun i => cntN b d ts (b + 1 + i)).sum + lc.nodes * cntN b d ts b,
      n * ((List.range d).map fun i => cntM b d ts (b + 1 + i)).sum + lc.moves * cntN b d ts b, lc.words * cntN b d ts b⟩
  | 0, ts, h => by
    have := cntN_root h
    rw [Nat.zero_add] at this
    rw [this, treeCost]
    simp
  | d + 1, ts, h => by
    have il := treeCost_eq lc n d (lefts ts) (ne_lefts h)
    have ir := treeCost_eq lc n d (rights ts) (ne_rights h)
    rw [List.range_succ]
    simp only [List.map_append, List.map_cons, List.map_nil, List.sum_append, List.sum_cons, List.sum_nil, Nat.add_zero]
    rw [sum_split (f := fun i => cntN b (d + 1) ts (b + 1 + i)) fun i hi => cntN_succ ts (by omega),
      sum_split (f := fun i => cntM b (d + 1) ts (b + 1 + i)) fun i hi => cntM_succ ts (by omega) (by omega), cntN_succ ts (j := b) (by omega),
      show b + 1 + d = d + 1 + b by omega, cntN_root h, cntM_root h, treeCost, il, ir]
    cases allL ts <;> cases allR ts <;> simp [Cost.add, Cost.zero] <;> (try constructor) <;> (try constructor) <;> ring

section
variable {b d : Nat} {sets : List (List Nat)} {ts : List (Tr d)}

theorem cntN_sets (h : List.Forall₂ (fun S t => Holds (d + b) (has b d t) S) sets ts) (hb : ∀ S ∈ sets, ∀ x ∈ S, x < 2 ^ (d + b)) {j : Nat}
    (hj : j ≤ d + b) : cntN b d ts j = commonCount sets (d + b) j := by
  rw [cntN, cnt, commonCount, commonBlocks, ← List.countP_eq_length_filter]
  refine List.countP_congr fun k hk => ?_
  rw [decide_eq_true_eq, meetsAll_iff]
  exact allMeet_blk h hb hj (List.mem_range.1 hk)

theorem cntM_sets (h : List.Forall₂ (fun S t => Holds (d + b) (has b d t) S) sets ts) (hb : ∀ S ∈ sets, ∀ x ∈ S, x < 2 ^ (d + b)) {j : Nat}
    (hj : j ≤ d + b) (h0 : 0 < j) : cntM b d ts j = forkCount sets (d + b) j := by
  rw [cntM, cnt, forkCount, commonBlocks, List.filter_filter, ← List.countP_eq_length_filter]
  refine List.countP_congr fun k hk => ?_
  have hk := List.mem_range.1 hk
  have e : 2 ^ (d + b - (j - 1)) = 2 * 2 ^ (d + b - j) := two_pow_half (by omega)
  have hh : commonHalves sets (j - 1) k ≠ 0 ↔ meetsAll sets (j - 1) (2 * k) = true ∨ meetsAll sets (j - 1) (2 * k + 1) = true := by
    rw [commonHalves]
    split <;> split <;> simp_all
  simp only [decide_eq_true_eq, Bool.and_eq_true, hh]
  rw [allMeet_blk h hb (by omega) (by omega), allMeet_blk h hb (by omega) (by omega), ← meetsAll_iff, ← meetsAll_iff]
  have up : ∀ r ≤ 1, meetsAll sets (j - 1) (2 * k + r) = true → meetsAll sets j k = true := by
    intro r hr H
    rw [meetsAll_iff] at H ⊢
    intro S hS
    obtain ⟨x, hx, hx'⟩ := H S hS
    refine ⟨x, hx, ?_⟩
    rw [show j = j - 1 + 1 by omega, Nat.pow_succ, ← Nat.div_div_eq_div_mul, hx']
    omega
  have u0 := up 0 (by omega)
  have u1 := up 1 (by omega)
  rw [Nat.add_zero] at u0
  exact ⟨fun h => ⟨h, h.elim u0 u1⟩, fun h => h.1⟩

theorem treeCost_sets (hn : ∀ t ∈ ts, NE b d t) (h : List.Forall₂ (fun S t => Holds (d + b) (has b d t) S) sets ts)
    (hb : ∀ S ∈ sets, ∀ x ∈ S, x < 2 ^ (d + b)) (lc : Cost) (n : Nat) : treeCost lc n d ts =
      ⟨n * commonAbove sets (d + b) b + lc.nodes * commonCount sets (d + b) b, n * forksAbove sets (d + b) b + lc.moves * commonCount sets (d + b) b,
        lc.words * commonCount sets (d + b) b⟩ := by
  rw [treeCost_eq lc n d ts hn, cntN_sets h hb (by omega), commonAbove, forksAbove, Nat.add_sub_cancel]
  congr 4
  · exact List.map_congr_left fun i hi => cntN_sets h hb (by have := List.mem_range.1 hi; omega)
  · exact List.map_congr_left fun i hi => cntM_sets h hb (by have := List.mem_range.1 hi; omega) (by omega)

end

end CBT
