import Verif.SpecCost
import Verif.Proof.CostSets
import Verif.Proof.CostRuns
import Verif.Proof.ExactList
import Verif.Proof.ExactMem

/-!
# The counters of run-aware calls in terms of the sets
-/

namespace CBT

open Spec Classical

/-- The sum of `f` over the numbers below `n` with the property. -/
noncomputable def wsum (n : Nat) (Q : Nat → Prop) (f : Nat → Nat) : Nat := ((List.range n).map fun k => if Q k then f k else 0).sum

theorem wsum_congr {n : Nat} {Q Q' : Nat → Prop} {f f' : Nat → Nat} (h : ∀ k < n, (Q k ↔ Q' k) ∧ (Q k → f k = f' k)) :
    wsum n Q f = wsum n Q' f' := by
  refine congrArg List.sum (List.map_congr_left fun k hk => ?_)
  obtain ⟨h1, h2⟩ := h k (List.mem_range.1 hk)
  by_cases hq : Q k
  · rw [if_pos hq, if_pos (h1.1 hq), h2 hq]
  · rw [if_neg hq, if_neg (fun h => hq (h1.2 h))]

theorem wsum_split {m : Nat} {Q Ql Qr : Nat → Prop} {f fl fr : Nat → Nat} {A B : Bool} (hl : ∀ k < 2 ^ m, (Q k ↔ A = true ∧ Ql k))
    (hr : ∀ k < 2 ^ m, (Q (k + 2 ^ m) ↔ B = true ∧ Qr k)) (hfl : ∀ k < 2 ^ m, A = true → f k = fl k)
    (hfr : ∀ k < 2 ^ m, B = true → f (k + 2 ^ m) = fr k) :
    wsum (2 ^ (m + 1)) Q f = (if A then wsum (2 ^ m) Ql fl else 0) + (if B then wsum (2 ^ m) Qr fr else 0) := by
  have h1 : wsum (2 ^ (m + 1)) Q f = wsum (2 ^ m) Q f + wsum (2 ^ m) (fun k => Q (k + 2 ^ m)) (fun k => f (k + 2 ^ m)) := by
    rw [wsum, Nat.pow_succ, Nat.mul_two, List.range_add, List.map_append, List.sum_append, List.map_map]
    congr 2
    refine List.map_congr_left fun k _ => ?_
    simp only [Function.comp, Nat.add_comm (2 ^ m) k]
  have e1 : wsum (2 ^ m) Q f = if A then wsum (2 ^ m) Ql fl else 0 := by
    cases A with
    | true => exact wsum_congr fun k hk => ⟨by simpa using hl k hk, fun _ => hfl k hk rfl⟩
    | false =>
      rw [wsum_congr (Q' := fun _ => False) (f' := fun _ => 0) fun k hk => ⟨by simpa using hl k hk, fun h => by simp [hl k hk] at h⟩]
      simp [wsum]
  have e2 : wsum (2 ^ m) (fun k => Q (k + 2 ^ m)) (fun k => f (k + 2 ^ m)) = if B then wsum (2 ^ m) Qr fr else 0 := by
    cases B with
    | true => exact wsum_congr fun k hk => ⟨by simpa using hr k hk, fun _ => hfr k hk rfl⟩
    | false =>
      rw [wsum_congr (Q' := fun _ => False) (f' := fun _ => 0) fun k hk => ⟨by simpa using hr k hk, fun h => by simp [hr k hk] at h⟩]
      simp [wsum]
  rw [h1, e1, e2]

/-! ## Trees -/

theorem inner_noneBare {d : Nat} (vs : List (Tr (d + 1))) : NoneBare (inner vs) := by
  intro t ht
  simpa using (List.mem_filter.1 ht).2

theorem nz_inner {b d : Nat} {vs : List (Tr (d + 1))} (h : ∀ t ∈ vs, NZ b (d + 1) t) : ∀ t ∈ inner vs, NZ b (d + 1) t :=
  fun t ht => h t (List.mem_filter.1 ht).1

theorem met_inner {b d : Nat} {vs : List (Tr (d + 1))} {j x : Nat} (hx : x < 2 ^ (d + 1 + b)) :
    Met b (d + 1) vs j x ↔ Met b (d + 1) (inner vs) j x := by
  constructor
  · exact fun h t ht => h t (List.mem_filter.1 ht).1
  · intro h t ht
    cases hb : t.bare with
    | true => exact ⟨x, hx, rfl, hasR_bare hb⟩
    | false => exact h t (List.mem_filter.2 ⟨ht, by simp [hb]⟩)

/-- The block of size `2^j` around `x` is not below a node without children of a larger block. -/
def opn (b d : Nat) (t : Tr d) (j x : Nat) : Bool := decide (d + b ≤ j) || !cov b d t (j + 1) x

theorem countP_lefts {d : Nat} {p : Tr (d + 1) → Bool} {q : Tr d → Bool} : (ws : List (Tr (d + 1))) → allL ws = true →
    (∀ t ∈ ws, ∀ s, t.l = some s → p t = q s) → ws.countP p = (lefts ws).countP q
  | [], _, _ => rfl
  | t :: ws, h, hp => by
    simp only [allL, List.all_cons, Bool.and_eq_true] at h
    have ih := countP_lefts (p := p) (q := q) ws h.2 fun t ht => hp t (List.mem_cons_of_mem _ ht)
    cases hl : t.l with
    | none => rw [hl] at h; simp at h
    | some s =>
      rw [lefts, List.filterMap_cons, hl, List.countP_cons, List.countP_cons, ih, hp t List.mem_cons_self s hl]
      rfl

theorem countP_rights {d : Nat} {p : Tr (d + 1) → Bool} {q : Tr d → Bool} : (ws : List (Tr (d + 1))) → allR ws = true →
    (∀ t ∈ ws, ∀ s, t.r = some s → p t = q s) → ws.countP p = (rights ws).countP q
  | [], _, _ => rfl
  | t :: ws, h, hp => by
    simp only [allR, List.all_cons, Bool.and_eq_true] at h
    have ih := countP_rights (p := p) (q := q) ws h.2 fun t ht => hp t (List.mem_cons_of_mem _ ht)
    cases hl : t.r with
    | none => rw [hl] at h; simp at h
    | some s =>
      rw [rights, List.filterMap_cons, hl, List.countP_cons, List.countP_cons, ih, hp t List.mem_cons_self s hl]
      rfl

theorem countP_inner {d : Nat} {p : Tr (d + 1) → Bool} (vs : List (Tr (d + 1))) (hp : ∀ t ∈ vs, t.bare = true → p t = false) :
    vs.countP p = (inner vs).countP p := by
  rw [inner, List.countP_filter]
  refine List.countP_congr fun t ht => ?_
  cases hb : t.bare with
  | true => simp [hp t ht hb]
  | false => simp

theorem cov_bare {b d : Nat} {t : Tr (d + 1)} (h : t.bare = true) (j x : Nat) : cov b (d + 1) t j x = true := by simp [cov, h]

theorem opn_lo {b d : Nat} {t : Tr (d + 1)} {s : Tr d} (h : t.bare = false) (hl : t.l = some s) {j x : Nat} (hj : j ≤ d + b)
    (hx : x < 2 ^ (d + b)) : opn b (d + 1) t j x = opn b d s j x := by
  rw [opn, opn, decide_eq_false (by omega), Bool.false_or]
  by_cases hj' : j = d + b
  · subst hj'
    rw [show d + b + 1 = d + 1 + b by omega, cov_root, h]
    simp
  · rw [cov_lo h (by omega) hx, hl, decide_eq_false (by omega)]
    rfl

theorem opn_hi {b d : Nat} {t : Tr (d + 1)} {s : Tr d} (h : t.bare = false) (hl : t.r = some s) {j x : Nat} (hj : j ≤ d + b) :
    opn b (d + 1) t j (2 ^ (d + b) + x) = opn b d s j x := by
  rw [opn, opn, decide_eq_false (by omega), Bool.false_or]
  by_cases hj' : j = d + b
  · subst hj'
    rw [show d + b + 1 = d + 1 + b by omega, cov_root, h]
    simp
  · rw [cov_hi h (by omega), hl, decide_eq_false (by omega)]
    rfl

noncomputable def sumW (b d : Nat) (vs : List (Tr d)) (j : Nat) : Nat :=
  wsum (2 ^ (d + b - j)) (fun k => Met b d vs j (k * 2 ^ j)) fun k => vs.countP fun t => opn b d t j (k * 2 ^ j)

noncomputable def sumV (b d : Nat) (vs : List (Tr d)) (j : Nat) : Nat :=
  wsum (2 ^ (d + b - j)) (fun k => Met b d vs (j - 1) (k * 2 ^ j) ∨ Met b d vs (j - 1) (k * 2 ^ j + 2 ^ (j - 1)))
    fun k => vs.countP fun t => !cov b d t j (k * 2 ^ j)

theorem hi_start {d b j k : Nat} (hj : j ≤ d + b) : (k + 2 ^ (d + b - j)) * 2 ^ j = 2 ^ (d + b) + k * 2 ^ j := by
  rw [Nat.add_mul, ← Nat.pow_add, show d + b - j + j = d + b by omega, Nat.add_comm]

theorem start_lt {d b j k y : Nat} (hj : j ≤ d + b) (hk : k < 2 ^ (d + b - j)) (hy : y < 2 ^ j) : k * 2 ^ j + y < 2 ^ (d + b) := by
  have := mul_lt_pow hk hy
  rwa [show j + (d + b - j) = d + b by omega] at this

theorem sumW_succ {b d : Nat} (vs : List (Tr (d + 1))) {j : Nat} (hj : j ≤ d + b) : sumW b (d + 1) vs j =
    (if allL (inner vs) then sumW b d (lefts (inner vs)) j else 0) + (if allR (inner vs) then sumW b d (rights (inner vs)) j else 0) := by
  have hp := pow_split d b
  have hpos := Nat.two_pow_pos j
  have hbare : ∀ x, ∀ t ∈ vs, t.bare = true → opn b (d + 1) t j x = false := by
    intro x t _ hb
    rw [opn, cov_bare hb, decide_eq_false (by omega)]
    rfl
  rw [sumW, show d + 1 + b - j = d + b - j + 1 by omega]
  refine wsum_split (fun k hk => ?_) (fun k hk => ?_) (fun k hk hA => ?_) fun k hk hB => ?_
  · have := start_lt hj hk hpos
    rw [Nat.add_zero] at this
    rw [met_inner (by omega), met_lo (inner_noneBare vs) hj this]
  · have := start_lt hj hk hpos
    rw [Nat.add_zero] at this
    rw [hi_start hj, met_inner (by omega), met_hi (inner_noneBare vs) hj]
  · have := start_lt hj hk hpos
    rw [Nat.add_zero] at this
    rw [countP_inner vs (hbare _)]
    exact countP_lefts _ hA fun t ht s hs => opn_lo (inner_noneBare vs t ht) hs hj this
  · rw [hi_start hj, countP_inner vs (hbare _)]
    exact countP_rights _ hB fun t ht s hs => opn_hi (inner_noneBare vs t ht) hs hj

theorem sumV_succ {b d : Nat} (vs : List (Tr (d + 1))) {j : Nat} (hj : j ≤ d + b) (h0 : 0 < j) : sumV b (d + 1) vs j =
    (if allL (inner vs) then sumV b d (lefts (inner vs)) j else 0) + (if allR (inner vs) then sumV b d (rights (inner vs)) j else 0) := by
  have hp := pow_split d b
  have hpos := Nat.two_pow_pos j
  have hhalf : 2 ^ (j - 1) < 2 ^ j := Nat.pow_lt_pow_right (by omega) (by omega)
  have hbare : ∀ x, ∀ t ∈ vs, t.bare = true → (!cov b (d + 1) t j x) = false := by
    intro x t _ hb
    rw [cov_bare hb]
    rfl
  rw [sumV, show d + 1 + b - j = d + b - j + 1 by omega]
  refine wsum_split (fun k hk => ?_) (fun k hk => ?_) (fun k hk hA => ?_) fun k hk hB => ?_
  · have h1 := start_lt hj hk hpos
    have h2 := start_lt hj hk hhalf
    rw [Nat.add_zero] at h1
    rw [met_inner (x := k * 2 ^ j) (by omega), met_inner (vs := vs) (x := k * 2 ^ j + 2 ^ (j - 1)) (by omega),
      met_lo (inner_noneBare vs) (by omega) h1, met_lo (inner_noneBare vs) (by omega) h2,
      and_or_left]
  · have h1 := start_lt hj hk hpos
    have h2 := start_lt hj hk hhalf
    rw [Nat.add_zero] at h1
    rw [hi_start hj, Nat.add_assoc, met_inner (x := 2 ^ (d + b) + k * 2 ^ j) (by omega),
      met_inner (vs := vs) (x := 2 ^ (d + b) + (k * 2 ^ j + 2 ^ (j - 1))) (by omega), met_hi (inner_noneBare vs) (by omega),
      met_hi (inner_noneBare vs) (by omega), and_or_left]
  · have h1 := start_lt hj hk hpos
    rw [Nat.add_zero] at h1
    rw [countP_inner vs (hbare _)]
    exact countP_lefts _ hA fun t ht s hs => by rw [cov_lo (inner_noneBare vs t ht) hj h1, hs]; rfl
  · rw [hi_start hj, countP_inner vs (hbare _)]
    exact countP_rights _ hB fun t ht s hs => by rw [cov_hi (inner_noneBare vs t ht) hj, hs]; rfl

theorem met_root {b d : Nat} {vs : List (Tr d)} (h : ∀ t ∈ vs, NZ b d t) : Met b d vs (d + b) 0 := by
  intro t ht
  obtain ⟨x, hx, hx'⟩ := (h t ht).exists_hasR
  exact ⟨x, hx, by rw [Nat.div_eq_of_lt hx, Nat.zero_div], hx'⟩

theorem sumW_root {b d : Nat} {vs : List (Tr d)} (h : ∀ t ∈ vs, NZ b d t) : sumW b d vs (d + b) = vs.length := by
  rw [sumW, Nat.sub_self, Nat.pow_zero, wsum]
  simp [met_root h, opn]

theorem sumV_root {b d : Nat} {vs : List (Tr (d + 1))} (h : ∀ t ∈ vs, NZ b (d + 1) t) :
    sumV b (d + 1) vs (d + 1 + b) = if allL (inner vs) || allR (inner vs) then (inner vs).length else 0 := by
  have hp := pow_split d b
  have hpos := Nat.two_pow_pos (d + b)
  have e0 : Met b (d + 1) vs (d + b) 0 ↔ allL (inner vs) = true := by
    rw [met_inner (by omega), met_lo (inner_noneBare vs) (Nat.le_refl _) hpos]
    exact and_iff_left (met_root (nz_lefts (nz_inner h)))
  have e1 : Met b (d + 1) vs (d + b) (2 ^ (d + b)) ↔ allR (inner vs) = true := by
    have := met_hi (b := b) (inner_noneBare vs) (Nat.le_refl (d + b)) (x := 0)
    rw [Nat.add_zero (2 ^ (d + b))] at this
    rw [met_inner (by omega), this]
    exact and_iff_left (met_root (nz_rights (nz_inner h)))
  rw [sumV, Nat.sub_self, Nat.pow_zero, wsum]
  simp only [List.range_one, List.map_cons, List.map_nil, List.sum_cons, List.sum_nil, Nat.add_zero, Nat.zero_mul, Nat.zero_add,
    show d + 1 + b - 1 = d + b by omega, e0, e1, Bool.or_eq_true, cov_root]
  rw [inner, ← List.countP_eq_length_filter]

theorem treeCostR_eq {b : Nat} (lc : Cost) : (d : Nat) → (vs : List (Tr d)) → (∀ t ∈ vs, NZ b d t) →
    treeCostR (fun n => ⟨lc.nodes * n, lc.moves * n, lc.words * n⟩) d vs =
      ⟨((List.range d).map fun i => sumW b d vs (b + 1 + i)).sum + lc.nodes * sumW b d vs b,
        ((List.range d).map fun i => sumV b d vs (b + 1 + i)).sum + lc.moves * sumW b d vs b, lc.words * sumW b d vs b⟩
  | 0, vs, h => by
    have := sumW_root h
    rw [Nat.zero_add] at this
    rw [this, treeCostR]
    simp
  | d + 1, vs, h => by
    have il := treeCostR_eq lc d (lefts (inner vs)) (nz_lefts (nz_inner h))
    have ir := treeCostR_eq lc d (rights (inner vs)) (nz_rights (nz_inner h))
    rw [List.range_succ]
    simp only [List.map_append, List.map_cons, List.map_nil, List.sum_append, List.sum_cons, List.sum_nil, Nat.add_zero]
    rw [sum_split (f := fun i => sumW b (d + 1) vs (b + 1 + i)) fun i hi => sumW_succ vs (by omega),
      sum_split (f := fun i => sumV b (d + 1) vs (b + 1 + i)) fun i hi => sumV_succ vs (by omega) (by omega), sumW_succ vs (j := b) (by omega),
      show b + 1 + d = d + 1 + b by omega, sumW_root h, sumV_root h, treeCostR, il, ir]
    cases allL (inner vs) <;> cases allR (inner vs) <;> simp [Cost.add, Cost.zero] <;> (try constructor) <;> (try constructor) <;> ring

/-! ## Sets -/

theorem sum_filter {p : Nat → Bool} {f : Nat → Nat} : (l : List Nat) →
    ((l.filter p).map f).sum = (l.map fun k => if p k then f k else 0).sum
  | [] => rfl
  | a :: l => by
    have ih := sum_filter (p := p) (f := f) l
    rw [List.filter_cons]
    cases hp : p a <;> simp [ih, hp]

theorem forall2_countP {A B : Type} {r : A → B → Prop} {p : A → Bool} {q : B → Bool} {l : List A} {m : List B} (h : List.Forall₂ r l m)
    (hpq : ∀ a b, r a b → p a = q b) : l.countP p = m.countP q := by
  induction h with
  | nil => rfl
  | cons h1 _ ih => rw [List.countP_cons, List.countP_cons, ih, hpq _ _ h1]

section
variable {b D : Nat}

theorem CTree.exposed {c : Bool × List Nat} {t : Tr D} (h : CTree b D c t) {j x : Nat} (hb : b ≤ j) (hj : j < D + b) (hx : x < 2 ^ (D + b)) :
    Spec.exposed [c] (D + b) j (x / 2 ^ j) = !CBT.cov b D t (j + 1) x := by
  rw [h.cov (by omega) (by omega) hx, Bool.eq_iff_iff, exposed_spec, Bool.not_eq_true']
  simp only [someCollapsed, List.any_cons, List.any_nil, Bool.or_false]
  refine ⟨fun H => H (j + 1) (by omega) (by omega), fun H i h1 h2 => ?_⟩
  by_contra hc
  rw [Bool.not_eq_false] at hc
  rw [collapsed_mono (i := j + 1) (by omega) hc] at H
  cases H

theorem CTree.opn {c : Bool × List Nat} {t : Tr D} (h : CTree b D c t) {j x : Nat} (hb : b ≤ j) (hj : j ≤ D + b) (hx : x < 2 ^ (D + b)) :
    Spec.exposed [c] (D + b) j (x / 2 ^ j) = CBT.opn b D t j x := by
  by_cases hj' : j = D + b
  · subst hj'
    simp [CBT.opn, Spec.exposed]
  · rw [CBT.opn, decide_eq_false (by omega), Bool.false_or, h.exposed hb (by omega) hx]

variable {cs : List (Bool × List Nat)} {ts : List (Tr D)}

theorem sumW_sets (h : List.Forall₂ (CTree b D) cs ts) (hne : cs ≠ []) {j : Nat} (hb : b ≤ j) (hj : j ≤ D + b) :
    sumW b D ts j = openAt cs (D + b) j := by
  have A := agree_of h hne
  have hpos := Nat.two_pow_pos j
  rw [sumW, openAt, commonBlocks, sum_filter, wsum]
  refine congrArg List.sum (List.map_congr_left fun k hk => ?_)
  have hlt := start_lt hj (List.mem_range.1 hk) hpos
  rw [Nat.add_zero] at hlt
  have hk' : k * 2 ^ j / 2 ^ j = k := Nat.mul_div_cancel _ hpos
  have e := A.met j (k * 2 ^ j) hj hlt
  rw [hk'] at e
  refine if_congr e ?_ rfl
  rw [openCount]
  exact (forall2_countP h fun c t hc => by rw [← hc.opn hb hj hlt, hk']).symm

theorem sumV_sets (h : List.Forall₂ (CTree b D) cs ts) (hne : cs ≠ []) {j : Nat} (hb : b < j) (hj : j ≤ D + b) :
    sumV b D ts j = openForkAt cs (D + b) j := by
  have A := agree_of h hne
  have hpos := Nat.two_pow_pos j
  have hpos' := Nat.two_pow_pos (j - 1)
  have hp : 2 ^ j = 2 ^ (j - 1) * 2 := by rw [← Nat.pow_succ, show (j - 1).succ = j by omega]
  have hhalf : 2 ^ (j - 1) < 2 ^ j := Nat.pow_lt_pow_right (by omega) (by omega)
  rw [sumV, openForkAt, commonBlocks, List.filter_filter, sum_filter, wsum]
  refine congrArg List.sum (List.map_congr_left fun k hk => ?_)
  have h1 := start_lt hj (List.mem_range.1 hk) hpos
  have h2 := start_lt hj (List.mem_range.1 hk) hhalf
  rw [Nat.add_zero] at h1
  have e1 : k * 2 ^ j / 2 ^ (j - 1) = 2 * k := by
    rw [hp, ← Nat.mul_assoc, Nat.mul_right_comm, Nat.mul_div_cancel _ hpos', Nat.mul_comm]
  have e2 : (k * 2 ^ j + 2 ^ (j - 1)) / 2 ^ (j - 1) = 2 * k + 1 := by rw [Nat.add_div_right _ hpos', e1]
  have a1 := A.met (j - 1) _ (by omega) h1
  have a2 := A.met (j - 1) _ (by omega) h2
  rw [e1] at a1
  rw [e2] at a2
  generalize hS : cs.map Prod.snd = sets at *
  have hh : commonHalves sets (j - 1) k ≠ 0 ↔ meetsAll sets (j - 1) (2 * k) = true ∨ meetsAll sets (j - 1) (2 * k + 1) = true := by
    rw [commonHalves]
    split <;> split <;> simp_all
  have up : ∀ r ≤ 1, meetsAll sets (j - 1) (2 * k + r) = true → meetsAll sets j k = true := by
    intro r hr H
    rw [meetsAll_iff] at H ⊢
    intro S hS
    obtain ⟨x, hx, hx'⟩ := H S hS
    refine ⟨x, hx, ?_⟩
    rw [hp, ← Nat.div_div_eq_div_mul, hx']
    omega
  have u0 := up 0 (by omega)
  have u1 := up 1 (by omega)
  rw [Nat.add_zero] at u0
  have hif : (Met b D ts (j - 1) (k * 2 ^ j) ∨ Met b D ts (j - 1) (k * 2 ^ j + 2 ^ (j - 1))) ↔
      (decide (commonHalves sets (j - 1) k ≠ 0) && meetsAll sets j k) = true := by
    rw [a1, a2]
    simp only [Bool.and_eq_true, decide_eq_true_eq, hh]
    exact ⟨fun h => ⟨h, h.elim u0 u1⟩, fun h => h.1⟩
  have hc : (ts.countP fun t => !CBT.cov b D t j (k * 2 ^ j)) = openCount cs (D + b) (j - 1) (2 * k) := by
    rw [openCount]
    refine (forall2_countP h fun c t hc => ?_).symm
    have := hc.exposed (j := j - 1) (by omega) (by omega) h1
    rw [e1, show j - 1 + 1 = j by omega] at this
    exact this
  rw [hc]
  by_cases hq : (decide (commonHalves sets (j - 1) k ≠ 0) && meetsAll sets j k) = true
  · rw [if_pos hq, if_pos (hif.2 hq)]
  · rw [if_neg hq, if_neg fun h => hq (hif.1 h)]

theorem treeCostR_sets (h : List.Forall₂ (CTree b D) cs ts) (hne : cs ≠ []) (lc : Cost) :
    treeCostR (fun n => ⟨lc.nodes * n, lc.moves * n, lc.words * n⟩) D ts =
      ⟨openAbove cs (D + b) b + lc.nodes * openAt cs (D + b) b, openForksAbove cs (D + b) b + lc.moves * openAt cs (D + b) b,
        lc.words * openAt cs (D + b) b⟩ := by
  rw [treeCostR_eq lc D ts (agree_of h hne).nz, sumW_sets h hne (Nat.le_refl b) (by omega), openAbove, openForksAbove, Nat.add_sub_cancel]
  congr 3
  · exact List.map_congr_left fun i hi => sumW_sets h hne (by omega) (by have := List.mem_range.1 hi; omega)
  · exact List.map_congr_left fun i hi => sumV_sets h hne (by omega) (by have := List.mem_range.1 hi; omega)

end

end CBT
