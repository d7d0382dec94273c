import Verif.Proof.Flags
import Verif.Proof.UnreadableInter
import Verif.Proof.CostRunsSets

/-!
# Plain traversals of tries some nodes of which cannot be read
-/

namespace CBT

open Spec

section
variable {α : Type} (nav : α → Nav) (bad : α → Nat → Nat → Prop) (leaf : α → Nat → Nat → Nat → Prop) (b : Nat)

/-- Like `Reps`, for the block starting at `p`. -/
def RepsQ (d ℓ p : Nat) : List α → List (Tr d) → List (Option Nat) → Prop
  | [], [], _ => True
  | a :: as, t :: ts, some id :: os => RepB (nav a) (bad a) (leaf a) b d ℓ t id p ∧ RepsQ d ℓ p as ts os
  | _, _, _ => False

theorem RepsQ.rec' {d ℓ p : Nat} {motive : List α → List (Tr d) → List (Option Nat) → Prop} (hnil : ∀ os, motive [] [] os)
    (hcons : ∀ a as t ts id os, RepB (nav a) (bad a) (leaf a) b d ℓ t id p → RepsQ nav bad leaf b d ℓ p as ts os →
      motive as ts os → motive (a :: as) (t :: ts) (some id :: os)) :
    ∀ as ts os, RepsQ nav bad leaf b d ℓ p as ts os → motive as ts os
  | [], [], os, _ => hnil os
  | a :: as, t :: ts, some id :: os, h => hcons a as t ts id os h.1 h.2 (RepsQ.rec' hnil hcons as ts os h.2)
  | [], _ :: _, _, h => by simp [RepsQ] at h
  | _ :: _, [], _, h => by simp [RepsQ] at h
  | _ :: _, _ :: _, [], h => by simp [RepsQ] at h
  | _ :: _, _ :: _, none :: _, h => by simp [RepsQ] at h

theorem RepsQ.leaves {ℓ p : Nat} : ∀ (as : List α) (ts : List (Tr 0)) (os : List (Option Nat)),
    RepsQ nav bad leaf b 0 ℓ p as ts os → Reps nav leaf 0 ℓ as ts os := by
  apply RepsQ.rec'
  · intro os; trivial
  · intro a as t ts id os h _ ih; exact ⟨h, ih⟩

def HitNowPl {d : Nat} (p : Nat) (as : List α) (ts : List (Tr (d + 1))) : Prop :=
  ∃ a t, (a, t) ∈ as.zip ts ∧ t.bare = true ∧ bad a (d + 1 + b) p

/-- A node that cannot be read is met at or below the block starting at `p`. -/
def HitsPl : (d p : Nat) → List α → List (Tr d) → Prop
  | 0, _, _, _ => False
  | d + 1, p, as, ts => HitNowPl bad b p as ts ∨ allL ts = true ∧ HitsPl d p as (lefts ts) ∨
    allR ts = true ∧ HitsPl d (p + 2 ^ (d + b)) as (rights ts)

theorem andNodes_hitPl {d ℓ p : Nat} : ∀ (as : List α) (ts : List (Tr (d + 1))) (os : List (Option Nat)),
    RepsQ nav bad leaf b (d + 1) ℓ p as ts os → HitNowPl bad b p as ts → ∀ res, andNodes (as.map nav) os ℓ res = .error .oob := by
  apply RepsQ.rec'
  · rintro os ⟨a, t, h, _⟩; simp at h
  · intro a as t ts id os hr _ ih hh res
    rw [List.map_cons, andNodes]
    simp only [readRoot, R_bind_ok]
    by_cases hc : t.bare = true ∧ bad a (d + 1 + b) p
    · rw [hr.1 hc.1 hc.2]; rfl
    · rw [hr.2.1 hc, R_bind_ok]
      refine ih ?_ _
      obtain ⟨a', t', h1, h2⟩ := hh
      rw [List.zip_cons_cons, List.mem_cons] at h1
      rcases h1 with h1 | h1
      · injection h1 with e1 e2
        subst e1 e2
        exact (hc h2).elim
      · exact ⟨a', t', h1, h2⟩

theorem andNodes_repsQ {d ℓ p : Nat} : ∀ (as : List α) (ts : List (Tr (d + 1))) (os : List (Option Nat)),
    RepsQ nav bad leaf b (d + 1) ℓ p as ts os → ¬ HitNowPl bad b p as ts → ∀ A B : Bool,
    andNodes (as.map nav) os ℓ (node2 A B) = .ok (node2 (A && allL ts) (B && allR ts)) := by
  apply RepsQ.rec'
  · intro os _ A B; simp [andNodes, allL, allR]
  · intro a as t ts id os hr _ ih hh A B
    have hn := hr.2.1 fun hc => hh ⟨a, t, List.mem_cons_self, hc⟩
    have := ih (fun ⟨a', t', h1, h2⟩ => hh ⟨a', t', List.mem_cons_of_mem _ h1, h2⟩) (A && t.l.isSome) (B && t.r.isSome)
    rw [List.map_cons, andNodes]
    simp only [readRoot, R_bind_ok, hn, and_node2]
    rw [this]
    simp [allL, allR, Bool.and_assoc]

theorem children_leftQ {d ℓ p : Nat} : ∀ (as : List α) (ts : List (Tr (d + 1))) (os : List (Option Nat)),
    RepsQ nav bad leaf b (d + 1) ℓ p as ts os → allL ts = true →
    ∃ cs, children Nav.getLeftChild false ℓ (as.map nav) os = .ok cs ∧ RepsQ nav bad leaf b d (ℓ + 1) p as (lefts ts) cs ∧
      (allR ts = true → RepsQ nav bad leaf b d (ℓ + 1) (p + 2 ^ (d + b)) as (rights ts) (succRoots cs)) := by
  apply RepsQ.rec'
  · intro os _; exact ⟨[], rfl, trivial, fun _ => trivial⟩
  · intro a as t ts id os hr _ ih hl
    simp only [allL, List.all_cons, Bool.and_eq_true] at hl
    obtain ⟨cs, e, h1, h2⟩ := ih hl.2
    cases hs : t.l with
    | none => rw [hs] at hl; simp at hl
    | some s =>
      obtain ⟨c, hc, hr1, hr'⟩ := hr.2.2.1 s hs
      refine ⟨some c :: cs, ?_, ?_, ?_⟩
      · rw [List.map_cons, children]
        simp [readRoot, hc, e]
      · simp only [lefts, List.filterMap_cons, hs]
        exact ⟨hr1, h1⟩
      · intro hR
        simp only [allR, List.all_cons, Bool.and_eq_true] at hR
        cases hs' : t.r with
        | none => rw [hs'] at hR; simp at hR
        | some s' =>
          simp only [rights, List.filterMap_cons, hs', succRoots, List.map_cons, Option.map_some]
          exact ⟨hr' s' hs', h2 hR.2⟩

theorem children_rightQ {d ℓ p : Nat} : ∀ (as : List α) (ts : List (Tr (d + 1))) (os : List (Option Nat)),
    RepsQ nav bad leaf b (d + 1) ℓ p as ts os → allR ts = true →
    ∃ cs, children Nav.getRightChild false ℓ (as.map nav) os = .ok cs ∧
      RepsQ nav bad leaf b d (ℓ + 1) (p + 2 ^ (d + b)) as (rights ts) cs := by
  apply RepsQ.rec'
  · intro os _; exact ⟨[], rfl, trivial⟩
  · intro a as t ts id os hr _ ih hl
    simp only [allR, List.all_cons, Bool.and_eq_true] at hl
    obtain ⟨cs, e, h1⟩ := ih hl.2
    cases hs : t.r with
    | none => rw [hs] at hl; simp at hl
    | some s =>
      obtain ⟨c, hc, hr1⟩ := hr.2.2.2 s hs
      refine ⟨some c :: cs, ?_, ?_⟩
      · rw [List.map_cons, children]
        simp [readRoot, hc, e]
      · simp only [rights, List.filterMap_cons, hs]
        exact ⟨hr1, h1⟩

open Classical in
theorem AND_hits {as : List α} {c : Cfg} {e : Nat} (hc : LeafOK nav leaf as c b e) (htop : c.top ≤ 64) :
    ∀ (d ℓ : Nat) (ts : List (Tr d)) (os : List (Option Nat)) (pref : Nat) (r : List Nat), RepsQ nav bad leaf b d ℓ pref as ts os →
    c.top = ℓ + d + b → 2 ^ (d + b) ∣ pref →
    AND (as.map nav) c (d + e) ℓ os pref r =
      if HitsPl bad b d pref as ts then .error .oob else .ok (r ++ enum (d + b) (allHas b d ts) pref) := by
  intro d
  induction d with
  | zero =>
    intro ℓ ts os pref r hr ht hd
    rw [Nat.zero_add, Nat.zero_add, if_neg (show ¬ HitsPl bad b 0 pref as ts from fun h => h)]
    exact hc.leafAnd ℓ ts os pref r (RepsQ.leaves nav bad leaf b _ _ _ hr) (by omega) (by simpa using hd)
  | succ d ih =>
    intro ℓ ts os pref r hr ht hd
    have hd' : 2 ^ (d + b + 1) ∣ pref := by rwa [show d + b + 1 = d + 1 + b by omega]
    have hs : shl1 (c.top - ℓ - 1) = .ok (2 ^ (d + b)) := by
      rw [ht, show ℓ + (d + 1) + b - ℓ - 1 = d + b by omega]; exact shl1_ok (by omega)
    have hskip : (c.skipLast && decide (d + e = 0)) = false := by
      rcases hc.skip with h | h
      · rw [h]; rfl
      · rw [decide_eq_false (by omega)]; simp
    rw [show d + 1 + e = (d + e) + 1 by omega, AND]
    by_cases hn : HitNowPl bad b pref as ts
    · rw [if_pos (show HitsPl bad b (d + 1) pref as ts from Or.inl hn), andNodes_hitPl nav bad leaf b as ts os hr hn]
      rfl
    have h3 : andNodes (as.map nav) os ℓ 3 = .ok (node2 (allL ts) (allR ts)) := by
      have := andNodes_repsQ nav bad leaf b as ts os hr hn true true
      rw [Bool.true_and, Bool.true_and] at this
      exact this
    have hH : HitsPl bad b (d + 1) pref as ts ↔ allL ts = true ∧ HitsPl bad b d pref as (lefts ts) ∨
        allR ts = true ∧ HitsPl bad b d (pref + 2 ^ (d + b)) as (rights ts) := by
      rw [HitsPl]
      exact ⟨fun h => h.resolve_left hn, Or.inr⟩
    rw [h3, enum_allHas]
    simp only [R_bind_ok, hskip, hs, or_two_pow hd']
    cases hL : allL ts with
    | false =>
      cases hR : allR ts with
      | false =>
        rw [if_neg (show ¬ HitsPl bad b (d + 1) pref as ts by rw [hH, hL, hR]; simp)]
        simp [node2_ff]
      | true =>
        obtain ⟨cs, e1, h1⟩ := children_rightQ nav bad leaf b as ts os hr hR
        simp only [node2_ft, one_ne_zero, Nat.reduceEqDiff, if_false, if_true, e1, R_bind_ok]
        rw [ih (ℓ + 1) _ cs _ r h1 (by omega) (dvd_hi hd')]
        by_cases h : HitsPl bad b d (pref + 2 ^ (d + b)) as (rights ts)
        · rw [if_pos h, if_pos (hH.2 (Or.inr ⟨hR, h⟩))]
        · rw [if_neg h, if_neg (by rw [hH, hL, hR]; simpa using h)]
          simp
    | true =>
      obtain ⟨cs, e1, h1, h2⟩ := children_leftQ nav bad leaf b as ts os hr hL
      cases hR : allR ts with
      | false =>
        simp only [node2_tf, OfNat.ofNat_ne_zero, Nat.reduceEqDiff, if_false, if_true, e1, R_bind_ok]
        rw [ih (ℓ + 1) _ cs _ r h1 (by omega) (dvd_lo hd')]
        by_cases h : HitsPl bad b d pref as (lefts ts)
        · rw [if_pos h, if_pos (hH.2 (Or.inl ⟨hL, h⟩))]
        · rw [if_neg h, if_neg (by rw [hH, hL, hR]; simpa using h)]
          simp
      | true =>
        simp only [node2_tt, OfNat.ofNat_ne_zero, Nat.reduceEqDiff, if_false, if_true, e1, R_bind_ok]
        rw [ih (ℓ + 1) _ cs _ r h1 (by omega) (dvd_lo hd')]
        by_cases h : HitsPl bad b d pref as (lefts ts)
        · rw [if_pos h, if_pos (hH.2 (Or.inl ⟨hL, h⟩))]
          rfl
        · rw [if_neg h, R_bind_ok, ih (ℓ + 1) _ _ _ _ (h2 hR) (by omega) (dvd_hi hd')]
          by_cases h' : HitsPl bad b d (pref + 2 ^ (d + b)) as (rights ts)
          · rw [if_pos h', if_pos (hH.2 (Or.inr ⟨hR, h'⟩))]
          · rw [if_neg h', if_neg (by rw [hH, hL, hR]; simp [h, h'])]
            simp

end

/-! ## Which nodes are met -/

/-- The tree has a node for the block of size `2^j` around `x`. -/
def nodeAt (b : Nat) : (d : Nat) → Tr d → (j x : Nat) → Bool
  | 0, _, _, _ => true
  | d + 1, t, j, x => decide (d + 1 + b ≤ j) ||
      if x < 2 ^ (d + b) then t.l.any (fun s => nodeAt b d s j x) else t.r.any (fun s => nodeAt b d s j (x - 2 ^ (d + b)))

theorem nodeAt_root {b : Nat} : (d : Nat) → (t : Tr d) → (x : Nat) → nodeAt b d t (d + b) x = true
  | 0, _, _ => rfl
  | d + 1, t, x => by simp [nodeAt]

theorem nodeAt_lo {b d j x : Nat} {t : Tr (d + 1)} (hj : j ≤ d + b) (hx : x < 2 ^ (d + b)) :
    nodeAt b (d + 1) t j x = t.l.any fun s => nodeAt b d s j x := by
  rw [nodeAt, decide_eq_false (by omega), Bool.false_or, if_pos hx]

theorem nodeAt_hi {b d j x : Nat} {t : Tr (d + 1)} (hj : j ≤ d + b) :
    nodeAt b (d + 1) t j (2 ^ (d + b) + x) = t.r.any fun s => nodeAt b d s j x := by
  rw [nodeAt, decide_eq_false (by omega), Bool.false_or, if_neg (by omega), Nat.add_sub_cancel_left]

/-- The blocks with a node are those that the trie meets and that are not inside a larger collapsed block. -/
theorem nodeAt_iff {b : Nat} : (d : Nat) → (t : Tr d) → NZ b d t → (j x : Nat) → b ≤ j → j ≤ d + b → x < 2 ^ (d + b) →
    (nodeAt b d t j x = true ↔ (∃ y < 2 ^ (d + b), y / 2 ^ j = x / 2 ^ j ∧ hasR b d t y = true) ∧
      (j < d + b → cov b d t (j + 1) x = false))
  | 0, t, hnz, j, x, hb, hj, hx => by
    obtain rfl : j = 0 + b := by omega
    obtain ⟨y, hy, h⟩ := hnz.exists_hasR
    simp only [nodeAt, true_iff, Nat.lt_irrefl, false_imp_iff, and_true]
    exact ⟨y, hy, by rw [Nat.div_eq_of_lt hy, Nat.div_eq_of_lt hx], h⟩
  | d + 1, t, hnz, j, x, hb, hj, hx => by
    have hp : 2 ^ (d + 1 + b) = 2 ^ (d + b) + 2 ^ (d + b) := by rw [show d + 1 + b = d + b + 1 by omega, Nat.pow_succ]; omega
    by_cases hj' : j = d + 1 + b
    · subst hj'
      obtain ⟨y, hy, h⟩ := hnz.exists_hasR
      simp only [nodeAt_root, true_iff, Nat.lt_irrefl, false_imp_iff, and_true]
      exact ⟨y, hy, by rw [Nat.div_eq_of_lt hy, Nat.div_eq_of_lt hx], h⟩
    have hj1 : j ≤ d + b := by omega
    obtain ⟨q, hq⟩ : ∃ q, 2 ^ (d + b) = 2 ^ j * q := ⟨2 ^ (d + b - j), by rw [← Nat.pow_add]; congr 1; omega⟩
    have hpj := Nat.two_pow_pos j
    have hdivlo : ∀ y, y < 2 ^ (d + b) ↔ y / 2 ^ j < q := by
      intro y
      rw [hq, Nat.div_lt_iff_lt_mul hpj, Nat.mul_comm]
    cases hb' : t.bare with
    | true =>
      have hl : t.l = none ∧ t.r = none := by
        cases h1 : t.l <;> cases h2 : t.r <;> simp_all [Tr.bare]
      constructor
      · intro h
        rw [nodeAt, decide_eq_false (by omega), hl.1, hl.2] at h
        simp at h
      · rintro ⟨-, h⟩
        have := h (by omega)
        simp [cov, hb'] at this
    | false =>
      by_cases hxl : x < 2 ^ (d + b)
      · rw [nodeAt_lo hj1 hxl]
        have hcov : ∀ i, i ≤ d + b → cov b (d + 1) t i x = t.l.any fun s => cov b d s i x := fun i hi => cov_lo hb' hi hxl
        have hcov' : cov b (d + 1) t (d + b + 1) x = false := by simp [cov, hb']
        cases hl : t.l with
        | none =>
          simp only [Option.any_none, Bool.false_eq_true, false_iff, not_and_or]
          left
          rintro ⟨y, hy, he, hh⟩
          have : y < 2 ^ (d + b) := (hdivlo y).2 (he ▸ (hdivlo x).1 hxl)
          rw [hasR_lo this hb', hl] at hh
          simp at hh
        | some s =>
          simp only [Option.any_some]
          rw [nodeAt_iff d s (hnz.1 s hl) j x hb hj1 hxl]
          refine and_congr ?_ ?_
          · constructor
            · rintro ⟨y, hy, he, hh⟩
              exact ⟨y, by omega, he, by rw [hasR_lo hy hb', hl]; exact hh⟩
            · rintro ⟨y, hy, he, hh⟩
              have : y < 2 ^ (d + b) := (hdivlo y).2 (he ▸ (hdivlo x).1 hxl)
              rw [hasR_lo this hb', hl] at hh
              exact ⟨y, this, he, hh⟩
          · by_cases hjt : j < d + b
            · rw [hcov _ (by omega), hl]
              simp only [hjt, true_imp_iff, Option.any_some]
              exact ⟨fun h _ => h, fun h => h (by omega)⟩
            · obtain rfl : j = d + b := by omega
              rw [hcov']
              simp
      · obtain ⟨x', rfl⟩ : ∃ x', x = 2 ^ (d + b) + x' := ⟨x - 2 ^ (d + b), by omega⟩
        have hx' : x' < 2 ^ (d + b) := by omega
        rw [nodeAt_hi hj1]
        have hcov : ∀ i, i ≤ d + b → cov b (d + 1) t i (2 ^ (d + b) + x') = t.r.any fun s => cov b d s i x' :=
          fun i hi => cov_hi hb' hi
        have hcov' : cov b (d + 1) t (d + b + 1) (2 ^ (d + b) + x') = false := by simp [cov, hb']
        have hdiv : ∀ y, (2 ^ (d + b) + y) / 2 ^ j = q + y / 2 ^ j := fun y => by rw [hq, Nat.mul_add_div hpj]
        have hup : ∀ y, y / 2 ^ j = (2 ^ (d + b) + x') / 2 ^ j → 2 ^ (d + b) ≤ y := by
          intro y hy
          by_contra hc
          have := (hdivlo y).1 (by omega)
          rw [hy, hdiv] at this
          exact absurd this (Nat.not_lt.2 (Nat.le_add_right _ _))
        cases hl : t.r with
        | none =>
          simp only [Option.any_none, Bool.false_eq_true, false_iff, not_and_or]
          left
          rintro ⟨y, hy, he, hh⟩
          obtain ⟨y', rfl⟩ : ∃ y', y = 2 ^ (d + b) + y' := ⟨y - 2 ^ (d + b), by have := hup y he; omega⟩
          rw [hasR_hi hb', hl] at hh
          simp at hh
        | some s =>
          simp only [Option.any_some]
          rw [nodeAt_iff d s (hnz.2 s hl) j x' hb hj1 hx']
          refine and_congr ?_ ?_
          · constructor
            · rintro ⟨y, hy, he, hh⟩
              exact ⟨2 ^ (d + b) + y, by omega, by rw [hdiv, hdiv, he], by rw [hasR_hi hb', hl]; exact hh⟩
            · rintro ⟨y, hy, he, hh⟩
              obtain ⟨y', rfl⟩ : ∃ y', y = 2 ^ (d + b) + y' := ⟨y - 2 ^ (d + b), by have := hup y he; omega⟩
              rw [hasR_hi hb', hl] at hh
              exact ⟨y', by omega, by rw [hdiv, hdiv] at he; exact Nat.add_left_cancel he, hh⟩
          · by_cases hjt : j < d + b
            · rw [hcov _ (by omega), hl]
              simp only [hjt, true_imp_iff, Option.any_some]
              exact ⟨fun h _ => h, fun h => h (by omega)⟩
            · obtain rfl : j = d + b := by omega
              rw [hcov']
              simp

theorem zip_lefts {α : Type} {d : Nat} {a : α} {s : Tr d} : (as : List α) → (ts : List (Tr (d + 1))) → allL ts = true →
    ((a, s) ∈ as.zip (lefts ts) ↔ ∃ t, (a, t) ∈ as.zip ts ∧ t.l = some s)
  | [], _, _ => by simp
  | _ :: _, [], _ => by simp [lefts]
  | a' :: as, t :: ts, h => by
    simp only [allL, List.all_cons, Bool.and_eq_true] at h
    have ih := zip_lefts (a := a) (s := s) as ts h.2
    cases hl : t.l with
    | none => rw [hl] at h; simp at h
    | some s' =>
      have e : lefts (t :: ts) = s' :: lefts ts := by simp [lefts, hl]
      rw [e, List.zip_cons_cons, List.zip_cons_cons, List.mem_cons, ih]
      constructor
      · rintro (h | ⟨t', h1, h2⟩)
        · injection h with h1 h2
          subst h1 h2
          exact ⟨t, List.mem_cons_self, hl⟩
        · exact ⟨t', List.mem_cons_of_mem _ h1, h2⟩
      · rintro ⟨t', h1, h2⟩
        rcases List.mem_cons.1 h1 with h | h
        · injection h with h3 h4
          subst h3 h4
          rw [hl] at h2
          exact .inl (by rw [Option.some.inj h2])
        · exact .inr ⟨t', h, h2⟩

theorem zip_rights {α : Type} {d : Nat} {a : α} {s : Tr d} : (as : List α) → (ts : List (Tr (d + 1))) → allR ts = true →
    ((a, s) ∈ as.zip (rights ts) ↔ ∃ t, (a, t) ∈ as.zip ts ∧ t.r = some s)
  | [], _, _ => by simp
  | _ :: _, [], _ => by simp [rights]
  | a' :: as, t :: ts, h => by
    simp only [allR, List.all_cons, Bool.and_eq_true] at h
    have ih := zip_rights (a := a) (s := s) as ts h.2
    cases hl : t.r with
    | none => rw [hl] at h; simp at h
    | some s' =>
      have e : rights (t :: ts) = s' :: rights ts := by simp [rights, hl]
      rw [e, List.zip_cons_cons, List.zip_cons_cons, List.mem_cons, ih]
      constructor
      · rintro (h | ⟨t', h1, h2⟩)
        · injection h with h1 h2
          subst h1 h2
          exact ⟨t, List.mem_cons_self, hl⟩
        · exact ⟨t', List.mem_cons_of_mem _ h1, h2⟩
      · rintro ⟨t', h1, h2⟩
        rcases List.mem_cons.1 h1 with h | h
        · injection h with h3 h4
          subst h3 h4
          rw [hl] at h2
          exact .inl (by rw [Option.some.inj h2])
        · exact .inr ⟨t', h, h2⟩

theorem forall_any_lefts {d : Nat} {P : Tr d → Bool} {ts : List (Tr (d + 1))} :
    (∀ t ∈ ts, t.l.any P = true) ↔ allL ts = true ∧ ∀ s ∈ lefts ts, P s = true := by
  simp only [allL, lefts, List.all_eq_true, List.mem_filterMap]
  constructor
  · intro h
    refine ⟨fun t ht => ?_, ?_⟩
    · have := h t ht
      cases hl : t.l with
      | none => rw [hl] at this; simp at this
      | some s => rfl
    · rintro s ⟨t, ht, hl⟩
      simpa [hl] using h t ht
  · rintro ⟨h1, h2⟩ t ht
    cases hl : t.l with
    | none => have := h1 t ht; rw [hl] at this; simp at this
    | some s => exact h2 s ⟨t, ht, hl⟩

theorem forall_any_rights {d : Nat} {P : Tr d → Bool} {ts : List (Tr (d + 1))} :
    (∀ t ∈ ts, t.r.any P = true) ↔ allR ts = true ∧ ∀ s ∈ rights ts, P s = true := by
  simp only [allR, rights, List.all_eq_true, List.mem_filterMap]
  constructor
  · intro h
    refine ⟨fun t ht => ?_, ?_⟩
    · have := h t ht
      cases hl : t.r with
      | none => rw [hl] at this; simp at this
      | some s => rfl
    · rintro s ⟨t, ht, hl⟩
      simpa [hl] using h t ht
  · rintro ⟨h1, h2⟩ t ht
    cases hl : t.r with
    | none => have := h1 t ht; rw [hl] at this; simp at this
    | some s => exact h2 s ⟨t, ht, hl⟩

/-- A plain traversal meets the nodes of the blocks for which all tries have one. -/
theorem hitsPl_iff {α : Type} (bad : α → Nat → Nat → Prop) (b : Nat) : ∀ (d p : Nat) (as : List α) (ts : List (Tr d)),
    (HitsPl bad b d p as ts ↔ ∃ a t j k, (a, t) ∈ as.zip ts ∧ BareAt b d t j k ∧ bad a j (p + k * 2 ^ j) ∧
      ∀ t' ∈ ts, nodeAt b d t' j (k * 2 ^ j) = true)
  | 0, p, as, ts => by simp [HitsPl, BareAt]
  | d + 1, p, as, ts => by
    rw [HitsPl]
    constructor
    · rintro (⟨a, t, hm, hb, hbad⟩ | ⟨hL, h⟩ | ⟨hR, h⟩)
      · refine ⟨a, t, d + 1 + b, 0, hm, .inl ⟨hb, rfl, rfl⟩, by simpa using hbad, fun t' _ => nodeAt_root _ _ _⟩
      · obtain ⟨a, s, j, k, hm, hB, hbad, hn⟩ := (hitsPl_iff bad b d p as (lefts ts)).1 h
        obtain ⟨t, hm', hl⟩ := (zip_lefts as ts hL).1 hm
        obtain ⟨-, hj, hk⟩ := hB.bounds
        refine ⟨a, t, j, k, hm', .inr (.inl ⟨s, hl, hB⟩), hbad, fun t' ht' => ?_⟩
        have := start_lt hj hk (Nat.two_pow_pos j)
        rw [nodeAt_lo hj (by omega)]
        exact forall_any_lefts.2 ⟨hL, hn⟩ t' ht'
      · obtain ⟨a, s, j, k, hm, hB, hbad, hn⟩ := (hitsPl_iff bad b d _ as (rights ts)).1 h
        obtain ⟨t, hm', hl⟩ := (zip_rights as ts hR).1 hm
        obtain ⟨-, hj, hk⟩ := hB.bounds
        have e := hi_start (k := k) hj
        refine ⟨a, t, j, 2 ^ (d + b - j) + k, hm', .inr (.inr ⟨s, k, hl, rfl, hB⟩), ?_, fun t' ht' => ?_⟩
        · rw [Nat.add_comm (2 ^ (d + b - j)), e, ← Nat.add_assoc]
          exact hbad
        · rw [Nat.add_comm (2 ^ (d + b - j)), e, nodeAt_hi hj]
          exact forall_any_rights.2 ⟨hR, hn⟩ t' ht'
    · rintro ⟨a, t, j, k, hm, hB, hbad, hn⟩
      rcases hB with ⟨hb, rfl, rfl⟩ | ⟨s, hl, hB⟩ | ⟨s, k', hl, rfl, hB⟩
      · exact .inl ⟨a, t, hm, hb, by simpa using hbad⟩
      · obtain ⟨-, hj, hk⟩ := hB.bounds
        have := start_lt hj hk (Nat.two_pow_pos j)
        obtain ⟨hL, hn'⟩ := forall_any_lefts.1 fun t' ht' => by
          have := hn t' ht'
          rwa [nodeAt_lo hj (by omega)] at this
        exact .inr (.inl ⟨hL, (hitsPl_iff bad b d p as (lefts ts)).2 ⟨a, s, j, k, (zip_lefts as ts hL).2 ⟨t, hm, hl⟩, hB, hbad, hn'⟩⟩)
      · obtain ⟨-, hj, hk⟩ := hB.bounds
        have e := hi_start (k := k') hj
        rw [Nat.add_comm (2 ^ (d + b - j)), e] at hbad
        obtain ⟨hR, hn'⟩ := forall_any_rights.1 fun t' ht' => by
          have := hn t' ht'
          rwa [Nat.add_comm (2 ^ (d + b - j)), e, nodeAt_hi hj] at this
        exact .inr (.inr ⟨hR, (hitsPl_iff bad b d _ as (rights ts)).2 ⟨a, s, j, k', (zip_rights as ts hR).2 ⟨t, hm, hl⟩, hB,
          by rwa [Nat.add_assoc], hn'⟩⟩)

/-- In terms of the sets. -/
theorem nodeAt_reached {b D : Nat} {cs : List (Bool × List Nat)} {ts : List (Tr D)} (h : List.Forall₂ (CTree b D) cs ts) {j x : Nat}
    (hb : b ≤ j) (hj : j ≤ D + b) (hx : x < 2 ^ (D + b)) :
    (∀ t ∈ ts, nodeAt b D t j x = true) ↔ reached cs (D + b) j (x / 2 ^ j) = true := by
  have key : ∀ c t, CTree b D c t → (nodeAt b D t j x = true ↔ reached [c] (D + b) j (x / 2 ^ j) = true) := by
    intro c t hc
    rw [nodeAt_iff D t hc.nz j x hb hj hx, hc.met, reached, Bool.and_eq_true, and_comm, hc.opn hb hj hx, opn]
    have h1 : (j < D + b → CBT.cov b D t (j + 1) x = false) ↔ (decide (D + b ≤ j) || !CBT.cov b D t (j + 1) x) = true := by
      by_cases hlt : j < D + b
      · simp [hlt, Nat.not_le.2 hlt]
      · simp [hlt, Nat.not_lt.1 hlt]
    rw [h1]
    simp [meetsAll]
  have hr : ∀ c cs, reached (c :: cs) (D + b) j (x / 2 ^ j) = true ↔
      reached [c] (D + b) j (x / 2 ^ j) = true ∧ reached cs (D + b) j (x / 2 ^ j) = true := by
    intro c cs
    simp only [reached, Bool.and_eq_true, exposed_spec, someCollapsed, List.any_cons, Bool.or_eq_false_iff, meetsAll, List.map_cons,
      List.all_cons, List.any_nil, List.map_nil, List.all_nil, and_true]
    constructor
    · rintro ⟨h1, h2, h3⟩
      exact ⟨⟨fun i hi hi' => (h1 i hi hi').1, h2⟩, fun i hi hi' => (h1 i hi hi').2, h3⟩
    · rintro ⟨⟨h1, h2⟩, h3, h4⟩
      exact ⟨fun i hi hi' => ⟨h1 i hi hi', h3 i hi hi'⟩, h2, h4⟩
  induction h with
  | nil => simp [reached, exposed_spec, someCollapsed, meetsAll]
  | cons h1 _ ih =>
    rw [List.forall_mem_cons, hr]
    exact and_congr (key _ _ h1) ih

theorem RepsQ.root {d : Nat} : (m : Nat) → (as : List (Nav × (Nat → Nat → Prop))) → (ts : List (Tr d)) → as.length ≤ m →
    List.Forall₂ (fun (a : Nav × (Nat → Nat → Prop)) t => RepB a.1 a.2 (leafF a.1) 1 d 0 t 0 0) as ts →
    RepsQ Prod.fst Prod.snd (fun a => leafF a.1) 1 d 0 0 as ts (List.replicate m (some 0))
  | _, [], [], _, _ => by simp [RepsQ]
  | 0, _ :: _, _, h, _ => by simp at h
  | m + 1, a :: as, t :: ts, h, .cons h1 h2 => ⟨h1, RepsQ.root m as ts (by simpa using h) h2⟩

theorem Reps.of_fst {β : Type} {d ℓ : Nat} : ∀ (as : List (Nav × β)) (ts : List (Tr d)) (os : List (Option Nat)),
    Reps Prod.fst (fun a => leafF a.1) d ℓ as ts os → Reps id leafF d ℓ (as.map Prod.fst) ts os
  | [], [], _, _ => trivial
  | _ :: as, _ :: ts, some _ :: os, h => ⟨h.1, Reps.of_fst as ts os h.2⟩
  | [], _ :: _, _, h => by simp [Reps] at h
  | _ :: _, [], _, h => by simp [Reps] at h
  | _ :: _, _ :: _, [], h => by simp [Reps] at h
  | _ :: _, _ :: _, none :: _, h => by simp [Reps] at h

theorem flat_leafOK_fst {β : Type} (as : List (Nav × β)) (height : Nat) :
    LeafOK Prod.fst (fun a => leafF a.1) as (flatCfg height) 1 1 := by
  have h := flat_leafOK (as.map Prod.fst) height
  refine ⟨h.skip, fun ℓ ts os pref r hr ht hd => ?_⟩
  have := h.leafAnd ℓ ts os pref r (Reps.of_fst _ _ _ hr) ht hd
  rwa [List.map_id] at this

end CBT
