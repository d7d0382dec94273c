import Verif.SpecRuns
import Verif.Proof.ExactRuns

/-!
# What a run-aware parallel call returns, exactly: in terms of the sets
-/

namespace CBT

open Spec

/-- The block of size `2^j` around `x` is below a node without children. -/
def cov (b : Nat) : (d : Nat) → Tr d → Nat → Nat → Bool
  | 0, _, _, _ => false
  | d + 1, t, j, x => t.bare || (decide (j ≤ d + b) &&
      if x < 2 ^ (d + b) then t.l.any (fun s => cov b d s j x) else t.r.any (fun s => cov b d s j (x - 2 ^ (d + b))))

theorem cov_lo {b d : Nat} {t : Tr (d + 1)} (h : t.bare = false) {j x : Nat} (hj : j ≤ d + b) (hx : x < 2 ^ (d + b)) :
    cov b (d + 1) t j x = t.l.any (fun s => cov b d s j x) := by simp [cov, h, hj, hx]

theorem cov_hi {b d : Nat} {t : Tr (d + 1)} (h : t.bare = false) {j x : Nat} (hj : j ≤ d + b) :
    cov b (d + 1) t j (2 ^ (d + b) + x) = t.r.any (fun s => cov b d s j x) := by simp [cov, h, hj]

theorem cov_root {b d : Nat} {t : Tr (d + 1)} (x : Nat) : cov b (d + 1) t (d + 1 + b) x = t.bare := by
  have : ¬ d + 1 + b ≤ d + b := by omega
  simp [cov, this]

theorem cov_plain {b : Nat} : (d : Nat) → (t : Tr d) → NE b d t → (j x : Nat) → cov b d t j x = false
  | 0, _, _, _, _ => rfl
  | d + 1, t, h, j, x => by
    rw [cov, h.1, Bool.false_or, Bool.and_eq_false_iff]
    right
    split
    · cases hl : t.l with
      | none => rfl
      | some s => exact cov_plain d s (h.2.1 s hl) j x
    · cases hr : t.r with
      | none => rfl
      | some s => exact cov_plain d s (h.2.2 s hr) j _

theorem cov_prune {b : Nat} : (d : Nat) → (T : Tr d) → NE b d T → (j x : Nat) → b < j → j ≤ d + b → x < 2 ^ (d + b) →
    (cov b d (prune b d T) j x = true ↔ ∀ y, y / 2 ^ j = x / 2 ^ j → has b d T y = true)
  | 0, _, _, j, x, hb, hj, _ => by omega
  | d + 1, T, h, j, x, hb, hj, hx => by
    have hp := pow_split d b
    cases hf : full b (d + 1) T with
    | true =>
      rw [prune_full hf]
      simp only [cov, Tr.bare, Tr.l_mk, Tr.r_mk, Option.isNone_none, Bool.true_and, Bool.true_or, true_iff]
      exact fun y hy => full_has hf y (sameBlock_lt hy hj hx)
    | false =>
      rw [prune_not_full hf]
      have hnb : (Tr.mk (T.l.map (prune b d)) (T.r.map (prune b d))).bare = false := by
        have := h.1
        simpa [Tr.bare] using this
      by_cases hj' : j = d + 1 + b
      · subst hj'
        rw [cov_root, hnb]
        simp only [Bool.false_eq_true, false_iff]
        intro hall
        have : full b (d + 1) T = true := full_of_has (d + 1) T h fun y hy => hall y (by
          rw [Nat.div_eq_of_lt hy, Nat.div_eq_of_lt hx])
        rw [hf] at this
        cases this
      have hj'' : j ≤ d + b := by omega
      by_cases hlt : x < 2 ^ (d + b)
      · rw [cov_lo hnb hj'' hlt, Tr.l_mk]
        cases hl : T.l with
        | none =>
          simp only [Option.map_none, Option.any_none, Bool.false_eq_true, false_iff]
          intro hall
          have := hall x rfl
          rw [has_lo hlt, hl] at this
          cases this
        | some s =>
          rw [Option.map_some, Option.any_some, cov_prune d s (h.2.1 s hl) j x hb hj'' hlt]
          refine forall₂_congr fun y hy => ?_
          rw [has_lo (sameBlock_lt hy hj'' hlt), hl, Option.any_some]
      · obtain ⟨z, rfl⟩ : ∃ z, x = 2 ^ (d + b) + z := ⟨x - 2 ^ (d + b), by omega⟩
        rw [cov_hi hnb hj'', Tr.r_mk]
        cases hr : T.r with
        | none =>
          simp only [Option.map_none, Option.any_none, Bool.false_eq_true, false_iff]
          intro hall
          have := hall _ rfl
          rw [has_hi, hr] at this
          cases this
        | some s =>
          rw [Option.map_some, Option.any_some, cov_prune d s (h.2.2 s hr) j z hb hj'' (by omega)]
          constructor
          · intro hall y hy
            have hge := sameBlock_ge hy hj'' (by omega)
            obtain ⟨w, rfl⟩ : ∃ w, y = 2 ^ (d + b) + w := ⟨y - 2 ^ (d + b), by omega⟩
            rw [has_hi, hr, Option.any_some]
            exact hall w ((sameBlock_add hj'').1 hy)
          · intro hall w hw
            have := hall (2 ^ (d + b) + w) ((sameBlock_add hj'').2 hw)
            rwa [has_hi, hr, Option.any_some] at this

/-! ## Several trees -/

def anyC (b d : Nat) (ts : List (Tr d)) (j x : Nat) : Bool := ts.any fun t => cov b d t j x
def allC (b d : Nat) (ts : List (Tr d)) (j x : Nat) : Bool := ts.all fun t => cov b d t j x

/-- Every tree has a member in the block of size `2^j` around `x`. -/
def Met (b d : Nat) (ts : List (Tr d)) (j x : Nat) : Prop := ∀ t ∈ ts, ∃ y < 2 ^ (d + b), y / 2 ^ j = x / 2 ^ j ∧ hasR b d t y = true

def NoneBare {d : Nat} (ts : List (Tr (d + 1))) : Prop := ∀ t ∈ ts, t.bare = false

theorem anyC_lo {b d : Nat} {ts : List (Tr (d + 1))} (h : NoneBare ts) {j x : Nat} (hj : j ≤ d + b) (hx : x < 2 ^ (d + b)) :
    anyC b (d + 1) ts j x = anyC b d (lefts ts) j x := by
  induction ts with
  | nil => rfl
  | cons t ts ih =>
    have ih := ih fun t ht => h t (List.mem_cons_of_mem _ ht)
    simp only [anyC, lefts] at ih ⊢
    rw [List.any_cons, List.filterMap_cons, cov_lo (h t List.mem_cons_self) hj hx, ih]
    cases t.l <;> rfl

theorem anyC_hi {b d : Nat} {ts : List (Tr (d + 1))} (h : NoneBare ts) {j x : Nat} (hj : j ≤ d + b) :
    anyC b (d + 1) ts j (2 ^ (d + b) + x) = anyC b d (rights ts) j x := by
  induction ts with
  | nil => rfl
  | cons t ts ih =>
    have ih := ih fun t ht => h t (List.mem_cons_of_mem _ ht)
    simp only [anyC, rights] at ih ⊢
    rw [List.any_cons, List.filterMap_cons, cov_hi (h t List.mem_cons_self) hj, ih]
    cases t.r <;> rfl

theorem allC_lo {b d : Nat} {ts : List (Tr (d + 1))} (h : NoneBare ts) {j x : Nat} (hj : j ≤ d + b) (hx : x < 2 ^ (d + b)) :
    allC b (d + 1) ts j x = (allL ts && allC b d (lefts ts) j x) := by
  induction ts with
  | nil => rfl
  | cons t ts ih =>
    have ih := ih fun t ht => h t (List.mem_cons_of_mem _ ht)
    simp only [allC, lefts, allL] at ih ⊢
    rw [List.all_cons, List.all_cons, List.filterMap_cons, cov_lo (h t List.mem_cons_self) hj hx, ih]
    cases t.l with
    | none => rfl
    | some s => simp; cases cov b d s j x <;> simp

theorem allC_hi {b d : Nat} {ts : List (Tr (d + 1))} (h : NoneBare ts) {j x : Nat} (hj : j ≤ d + b) :
    allC b (d + 1) ts j (2 ^ (d + b) + x) = (allR ts && allC b d (rights ts) j x) := by
  induction ts with
  | nil => rfl
  | cons t ts ih =>
    have ih := ih fun t ht => h t (List.mem_cons_of_mem _ ht)
    simp only [allC, rights, allR] at ih ⊢
    rw [List.all_cons, List.all_cons, List.filterMap_cons, cov_hi (h t List.mem_cons_self) hj, ih]
    cases t.r with
    | none => rfl
    | some s => simp; cases cov b d s j x <;> simp

theorem anyC_root {b d : Nat} (ts : List (Tr (d + 1))) (x : Nat) : anyC b (d + 1) ts (d + 1 + b) x = ts.any Tr.bare := by
  simp only [anyC, cov_root]

theorem allC_root {b d : Nat} (ts : List (Tr (d + 1))) (x : Nat) : allC b (d + 1) ts (d + 1 + b) x = allBare ts := by
  simp only [allC, cov_root, allBare, anyL, anyR]
  induction ts with
  | nil => rfl
  | cons t ts ih =>
    rw [List.all_cons, List.any_cons, List.any_cons, ih, Tr.bare]
    cases t.l <;> cases t.r <;> simp

theorem noneBare_iff {d : Nat} {ts : List (Tr (d + 1))} : NoneBare ts ↔ ts.any Tr.bare = false := by
  simp [NoneBare]

theorem noneBare_of_allL {d : Nat} {ts : List (Tr (d + 1))} (h : allL ts = true) : NoneBare ts := by
  intro t ht
  have := List.all_eq_true.1 h t ht
  cases hl : t.l with
  | none => rw [hl] at this; cases this
  | some s => simp [Tr.bare, hl]

theorem noneBare_of_allR {d : Nat} {ts : List (Tr (d + 1))} (h : allR ts = true) : NoneBare ts := by
  intro t ht
  have := List.all_eq_true.1 h t ht
  cases hl : t.r with
  | none => rw [hl] at this; cases this
  | some s => simp [Tr.bare, hl]

theorem met_lo {b d : Nat} {ts : List (Tr (d + 1))} (h : NoneBare ts) {j x : Nat} (hj : j ≤ d + b) (hx : x < 2 ^ (d + b)) :
    Met b (d + 1) ts j x ↔ allL ts = true ∧ Met b d (lefts ts) j x := by
  have hp := pow_split d b
  constructor
  · intro H
    have key : ∀ t ∈ ts, ∃ s, t.l = some s ∧ ∃ y < 2 ^ (d + b), y / 2 ^ j = x / 2 ^ j ∧ hasR b d s y = true := by
      intro t ht
      obtain ⟨y, hy, he, hh⟩ := H t ht
      have hlt := sameBlock_lt he hj hx
      rw [hasR_lo hlt (h t ht)] at hh
      cases hl : t.l with
      | none => rw [hl] at hh; cases hh
      | some s => rw [hl] at hh; exact ⟨s, rfl, y, hlt, he, hh⟩
    refine ⟨List.all_eq_true.2 fun t ht => ?_, fun s hs => ?_⟩
    · obtain ⟨s, hs, _⟩ := key t ht
      rw [hs]
      rfl
    · obtain ⟨t, ht, hl⟩ := mem_lefts.1 hs
      obtain ⟨s', hs', hy⟩ := key t ht
      rw [hl] at hs'
      cases hs'
      exact hy
  · rintro ⟨hL, H⟩ t ht
    have := List.all_eq_true.1 hL t ht
    cases hl : t.l with
    | none => rw [hl] at this; cases this
    | some s =>
      obtain ⟨y, hy, he, hh⟩ := H s (mem_lefts.2 ⟨t, ht, hl⟩)
      exact ⟨y, by omega, he, by rw [hasR_lo hy (h t ht), hl]; exact hh⟩

theorem met_hi {b d : Nat} {ts : List (Tr (d + 1))} (h : NoneBare ts) {j x : Nat} (hj : j ≤ d + b) :
    Met b (d + 1) ts j (2 ^ (d + b) + x) ↔ allR ts = true ∧ Met b d (rights ts) j x := by
  have hp := pow_split d b
  constructor
  · intro H
    have key : ∀ t ∈ ts, ∃ s, t.r = some s ∧ ∃ y < 2 ^ (d + b), y / 2 ^ j = x / 2 ^ j ∧ hasR b d s y = true := by
      intro t ht
      obtain ⟨y, hy, he, hh⟩ := H t ht
      have hge := sameBlock_ge he hj (by omega)
      obtain ⟨w, rfl⟩ : ∃ w, y = 2 ^ (d + b) + w := ⟨y - 2 ^ (d + b), by omega⟩
      rw [hasR_hi (h t ht)] at hh
      cases hl : t.r with
      | none => rw [hl] at hh; cases hh
      | some s => rw [hl] at hh; exact ⟨s, rfl, w, by omega, (sameBlock_add hj).1 he, hh⟩
    refine ⟨List.all_eq_true.2 fun t ht => ?_, fun s hs => ?_⟩
    · obtain ⟨s, hs, _⟩ := key t ht
      rw [hs]
      rfl
    · obtain ⟨t, ht, hl⟩ := mem_rights.1 hs
      obtain ⟨s', hs', hy⟩ := key t ht
      rw [hl] at hs'
      cases hs'
      exact hy
  · rintro ⟨hL, H⟩ t ht
    have := List.all_eq_true.1 hL t ht
    cases hl : t.r with
    | none => rw [hl] at this; cases this
    | some s =>
      obtain ⟨y, hy, he, hh⟩ := H s (mem_rights.2 ⟨t, ht, hl⟩)
      exact ⟨2 ^ (d + b) + y, by omega, (sameBlock_add hj).2 he, by rw [hasR_hi (h t ht), hl]; exact hh⟩

theorem NZ.exists_hasR {b : Nat} : (d : Nat) → (t : Tr d) → NZ b d t → ∃ x < 2 ^ (d + b), hasR b d t x = true
  | 0, t, h => by
    obtain ⟨i, hi⟩ := Nat.exists_testBit_of_ne_zero (Nat.pos_iff_ne_zero.1 h.1)
    refine ⟨i, ?_, hi⟩
    by_contra hge
    rw [Nat.testBit_lt_two_pow (Nat.lt_of_lt_of_le h.2 (Nat.pow_le_pow_right (by omega) (by rw [Nat.zero_add] at hge; omega)))] at hi
    cases hi
  | d + 1, t, h => by
    have hp := pow_split d b
    cases hb : t.bare with
    | true => exact ⟨0, Nat.two_pow_pos _, hasR_bare hb⟩
    | false =>
      cases hl : t.l with
      | some s =>
        obtain ⟨x, hx, hs⟩ := NZ.exists_hasR d s (h.1 s hl)
        exact ⟨x, by omega, by rw [hasR_lo hx hb, hl]; exact hs⟩
      | none =>
        cases hr : t.r with
        | some s =>
          obtain ⟨x, hx, hs⟩ := NZ.exists_hasR d s (h.2 s hr)
          exact ⟨2 ^ (d + b) + x, by omega, by rw [hasR_hi hb, hr]; exact hs⟩
        | none => simp [Tr.bare, hl, hr] at hb

theorem nz_lefts {b d : Nat} {ts : List (Tr (d + 1))} (h : ∀ t ∈ ts, NZ b (d + 1) t) : ∀ t ∈ lefts ts, NZ b d t := by
  intro t ht
  obtain ⟨s, hs, he⟩ := mem_lefts.1 ht
  exact (h s hs).1 t he

theorem nz_rights {b d : Nat} {ts : List (Tr (d + 1))} (h : ∀ t ∈ ts, NZ b (d + 1) t) : ∀ t ∈ rights ts, NZ b d t := by
  intro t ht
  obtain ⟨s, hs, he⟩ := mem_rights.1 ht
  exact (h s hs).2 t he

/-! ## The tasks -/

/-- The trees after `k` levels in the direction of the bits of `q`. -/
def dn : (k : Nat) → {d : Nat} → List (Tr (d + k)) → Nat → Option (List (Tr d))
  | 0, _, ts, _ => some ts
  | k + 1, d, ts, q =>
    if q < 2 ^ k then (if allL (d := d + k) ts then dn k (lefts (d := d + k) ts) q else none)
    else (if allR (d := d + k) ts then dn k (rights (d := d + k) ts) (q - 2 ^ k) else none)

theorem dn_lo {k d q : Nat} {ts : List (Tr (d + (k + 1)))} (h : q < 2 ^ k) :
    dn (k + 1) ts q = if allL (d := d + k) ts then dn k (lefts (d := d + k) ts) q else none := by rw [dn, if_pos h]

theorem dn_hi {k d q : Nat} {ts : List (Tr (d + (k + 1)))} :
    dn (k + 1) ts (2 ^ k + q) = if allR (d := d + k) ts then dn k (rights (d := d + k) ts) q else none := by
  rw [dn, if_neg (by omega), Nat.add_sub_cancel_left]

theorem walk_eq (b : Nat) : (k : Nat) → {d : Nat} → (p : Nat) → (ts : List (Tr (d + k))) →
    walk b k p ts = (List.range (2 ^ k)).filterMap fun q => (dn k ts q).map fun u => (p + q * 2 ^ (d + b), u)
  | 0, d, p, ts => by simp [walk, dn]
  | k + 1, d, p, ts => by
    have hp : 2 ^ (k + 1) = 2 ^ k + 2 ^ k := by rw [Nat.pow_succ]; omega
    rw [walk, hp, List.range_add, List.filterMap_append, List.filterMap_map]
    congr 1
    · rw [List.filterMap_congr (g := fun q => (if allL (d := d + k) ts then dn k (lefts (d := d + k) ts) q else none).map
        fun u => (p + q * 2 ^ (d + b), u)) (fun q hq => by rw [dn_lo (List.mem_range.1 hq)])]
      split
      · exact walk_eq b k p _
      · simp
    · have : ((fun q => (dn (k + 1) ts q).map fun u => (p + q * 2 ^ (d + b), u)) ∘ fun x => 2 ^ k + x) =
          fun q => (if allR (d := d + k) ts then dn k (rights (d := d + k) ts) q else none).map
            fun u => (p + 2 ^ (d + k + b) + q * 2 ^ (d + b), u) := by
        funext q
        simp only [Function.comp]
        rw [dn_hi, show p + (2 ^ k + q) * 2 ^ (d + b) = p + 2 ^ (d + k + b) + q * 2 ^ (d + b) by
          rw [Nat.add_mul, ← Nat.pow_add, show k + (d + b) = d + k + b by omega]; omega]
      rw [this]
      split
      · exact walk_eq b k _ _
      · simp

theorem mul_lt_pow {k m q x : Nat} (hq : q < 2 ^ k) (hx : x < 2 ^ m) : q * 2 ^ m + x < 2 ^ (m + k) := by
  rw [Nat.add_comm m k, Nat.pow_add]
  calc q * 2 ^ m + x < (q + 1) * 2 ^ m := by rw [Nat.add_mul]; omega
    _ ≤ _ := Nat.mul_le_mul_right _ hq

theorem hi_eq {d k b q x : Nat} : (2 ^ k + q) * 2 ^ (d + b) + x = 2 ^ (d + k + b) + (q * 2 ^ (d + b) + x) := by
  rw [Nat.add_mul, ← Nat.pow_add, show k + (d + b) = d + k + b by omega, Nat.add_assoc]

theorem dn_some {b : Nat} : (k d : Nat) → (ts : List (Tr (d + k))) → (q : Nat) → q < 2 ^ k → (u : List (Tr d)) → dn k ts q = some u →
    (∀ t ∈ ts, NZ b (d + k) t) → ts ≠ [] →
    (∀ t ∈ u, NZ b d t) ∧ u ≠ [] ∧ ∀ x < 2 ^ (d + b),
      allS true b d u x = allS true b (d + k) ts (q * 2 ^ (d + b) + x) ∧
      ∀ j ≤ d + b, anyC b d u j x = anyC b (d + k) ts j (q * 2 ^ (d + b) + x) ∧
        allC b d u j x = allC b (d + k) ts j (q * 2 ^ (d + b) + x) ∧
        (Met b d u j x ↔ Met b (d + k) ts j (q * 2 ^ (d + b) + x))
  | 0, d, ts, q, hq, u, h, hn, hne => by
    cases h
    obtain rfl : q = 0 := by simpa using hq
    refine ⟨hn, hne, fun x hx => ?_⟩
    rw [Nat.zero_mul, Nat.zero_add]
    exact ⟨rfl, fun j hj => ⟨rfl, rfl, Iff.rfl⟩⟩
  | k + 1, d, ts, q, hq, u, h, hn, hne => by
    have hp : 2 ^ (k + 1) = 2 ^ k + 2 ^ k := by rw [Nat.pow_succ]; omega
    by_cases hlt : q < 2 ^ k
    · rw [dn_lo hlt] at h
      split at h
      · rename_i hL
        have hnb := noneBare_of_allL hL
        have hne' : lefts (d := d + k) ts ≠ [] := by
          obtain ⟨t, ts', rfl⟩ := List.exists_cons_of_ne_nil hne
          have := List.all_eq_true.1 hL t List.mem_cons_self
          obtain ⟨s, hs⟩ := Option.isSome_iff_exists.1 this
          exact List.ne_nil_of_mem (mem_lefts.2 ⟨t, List.mem_cons_self, hs⟩)
        obtain ⟨h1, h2, h3⟩ := dn_some k d _ q hlt u h (nz_lefts hn) hne'
        refine ⟨h1, h2, fun x hx => ?_⟩
        have hxx : q * 2 ^ (d + b) + x < 2 ^ (d + k + b) := by
          rw [show d + k + b = d + b + k by omega]; exact mul_lt_pow hlt hx
        obtain ⟨h4, h5⟩ := h3 x hx
        refine ⟨?_, fun j hj => ?_⟩
        · rw [h4]
          refine Eq.trans ?_ (allS_lo (d := d + k) hxx ts (fun _ => hnb)).symm
          rw [hL, Bool.true_and]
        · obtain ⟨h6, h7, h8⟩ := h5 j hj
          refine ⟨?_, ?_, ?_⟩
          · exact h6.trans (anyC_lo hnb (by omega) hxx).symm
          · refine h7.trans (Eq.trans ?_ (allC_lo hnb (by omega) hxx).symm)
            rw [hL, Bool.true_and]
          · refine h8.trans (Iff.trans ?_ (met_lo hnb (by omega) hxx).symm)
            exact ⟨fun h => ⟨hL, h⟩, fun h => h.2⟩
      · cases h
    · obtain ⟨r, rfl⟩ : ∃ r, q = 2 ^ k + r := ⟨q - 2 ^ k, by omega⟩
      rw [dn_hi] at h
      split at h
      · rename_i hR
        have hnb := noneBare_of_allR hR
        have hne' : rights (d := d + k) ts ≠ [] := by
          obtain ⟨t, ts', rfl⟩ := List.exists_cons_of_ne_nil hne
          have := List.all_eq_true.1 hR t List.mem_cons_self
          obtain ⟨s, hs⟩ := Option.isSome_iff_exists.1 this
          exact List.ne_nil_of_mem (mem_rights.2 ⟨t, List.mem_cons_self, hs⟩)
        obtain ⟨h1, h2, h3⟩ := dn_some k d _ r (by omega) u h (nz_rights hn) hne'
        refine ⟨h1, h2, fun x hx => ?_⟩
        rw [hi_eq]
        obtain ⟨h4, h5⟩ := h3 x hx
        refine ⟨?_, fun j hj => ?_⟩
        · rw [h4]
          refine Eq.trans ?_ (allS_hi (d := d + k) ts (fun _ => hnb)).symm
          rw [hR, Bool.true_and]
        · obtain ⟨h6, h7, h8⟩ := h5 j hj
          refine ⟨?_, ?_, ?_⟩
          · exact h6.trans (anyC_hi hnb (by omega)).symm
          · refine h7.trans (Eq.trans ?_ (allC_hi hnb (by omega)).symm)
            rw [hR, Bool.true_and]
          · refine h8.trans (Iff.trans ?_ (met_hi hnb (by omega)).symm)
            exact ⟨fun h => ⟨hR, h⟩, fun h => h.2⟩
      · cases h

/-- The blocks reached. -/
theorem dn_isSome {b : Nat} : (k d : Nat) → (ts : List (Tr (d + k))) → (q : Nat) → q < 2 ^ k → (∀ t ∈ ts, NZ b (d + k) t) → ts ≠ [] →
    ((dn k ts q).isSome = true ↔ (∀ j, d + b < j → j ≤ d + k + b → anyC b (d + k) ts j (q * 2 ^ (d + b)) = false) ∧
      Met b (d + k) ts (d + b) (q * 2 ^ (d + b)))
  | 0, d, ts, q, hq, hn, hne => by
    obtain rfl : q = 0 := by simpa using hq
    simp only [dn, Option.isSome_some, true_iff]
    refine ⟨fun j h1 h2 => by omega, fun t ht => ?_⟩
    obtain ⟨x, hx, hh⟩ := NZ.exists_hasR d t (hn t ht)
    exact ⟨x, hx, by rw [Nat.zero_mul, Nat.zero_div, Nat.div_eq_of_lt hx], hh⟩
  | k + 1, d, ts, q, hq, hn, hne => by
    have hp : 2 ^ (k + 1) = 2 ^ k + 2 ^ k := by rw [Nat.pow_succ]; omega
    have hpos := Nat.two_pow_pos (d + b)
    by_cases hb : List.any ts (Tr.bare (d := d + k)) = true
    · have hl : allL (d := d + k) ts = false := by
        cases h : allL (d := d + k) ts with
        | false => rfl
        | true => rw [noneBare_iff.1 (noneBare_of_allL h)] at hb; cases hb
      have hr : allR (d := d + k) ts = false := by
        cases h : allR (d := d + k) ts with
        | false => rfl
        | true => rw [noneBare_iff.1 (noneBare_of_allR h)] at hb; cases hb
      have : dn (k + 1) ts q = none := by
        rw [dn, hl, hr]
        simp
      rw [this]
      simp only [Option.isSome_none, Bool.false_eq_true, false_iff, not_and]
      intro h
      have := h (d + k + 1 + b) (by omega) (by omega)
      rw [show anyC b (d + (k + 1)) ts (d + k + 1 + b) _ = anyC b (d + k + 1) ts (d + k + 1 + b) _ from rfl, anyC_root, hb] at this
      cases this
    · have hnb : NoneBare (d := d + k) ts := noneBare_iff.2 (eq_false_of_ne_true hb)
      have hroot : ∀ x, anyC b (d + (k + 1)) ts (d + (k + 1) + b) x = false := by
        intro x
        refine (anyC_root (d := d + k) ts x).trans ?_
        exact eq_false_of_ne_true hb
      by_cases hlt : q < 2 ^ k
      · have hxx : q * 2 ^ (d + b) < 2 ^ (d + k + b) := by
          rw [show d + k + b = d + b + k by omega]; exact mul_lt_pow hlt hpos
        rw [dn_lo hlt]
        have key : (∀ j, d + b < j → j ≤ d + (k + 1) + b → anyC b (d + (k + 1)) ts j (q * 2 ^ (d + b)) = false) ↔
            ∀ j, d + b < j → j ≤ d + k + b → anyC b (d + k) (lefts (d := d + k) ts) j (q * 2 ^ (d + b)) = false := by
          constructor
          · intro h j h1 h2
            rw [← anyC_lo hnb h2 hxx]
            exact h j h1 (by omega)
          · intro h j h1 h2
            by_cases hj : j = d + (k + 1) + b
            · rw [hj]; exact hroot _
            · exact (anyC_lo hnb (by omega) hxx).trans (h j h1 (by omega))
        rw [key, show Met b (d + (k + 1)) ts (d + b) (q * 2 ^ (d + b)) ↔ _ from met_lo hnb (by omega) hxx]
        cases hL : allL (d := d + k) ts with
        | false => simp
        | true =>
          have hne' : lefts (d := d + k) ts ≠ [] := by
            obtain ⟨t, ts', rfl⟩ := List.exists_cons_of_ne_nil hne
            have := List.all_eq_true.1 hL t List.mem_cons_self
            obtain ⟨s, hs⟩ := Option.isSome_iff_exists.1 this
            exact List.ne_nil_of_mem (mem_lefts.2 ⟨t, List.mem_cons_self, hs⟩)
          rw [if_pos rfl, dn_isSome k d _ q hlt (nz_lefts hn) hne']
          simp
      · obtain ⟨r, rfl⟩ : ∃ r, q = 2 ^ k + r := ⟨q - 2 ^ k, by omega⟩
        have he : (2 ^ k + r) * 2 ^ (d + b) = 2 ^ (d + k + b) + r * 2 ^ (d + b) := hi_eq (x := 0)
        rw [dn_hi, he]
        have key : (∀ j, d + b < j → j ≤ d + (k + 1) + b → anyC b (d + (k + 1)) ts j (2 ^ (d + k + b) + r * 2 ^ (d + b)) = false) ↔
            ∀ j, d + b < j → j ≤ d + k + b → anyC b (d + k) (rights (d := d + k) ts) j (r * 2 ^ (d + b)) = false := by
          constructor
          · intro h j h1 h2
            rw [← anyC_hi hnb h2]
            exact h j h1 (by omega)
          · intro h j h1 h2
            by_cases hj : j = d + (k + 1) + b
            · rw [hj]; exact hroot _
            · exact (anyC_hi hnb (by omega)).trans (h j h1 (by omega))
        rw [key, show Met b (d + (k + 1)) ts (d + b) (2 ^ (d + k + b) + r * 2 ^ (d + b)) ↔ _ from met_hi hnb (by omega)]
        cases hR : allR (d := d + k) ts with
        | false => simp
        | true =>
          have hne' : rights (d := d + k) ts ≠ [] := by
            obtain ⟨t, ts', rfl⟩ := List.exists_cons_of_ne_nil hne
            have := List.all_eq_true.1 hR t List.mem_cons_self
            obtain ⟨s, hs⟩ := Option.isSome_iff_exists.1 this
            exact List.ne_nil_of_mem (mem_rights.2 ⟨t, List.mem_cons_self, hs⟩)
          rw [if_pos rfl, dn_isSome k d _ r (by omega) (nz_rights hn) hne']
          simp

/-- The members reported in the first levels. -/
theorem rp_iff {b : Nat} : (k d : Nat) → (ts : List (Tr (d + k))) → (x : Nat) → x < 2 ^ (d + k + b) → ts ≠ [] →
    (rp b k ts x = true ↔ ∃ j, d + b < j ∧ j ≤ d + k + b ∧ allC b (d + k) ts j x = true ∧
      ∀ i, j < i → i ≤ d + k + b → anyC b (d + k) ts i x = false)
  | 0, d, ts, x, hx, hne => by
    simp only [rp, Bool.false_eq_true, false_iff]
    rintro ⟨j, h1, h2, _⟩
    omega
  | k + 1, d, ts, x, hx, hne => by
    have hp := pow_split (d + k) b
    have hx : x < 2 ^ (d + k + 1 + b) := hx
    have hrootA : ∀ x, allC b (d + (k + 1)) ts (d + (k + 1) + b) x = allBare (d := d + k) ts := fun x => allC_root (d := d + k) ts x
    have hroot : ∀ x, anyC b (d + (k + 1)) ts (d + (k + 1) + b) x = List.any ts (Tr.bare (d := d + k)) := fun x => anyC_root (d := d + k) ts x
    cases hab : allBare (d := d + k) ts with
    | true =>
      rw [rp, hab]
      simp only [Bool.true_or, true_iff]
      exact ⟨d + (k + 1) + b, by omega, by omega, by rw [hrootA, hab], fun i h1 h2 => by omega⟩
    | false =>
      rw [rp, hab, Bool.false_or]
      by_cases hb : List.any ts (Tr.bare (d := d + k)) = true
      · have hl : allL (d := d + k) ts = false := by
          cases h : allL (d := d + k) ts with
          | false => rfl
          | true => rw [noneBare_iff.1 (noneBare_of_allL h)] at hb; cases hb
        have hr : allR (d := d + k) ts = false := by
          cases h : allR (d := d + k) ts with
          | false => rfl
          | true => rw [noneBare_iff.1 (noneBare_of_allR h)] at hb; cases hb
        rw [hl, hr]
        simp only [Bool.false_and, ite_self, Bool.false_eq_true, false_iff]
        rintro ⟨j, h1, h2, h3, h4⟩
        by_cases hj : j = d + (k + 1) + b
        · rw [hj, hrootA, hab] at h3; cases h3
        · have := h4 (d + (k + 1) + b) (by omega) (by omega)
          rw [hroot, hb] at this
          cases this
      · have hnb : NoneBare (d := d + k) ts := noneBare_iff.2 (eq_false_of_ne_true hb)
        have hroot' : ∀ x, anyC b (d + (k + 1)) ts (d + (k + 1) + b) x = false := fun x => (hroot x).trans (eq_false_of_ne_true hb)
        have key : ∀ (P Q : Nat → Bool), (∀ j ≤ d + k + b, anyC b (d + (k + 1)) ts j x = P j) →
            (∀ j ≤ d + k + b, allC b (d + (k + 1)) ts j x = Q j) →
            ((∃ j, d + b < j ∧ j ≤ d + (k + 1) + b ∧ allC b (d + (k + 1)) ts j x = true ∧
                ∀ i, j < i → i ≤ d + (k + 1) + b → anyC b (d + (k + 1)) ts i x = false) ↔
              ∃ j, d + b < j ∧ j ≤ d + k + b ∧ Q j = true ∧ ∀ i, j < i → i ≤ d + k + b → P i = false) := by
          intro P Q hP hQ
          constructor
          · rintro ⟨j, h1, h2, h3, h4⟩
            have hj : j ≤ d + k + b := by
              by_contra hj
              obtain rfl : j = d + (k + 1) + b := by omega
              rw [hrootA, hab] at h3
              cases h3
            exact ⟨j, h1, hj, hQ j hj ▸ h3, fun i h5 h6 => hP i h6 ▸ h4 i h5 (by omega)⟩
          · rintro ⟨j, h1, h2, h3, h4⟩
            refine ⟨j, h1, by omega, hQ j h2 ▸ h3, fun i h5 h6 => ?_⟩
            by_cases hi : i = d + (k + 1) + b
            · rw [hi]; exact hroot' _
            · rw [hP i (by omega)]; exact h4 i h5 (by omega)
        by_cases hlt : x < 2 ^ (d + k + b)
        · rw [if_pos hlt, key _ _ (fun j hj => anyC_lo hnb hj hlt) (fun j hj => allC_lo hnb hj hlt)]
          cases hL : allL (d := d + k) ts with
          | false => simp
          | true =>
            have hne' : lefts (d := d + k) ts ≠ [] := by
              obtain ⟨t, ts', rfl⟩ := List.exists_cons_of_ne_nil hne
              have := List.all_eq_true.1 hL t List.mem_cons_self
              obtain ⟨s, hs⟩ := Option.isSome_iff_exists.1 this
              exact List.ne_nil_of_mem (mem_lefts.2 ⟨t, List.mem_cons_self, hs⟩)
            rw [Bool.true_and, rp_iff k d _ x hlt hne']
            simp
        · obtain ⟨y, rfl⟩ : ∃ y, x = 2 ^ (d + k + b) + y := ⟨x - 2 ^ (d + k + b), by omega⟩
          rw [if_neg hlt, Nat.add_sub_cancel_left, key _ _ (fun j hj => anyC_hi hnb hj) (fun j hj => allC_hi hnb hj)]
          cases hR : allR (d := d + k) ts with
          | false => simp
          | true =>
            have hne' : rights (d := d + k) ts ≠ [] := by
              obtain ⟨t, ts', rfl⟩ := List.exists_cons_of_ne_nil hne
              have := List.all_eq_true.1 hR t List.mem_cons_self
              obtain ⟨s, hs⟩ := Option.isSome_iff_exists.1 this
              exact List.ne_nil_of_mem (mem_rights.2 ⟨t, List.mem_cons_self, hs⟩)
            rw [Bool.true_and, rp_iff k d _ y (by omega) hne']
            simp

end CBT
