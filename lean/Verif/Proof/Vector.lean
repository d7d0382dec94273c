import Verif.SpecVector
import Verif.Proof.BuildMany
import Verif.Proof.Built

/-!
# The trie of any vector is the trie of what is seen of it
-/

namespace CBT

open Spec

theorem mem_seen_zero {w y : Nat} {v : List Nat} : y ∈ seen w 0 v ↔ ∃ x ∈ v, x % 2 ^ w = y := by
  simp only [seen, List.mem_filter, List.mem_range, List.any_eq_true, beq_iff_eq]
  constructor
  · exact fun h => h.2
  · rintro ⟨x, hx, rfl⟩
    exact ⟨Nat.mod_lt _ (Nat.two_pow_pos w), x, hx, rfl⟩

theorem seen_lt {w : Nat} : (d : Nat) → (v : List Nat) → ∀ y ∈ seen w d v, y < 2 ^ (d + w)
  | 0, v => by
    intro y hy
    obtain ⟨x, -, rfl⟩ := mem_seen_zero.1 hy
    rw [Nat.zero_add]
    exact Nat.mod_lt _ (Nat.two_pow_pos w)
  | d + 1, v => by
    intro y hy
    have e : 2 ^ (d + 1 + w) = 2 ^ (d + w) + 2 ^ (d + w) := by
      rw [show d + 1 + w = d + w + 1 by omega, Nat.pow_succ]; omega
    rw [seen, List.mem_append] at hy
    rcases hy with hy | hy
    · have := seen_lt d _ y hy; omega
    · obtain ⟨z, hz, rfl⟩ := List.mem_map.1 hy
      have := seen_lt d _ z hz; omega

theorem seen_sorted {w : Nat} : (d : Nat) → (v : List Nat) → (seen w d v).Pairwise (· < ·)
  | 0, v => List.pairwise_lt_range.filter _
  | d + 1, v => by
    rw [seen, List.pairwise_append]
    refine ⟨seen_sorted d _, ?_, fun x hx y hy => ?_⟩
    · rw [List.pairwise_map]
      exact (seen_sorted d _).imp fun h => by omega
    · obtain ⟨z, -, rfl⟩ := List.mem_map.1 hy
      have := seen_lt d _ x hx; omega

theorem seen_nil {w : Nat} : (d : Nat) → seen w d [] = []
  | 0 => by simp [seen]
  | d + 1 => by simp [seen, seen_nil d]

theorem seen_eq_nil {w : Nat} : (d : Nat) → (v : List Nat) → (seen w d v = [] ↔ v = [])
  | 0, v => by
    constructor
    · intro h
      cases v with
      | nil => rfl
      | cons x v =>
        have : x % 2 ^ w ∈ seen w 0 (x :: v) := mem_seen_zero.2 ⟨x, by simp, rfl⟩
        rw [h] at this
        simp at this
    · rintro rfl; exact seen_nil 0
  | d + 1, v => by
    rw [seen, List.append_eq_nil_iff, List.map_eq_nil_iff, seen_eq_nil d, seen_eq_nil d, ← List.append_eq_nil_iff,
      List.takeWhile_append_dropWhile]

theorem seen_valid {w d : Nat} {v : List Nat} (hv : v ≠ []) : ValidSet (seen w d v) (2 ^ (d + w)) :=
  ⟨fun h => hv ((seen_eq_nil d v).1 h), seen_sorted d v, seen_lt d v⟩

theorem length_seen_le {w : Nat} : (d : Nat) → (v : List Nat) → (seen w d v).length ≤ v.length
  | 0, v => by
    have h1 : (seen w 0 v).Nodup := (seen_sorted 0 v).imp fun h => by omega
    have h2 : seen w 0 v ⊆ v.map (· % 2 ^ w) := fun y hy => by
      obtain ⟨x, hx, rfl⟩ := mem_seen_zero.1 hy
      exact List.mem_map.2 ⟨x, hx, rfl⟩
    simpa using (List.subperm_of_subset h1 h2).length_le
  | d + 1, v => by
    have h1 := length_seen_le (w := w) d (v.takeWhile fun x => !x.testBit (d + w))
    have h2 := length_seen_le (w := w) d (v.dropWhile fun x => !x.testBit (d + w))
    have h3 := congrArg List.length (List.takeWhile_append_dropWhile (p := fun x => !x.testBit (d + w)) (l := v))
    rw [List.length_append] at h3
    rw [seen, List.length_append, List.length_map]
    omega

/-! ## Trees -/

theorem bitIs0_testBit (k x : Nat) : bitIs0 k x = !x.testBit k := by
  rw [bitIs0, Nat.testBit, Nat.and_comm]
  rcases Nat.mod_two_eq_zero_or_one (x >>> k) with h | h <;> simp [h]

theorem bitIs0_shift {k c x : Nat} (hc : 2 ^ (k + 1) ∣ c) : bitIs0 k (c + x) = bitIs0 k x := by
  obtain ⟨q, rfl⟩ := hc
  have e : (2 ^ (k + 1) * q + x) / 2 ^ k = 2 * q + x / 2 ^ k := by
    rw [Nat.pow_succ, Nat.mul_assoc, Nat.mul_add_div (Nat.two_pow_pos k)]
  rw [bitIs0_testBit, bitIs0_testBit, Nat.testBit_eq_decide_div_mod_eq, Nat.testBit_eq_decide_div_mod_eq, e, Nat.mul_add_mod]

theorem loPart_shift {k c : Nat} {g : List Nat} (hc : 2 ^ (k + 1) ∣ c) : loPart k (g.map (c + ·)) = (loPart k g).map (c + ·) := by
  rw [loPart, loPart, List.takeWhile_map]
  congr 2
  funext x
  exact bitIs0_shift hc

theorem hiPart_shift {k c : Nat} {g : List Nat} (hc : 2 ^ (k + 1) ∣ c) : hiPart k (g.map (c + ·)) = (hiPart k g).map (c + ·) := by
  rw [hiPart, hiPart, List.dropWhile_map]
  congr 2
  funext x
  exact bitIs0_shift hc

theorem nonEmpty_map {f : Nat → Nat} {g : List Nat} : nonEmpty (g.map f) = (nonEmpty g).map (List.map f) := by
  cases g <;> rfl

theorem mkTr_shift {b : Nat} {lf : List Nat → Nat} (hlf : ∀ c g, 2 ^ b ∣ c → lf (g.map (c + ·)) = lf g) :
    (d : Nat) → (c : Nat) → (g : List Nat) → 2 ^ (d + b) ∣ c → mkTr b lf d (g.map (c + ·)) = mkTr b lf d g
  | 0, c, g, hc => by rw [mkTr, mkTr, hlf c g (by simpa using hc)]
  | d + 1, c, g, hc => by
    have h1 : 2 ^ (d + b + 1) ∣ c := by rwa [show d + b + 1 = d + 1 + b by omega]
    have h2 : 2 ^ (d + b) ∣ c := (Nat.pow_dvd_pow 2 (by omega)).trans h1
    rw [mkTr, mkTr, loPart_shift h1, hiPart_shift h1, nonEmpty_map, nonEmpty_map, Option.map_map, Option.map_map]
    have : mkTr b lf d ∘ List.map (c + ·) = mkTr b lf d := by
      funext g
      exact mkTr_shift hlf d c g h2
    rw [this]

theorem takeWhile_append_all {α : Type} {p : α → Bool} {A B : List α} (hA : ∀ x ∈ A, p x = true) (hB : ∀ x ∈ B, p x = false) :
    (A ++ B).takeWhile p = A ∧ (A ++ B).dropWhile p = B := by
  induction A with
  | nil =>
    cases B with
    | nil => simp
    | cons x B => simp [hB x (by simp)]
  | cons a A ih =>
    have := ih fun x hx => hA x (by simp [hx])
    simp [hA a (by simp), this.1, this.2]

/-- The two halves of what is seen. -/
theorem seen_parts {w d : Nat} (v : List Nat) : loPart (d + w) (seen w (d + 1) v) = seen w d (loPart (d + w) v) ∧
    hiPart (d + w) (seen w (d + 1) v) = (seen w d (hiPart (d + w) v)).map (2 ^ (d + w) + ·) := by
  have e : bitIs0 (d + w) = fun x => !x.testBit (d + w) := funext (bitIs0_testBit _)
  rw [loPart, hiPart, loPart, hiPart, e, seen]
  refine takeWhile_append_all (fun x hx => ?_) fun x hx => ?_
  · rw [Nat.testBit_lt_two_pow (seen_lt d _ x hx)]; rfl
  · obtain ⟨z, hz, rfl⟩ := List.mem_map.1 hx
    rw [Nat.testBit_two_pow_add_eq, Nat.testBit_lt_two_pow (seen_lt d _ z hz)]; rfl

theorem mkTr_seen {b w e : Nat} {lf : List Nat → Nat} (hb : b = e + w) (hlf : ∀ c g, 2 ^ b ∣ c → lf (g.map (c + ·)) = lf g)
    (hle : ∀ g, lf (seen w e g) = lf g) : (d : Nat) → (v : List Nat) → mkTr b lf d (seen w (e + d) v) = mkTr b lf d v
  | 0, v => by rw [mkTr, mkTr]; exact congrArg _ (hle v)
  | d + 1, v => by
    have hk : d + b = e + d + w := by omega
    obtain ⟨h1, h2⟩ := seen_parts (w := w) (d := e + d) v
    rw [← Nat.add_assoc, mkTr, mkTr, hk, h1, h2, nonEmpty_map, Option.map_map]
    have hs : mkTr b lf d ∘ List.map (2 ^ (e + d + w) + ·) = mkTr b lf d := by
      funext g
      exact mkTr_shift hlf d _ g (by rw [hk])
    have key : ∀ g, (nonEmpty (seen w (e + d) g)).map (mkTr b lf d) = (nonEmpty g).map (mkTr b lf d) := by
      intro g
      by_cases hg : g = []
      · rw [hg, seen_nil]
      · have hg' : seen w (e + d) g ≠ [] := fun h => hg ((seen_eq_nil _ _).1 h)
        simp only [nonEmpty, List.isEmpty_iff, hg, hg', if_false, Option.map_some]
        rw [mkTr_seen hb hlf hle d g]
    rw [hs, key, key]

theorem lfFlat_shift (c : Nat) (g : List Nat) (hc : 2 ^ 1 ∣ c) : lfFlat (g.map (c + ·)) = lfFlat g := by
  rw [lfFlat, lfFlat, loPart_shift hc, hiPart_shift hc, nonEmpty_map, nonEmpty_map, Option.isSome_map, Option.isSome_map]

theorem lfFlat_seen (g : List Nat) : lfFlat (seen 0 1 g) = lfFlat g := by
  obtain ⟨h1, h2⟩ := seen_parts (w := 0) (d := 0) g
  have key : ∀ l, (nonEmpty (seen 0 0 l)).isSome = (nonEmpty l).isSome := by
    intro l
    by_cases hl : l = []
    · rw [hl, seen_nil]
    · have hl' : seen 0 0 l ≠ [] := fun h => hl ((seen_eq_nil _ _).1 h)
      simp [nonEmpty, hl, hl']
  rw [lfFlat, lfFlat, h1, h2, nonEmpty_map, Option.isSome_map, key, key]

theorem lfFast_shift {lg : Nat} (c : Nat) (g : List Nat) (hc : 2 ^ lg ∣ c) : lfFast lg (g.map (c + ·)) = lfFast lg g := by
  apply Nat.eq_of_testBit_eq
  intro i
  rw [lfFast, lfFast, testBit_lfAcc, testBit_lfAcc]
  congr 1
  rw [decide_eq_decide]
  obtain ⟨q, rfl⟩ := hc
  simp

theorem lfFast_seen {lg : Nat} (g : List Nat) : lfFast lg (seen lg 0 g) = lfFast lg g := by
  apply Nat.eq_of_testBit_eq
  intro i
  rw [lfFast, lfFast, testBit_lfAcc, testBit_lfAcc]
  congr 1
  rw [decide_eq_decide]
  constructor
  · rintro ⟨y, hy, rfl⟩
    obtain ⟨x, hx, rfl⟩ := mem_seen_zero.1 hy
    exact ⟨x, hx, (Nat.mod_mod _ _).symm⟩
  · rintro ⟨x, hx, rfl⟩
    exact ⟨_, mem_seen_zero.2 ⟨x, hx, rfl⟩, Nat.mod_mod _ _⟩

theorem flatTree_seen (d : Nat) (v : List Nat) : flatTree d (seen 0 (d + 1) v) = flatTree d v := by
  rw [Nat.add_comm]
  exact mkTr_seen rfl lfFlat_shift lfFlat_seen d v

theorem fastTree_seen (lg d : Nat) (v : List Nat) : fastTree lg d (seen lg d v) = fastTree lg d v := by
  have := mkTr_seen (b := lg) (w := lg) (e := 0) (Nat.zero_add _).symm lfFast_shift lfFast_seen d v
  rwa [Nat.zero_add] at this

/-! ## When everything is seen -/

theorem testBit_block {k c x : Nat} (hc : 2 ^ (k + 1) ∣ c) (h1 : c ≤ x) (h2 : x < c + 2 ^ (k + 1)) :
    x.testBit k = decide (c + 2 ^ k ≤ x) := by
  obtain ⟨y, rfl⟩ : ∃ y, x = c + y := ⟨x - c, by omega⟩
  have e := bitIs0_shift (x := y) hc
  rw [bitIs0_testBit, bitIs0_testBit, Bool.not_inj_iff] at e
  have hp : 2 ^ (k + 1) = 2 ^ k + 2 ^ k := by rw [Nat.pow_succ]; omega
  rw [e]
  by_cases h : 2 ^ k ≤ y
  · obtain ⟨z, rfl⟩ : ∃ z, y = 2 ^ k + z := ⟨y - 2 ^ k, by omega⟩
    rw [Nat.testBit_two_pow_add_eq, Nat.testBit_lt_two_pow (by omega)]
    simp
  · rw [Nat.testBit_lt_two_pow (by omega)]
    simp; omega

theorem dropWhile_of_upward {p : Nat → Bool} {r : Nat → Nat → Prop} (hr : ∀ x y, r x y → p x = false → p y = false) :
    (v : List Nat) → v.Pairwise r → ∀ y ∈ v.dropWhile p, p y = false
  | [], _ => by simp
  | x :: v, h => by
    rw [List.pairwise_cons] at h
    intro y hy
    by_cases hx : p x = true
    · rw [List.dropWhile_cons_of_pos hx] at hy
      exact dropWhile_of_upward hr v h.2 y hy
    · have hx' : p x = false := by simpa using hx
      rw [List.dropWhile_cons_of_neg hx, List.mem_cons] at hy
      rcases hy with rfl | hy
      · exact hx'
      · exact hr x y (h.1 y hy) hx'

theorem mem_takeWhile_p {p : Nat → Bool} : (v : List Nat) → ∀ x ∈ v.takeWhile p, p x = true
  | [] => by simp
  | y :: v => by
    intro x hx
    by_cases hy : p y = true
    · rw [List.takeWhile_cons_of_pos hy, List.mem_cons] at hx
      rcases hx with rfl | hx
      · exact hy
      · exact mem_takeWhile_p v x hx
    · rw [List.takeWhile_cons_of_neg hy] at hx
      simp at hx

theorem mem_split {p : Nat → Bool} {v : List Nat} {x : Nat} : x ∈ v ↔ x ∈ v.takeWhile p ∨ x ∈ v.dropWhile p := by
  rw [← List.mem_append, List.takeWhile_append_dropWhile]

theorem two_pow_block (d w : Nat) : 2 ^ (d + 1 + w) = 2 ^ (d + w) + 2 ^ (d + w) := by
  rw [show d + 1 + w = d + w + 1 by omega, Nat.pow_succ]; omega

/-- In a vector in order with all elements in one block, everything is seen. -/
theorem mem_seen_inOrder {w : Nat} : (d c : Nat) → (v : List Nat) → 2 ^ (d + w) ∣ c → InOrder w v →
    (∀ x ∈ v, c ≤ x ∧ x < c + 2 ^ (d + w)) → ∀ y, y ∈ seen w d v ↔ y < 2 ^ (d + w) ∧ c + y ∈ v
  | 0, c, v, hc, hv, hb, y => by
    rw [Nat.zero_add] at hc hb ⊢
    rw [mem_seen_zero]
    have key : ∀ x, c ≤ x → x < c + 2 ^ w → x % 2 ^ w = x - c := by
      intro x h1 h2
      obtain ⟨z, rfl⟩ : ∃ z, x = c + z := ⟨x - c, by omega⟩
      obtain ⟨q, rfl⟩ := hc
      rw [Nat.mul_add_mod, Nat.mod_eq_of_lt (by omega)]; omega
    constructor
    · rintro ⟨x, hx, rfl⟩
      have := hb x hx
      rw [key x this.1 this.2]
      exact ⟨by omega, by rwa [show c + (x - c) = x by omega]⟩
    · rintro ⟨h1, h2⟩
      exact ⟨_, h2, by rw [key _ (by omega) (by omega)]; omega⟩
  | d + 1, c, v, hc, hv, hb, y => by
    have hp := two_pow_block d w
    have hc1 : 2 ^ (d + w + 1) ∣ c := by rwa [show d + w + 1 = d + 1 + w by omega]
    have hc2 : 2 ^ (d + w) ∣ c := (Nat.pow_dvd_pow 2 (by omega)).trans hc1
    have hbit : ∀ x ∈ v, (!x.testBit (d + w)) = decide (x < c + 2 ^ (d + w)) := by
      intro x hx
      have := hb x hx
      rw [testBit_block hc1 this.1 (by rw [show d + w + 1 = d + 1 + w by omega]; exact this.2)]
      by_cases h : c + 2 ^ (d + w) ≤ x <;> simp [h]; omega
    have hlo : ∀ x ∈ v.takeWhile fun x => !x.testBit (d + w), c ≤ x ∧ x < c + 2 ^ (d + w) := by
      intro x hx
      have h1 := mem_takeWhile_p v x hx
      have hm := (List.takeWhile_sublist _).subset hx
      rw [hbit x hm] at h1
      exact ⟨(hb x hm).1, by simpa using h1⟩
    have hhi : ∀ x ∈ v.dropWhile fun x => !x.testBit (d + w),
        c + 2 ^ (d + w) ≤ x ∧ x < c + 2 ^ (d + w) + 2 ^ (d + w) := by
      intro x hx
      have hm := (List.dropWhile_sublist _).subset hx
      have h1 : (!x.testBit (d + w)) = false := by
        refine dropWhile_of_upward (r := fun x y => x / 2 ^ w ≤ y / 2 ^ w ∧ x ∈ v ∧ y ∈ v) ?_ v ?_ x hx
        · rintro x y ⟨h, hx, hy⟩ h0
          rw [hbit _ hx] at h0
          rw [hbit _ hy]
          simp only [decide_eq_false_iff_not, Nat.not_lt] at h0 ⊢
          by_contra hcon
          have hcw : 2 ^ w ∣ c + 2 ^ (d + w) :=
            Nat.dvd_add ((Nat.pow_dvd_pow 2 (by omega)).trans hc2) (Nat.pow_dvd_pow 2 (by omega))
          obtain ⟨q, hq⟩ := hcw
          rw [hq] at h0 hcon
          have h3 : q ≤ x / 2 ^ w := (Nat.le_div_iff_mul_le (Nat.two_pow_pos w)).2 (by rw [Nat.mul_comm]; exact h0)
          have h4 : y / 2 ^ w < q := (Nat.div_lt_iff_lt_mul (Nat.two_pow_pos w)).2 (by rw [Nat.mul_comm]; omega)
          omega
        · exact (List.pairwise_iff_forall_sublist.2 fun {a b} hab =>
            ⟨List.pairwise_iff_forall_sublist.1 hv hab, hab.subset (by simp), hab.subset (by simp)⟩)
      rw [hbit x hm] at h1
      simp only [decide_eq_false_iff_not, Nat.not_lt] at h1
      exact ⟨h1, by have := (hb x hm).2; omega⟩
    have i1 := mem_seen_inOrder d c _ hc2 (hv.sublist (List.takeWhile_sublist _)) hlo
    have i2 := mem_seen_inOrder d (c + 2 ^ (d + w)) _ (Nat.dvd_add hc2 (dvd_refl _)) (hv.sublist (List.dropWhile_sublist _)) hhi
    rw [seen, List.mem_append, List.mem_map, i1, mem_split (p := fun x => !x.testBit (d + w)) (v := v) (x := c + y)]
    constructor
    · rintro (h | ⟨z, hz, rfl⟩)
      · exact ⟨by omega, Or.inl h.2⟩
      · have := (i2 z).1 hz
        exact ⟨by omega, Or.inr (by rw [← Nat.add_assoc]; exact this.2)⟩
    · rintro ⟨h1, h | h⟩
      · exact Or.inl ⟨by have := hlo _ h; omega, h⟩
      · have := hhi _ h
        exact Or.inr ⟨y - 2 ^ (d + w), (i2 _).2 ⟨by omega, by
          rwa [show c + 2 ^ (d + w) + (y - 2 ^ (d + w)) = c + y by omega]⟩, by omega⟩

/-- If everything is seen of a vector without repetitions, it is in order. -/
theorem inOrder_of_mem_seen {w : Nat} : (d c : Nat) → (v : List Nat) → 2 ^ (d + w) ∣ c → v.Nodup →
    (∀ x, x ∈ v ↔ x ∈ (seen w d v).map (c + ·)) → InOrder w v
  | 0, c, v, hc, hv, hm => by
    rw [Nat.zero_add] at hc
    obtain ⟨q, rfl⟩ := hc
    have key : ∀ x ∈ v, x / 2 ^ w = q := by
      intro x hx
      obtain ⟨y, hy, rfl⟩ := List.mem_map.1 ((hm x).1 hx)
      have := seen_lt 0 v y hy
      rw [Nat.zero_add] at this
      rw [Nat.mul_add_div (Nat.two_pow_pos w), Nat.div_eq_of_lt this, Nat.add_zero]
    exact List.pairwise_iff_forall_sublist.2 fun {a b} hab => by
      rw [key a (hab.subset (by simp)), key b (hab.subset (by simp))]
  | d + 1, c, v, hc, hv, hm => by
    have hp := two_pow_block d w
    have hc1 : 2 ^ (d + w + 1) ∣ c := by rwa [show d + w + 1 = d + 1 + w by omega]
    have hc2 : 2 ^ (d + w) ∣ c := (Nat.pow_dvd_pow 2 (by omega)).trans hc1
    have hbit : ∀ x, c ≤ x → x < c + 2 ^ (d + 1 + w) → x.testBit (d + w) = decide (c + 2 ^ (d + w) ≤ x) := by
      intro x h1 h2
      exact testBit_block hc1 h1 (by rwa [show d + w + 1 = d + 1 + w by omega])
    have hrange : ∀ x ∈ v, c ≤ x ∧ x < c + 2 ^ (d + 1 + w) := by
      intro x hx
      obtain ⟨y, hy, rfl⟩ := List.mem_map.1 ((hm x).1 hx)
      have := seen_lt (d + 1) v y hy
      omega
    have hmem : ∀ x, x ∈ v ↔ (∃ y ∈ seen w d (v.takeWhile fun x => !x.testBit (d + w)), c + y = x) ∨
        ∃ y ∈ seen w d (v.dropWhile fun x => !x.testBit (d + w)), c + 2 ^ (d + w) + y = x := by
      intro x
      rw [hm x, seen, List.map_append, List.mem_append, List.mem_map, List.map_map, List.mem_map]
      simp only [Function.comp_apply, Nat.add_assoc]
    have hcat := List.takeWhile_append_dropWhile (p := fun x => !x.testBit (d + w)) (l := v)
    generalize hA : (v.takeWhile fun x => !x.testBit (d + w)) = A at hmem hcat
    generalize hB : (v.dropWhile fun x => !x.testBit (d + w)) = B at hmem hcat
    have hAv : ∀ x ∈ A, x ∈ v := fun x hx => by rw [← hcat]; exact List.mem_append_left _ hx
    have hBv : ∀ x ∈ B, x ∈ v := fun x hx => by rw [← hcat]; exact List.mem_append_right _ hx
    have hnd : A.Nodup ∧ B.Nodup ∧ ∀ x ∈ A, x ∉ B := by
      rw [← hcat] at hv
      obtain ⟨h1, h2, h3⟩ := List.nodup_append.1 hv
      exact ⟨h1, h2, fun x hx hx' => h3 x hx x hx' rfl⟩
    have hAlt : ∀ x ∈ A, x < c + 2 ^ (d + w) := by
      intro x hx
      have h1 := hrange x (hAv x hx)
      have h2 := mem_takeWhile_p v x (hA ▸ hx)
      rw [hbit x h1.1 h1.2] at h2
      simpa using h2
    have hsub : A ⊆ (seen w d A).map (c + ·) := by
      intro x hx
      rcases (hmem x).1 (hAv x hx) with ⟨y, hy, rfl⟩ | ⟨y, hy, rfl⟩
      · exact List.mem_map.2 ⟨y, hy, rfl⟩
      · have := hAlt _ hx; omega
    have hperm : A.Perm ((seen w d A).map (c + ·)) :=
      (List.subperm_of_subset hnd.1 hsub).perm_of_length_le (by rw [List.length_map]; exact length_seen_le d A)
    have hAm : ∀ x, x ∈ A ↔ x ∈ (seen w d A).map (c + ·) := fun x => hperm.mem_iff
    have hBm : ∀ x, x ∈ B ↔ x ∈ (seen w d B).map (c + 2 ^ (d + w) + ·) := by
      intro x
      rw [List.mem_map]
      constructor
      · intro hx
        rcases (hmem x).1 (hBv x hx) with ⟨y, hy, rfl⟩ | h
        · exact absurd hx (hnd.2.2 _ ((hAm _).2 (List.mem_map.2 ⟨y, hy, rfl⟩)))
        · exact h
      · rintro ⟨y, hy, rfl⟩
        have hx : c + 2 ^ (d + w) + y ∈ v := (hmem _).2 (Or.inr ⟨y, hy, rfl⟩)
        rw [← hcat, List.mem_append] at hx
        rcases hx with hx | hx
        · have := hAlt _ hx; omega
        · exact hx
    have i1 := inOrder_of_mem_seen d c A hc2 hnd.1 hAm
    have i2 := inOrder_of_mem_seen d (c + 2 ^ (d + w)) B (Nat.dvd_add hc2 (dvd_refl _)) hnd.2.1 hBm
    rw [← hcat]
    refine List.pairwise_append.2 ⟨i1, i2, fun x hx y hy => Nat.div_le_div_right ?_⟩
    have h1 := hAlt x hx
    obtain ⟨z, -, rfl⟩ := List.mem_map.1 ((hBm y).1 hy)
    omega

/-- What is seen of a vector without repetitions is the vector's elements exactly if it is in order and its elements are small. -/
theorem mem_seen_iff {w d : Nat} {v : List Nat} (hv : v.Nodup) :
    (∀ x, x ∈ seen w d v ↔ x ∈ v) ↔ InOrder w v ∧ ∀ x ∈ v, x < 2 ^ (d + w) := by
  constructor
  · intro h
    exact ⟨inOrder_of_mem_seen d 0 v (dvd_zero _) hv fun x => by rw [← h x]; simp,
      fun x hx => seen_lt d v x ((h x).2 hx)⟩
  · rintro ⟨h1, h2⟩ x
    have := mem_seen_inOrder d 0 v (dvd_zero _) h1 (fun x hx => ⟨Nat.zero_le _, by rw [Nat.zero_add]; exact h2 x hx⟩) x
    rw [this, Nat.zero_add]
    exact ⟨fun h => h.2, fun h => ⟨h2 x h, h⟩⟩

theorem mem_seen_of_inOrder {w d : Nat} {v : List Nat} (h1 : InOrder w v) (h2 : ∀ x ∈ v, x < 2 ^ (d + w)) (x : Nat) :
    x ∈ seen w d v ↔ x ∈ v := by
  have := mem_seen_inOrder d 0 v (dvd_zero _) h1 (fun x hx => ⟨Nat.zero_le _, by rw [Nat.zero_add]; exact h2 x hx⟩) x
  rw [this, Nat.zero_add]
  exact ⟨fun h => h.2, fun h => ⟨h2 x h, h⟩⟩

end CBT
