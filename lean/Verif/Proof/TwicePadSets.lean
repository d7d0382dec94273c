import Verif.Proof.Edges
import Verif.Proof.TwicePadFlat
import Verif.SpecTwice

/-!
# Nodes without children of a pruned tree in terms of the set
-/

namespace CBT

open Spec

theorem block_iff {j p x : Nat} (hp : 2 ^ j ∣ p) : x / 2 ^ j = p / 2 ^ j ↔ p ≤ x ∧ x < p + 2 ^ j := by
  obtain ⟨q, rfl⟩ := hp
  have hpos := Nat.two_pow_pos j
  rw [Nat.mul_div_cancel_left _ hpos, Nat.div_eq_iff hpos]
  rw [Nat.mul_comm]
  constructor
  · rintro ⟨h1, h2⟩; omega
  · rintro ⟨h1, h2⟩; omega

theorem fullBlock_mono {S : List Nat} {i j x : Nat} (h : i ≤ j) (hf : fullBlock S j x = true) : fullBlock S i x = true := by
  rw [fullBlock_iff] at hf ⊢
  intro y hy
  apply hf
  obtain ⟨k, rfl⟩ : ∃ k, j = i + k := ⟨j - i, by omega⟩
  rw [Nat.pow_add, ← Nat.div_div_eq_div_mul, ← Nat.div_div_eq_div_mul, hy]

theorem fullBlock_same {S : List Nat} {j x y : Nat} (h : x / 2 ^ j = y / 2 ^ j) : fullBlock S j x = fullBlock S j y := by
  rw [fullBlock, fullBlock, h]

theorem div_up {i j x y : Nat} (h : i ≤ j) (he : x / 2 ^ i = y / 2 ^ i) : x / 2 ^ j = y / 2 ^ j := by
  obtain ⟨k, rfl⟩ : ∃ k, j = i + k := ⟨j - i, by omega⟩
  rw [Nat.pow_add, ← Nat.div_div_eq_div_mul, ← Nat.div_div_eq_div_mul, he]

/-- The nodes of a level, with the starts of their blocks. -/
structure Front (S : List Nat) (b d : Nat) (F : List (Tr d × Nat)) : Prop where
  apart : Apart b d F
  node : ∀ t p, (t, p) ∈ F → NZ b d t ∧ Tight b d t ∧ 2 ^ (d + b) ∣ p ∧ ∀ x < 2 ^ (d + b), hasR b d t x = decide (p + x ∈ S)
  pos : ∀ p, 2 ^ (d + b) ∣ p →
    ((∃ t, (t, p) ∈ F) ↔ (∃ x ∈ S, x / 2 ^ (d + b) = p / 2 ^ (d + b)) ∧ fullBlock S (d + b + 1) p = false)

theorem front_root {S : List Nat} {b d : Nat} {T : Tr d} (hz : NZ b d T) (ht : Tight b d T) (hT : Holds (d + b) (hasR b d T) S)
    (hne : S ≠ []) (hb : ∀ x ∈ S, x < 2 ^ (d + b)) : Front S b d [(T, 0)] := by
  have hpos := Nat.two_pow_pos (d + b)
  refine ⟨List.pairwise_singleton _ _, fun t p h => ?_, fun p hp => ?_⟩
  · obtain ⟨rfl, rfl⟩ : t = T ∧ p = 0 := by simpa using h
    exact ⟨hz, ht, dvd_zero _, fun x hx => by rw [hT x hx, Nat.zero_add]⟩
  · constructor
    · rintro ⟨t, h⟩
      obtain ⟨rfl, rfl⟩ : t = T ∧ p = 0 := by simpa using h
      obtain ⟨x, hx⟩ := List.exists_mem_of_ne_nil S hne
      refine ⟨⟨x, hx, by rw [Nat.div_eq_of_lt (hb x hx), Nat.zero_div]⟩, ?_⟩
      by_contra hc
      have := fullBlock_iff.1 (by simpa using hc : fullBlock S (d + b + 1) 0 = true) (2 ^ (d + b))
        (by rw [Nat.div_eq_of_lt (by rw [Nat.pow_succ]; omega), Nat.zero_div])
      have := hb _ this
      omega
    · rintro ⟨⟨x, hx, e⟩, -⟩
      refine ⟨T, ?_⟩
      have := (block_iff hp).1 e
      have := hb x hx
      obtain ⟨q, rfl⟩ := hp
      have : q = 0 := by
        by_contra hc
        have : 2 ^ (d + b) * 1 ≤ 2 ^ (d + b) * q := Nat.mul_le_mul_left _ (by omega)
        omega
      subst this
      simp

theorem Front.bare {S : List Nat} {b d : Nat} {F : List (Tr (d + 1) × Nat)} (h : Front S b (d + 1) F) {t : Tr (d + 1)} {p : Nat}
    (hm : (t, p) ∈ F) : t.bare = fullBlock S (d + 1 + b) p := by
  obtain ⟨-, ht, hp, hs⟩ := h.node t p hm
  rw [Bool.eq_iff_iff, fullBlock_iff]
  constructor
  · intro hb y hy
    have hy := (block_iff hp).1 hy
    have := hs (y - p) (by omega)
    rw [hasR_bare hb, show p + (y - p) = y by omega] at this
    simpa using this.symm
  · intro hf
    by_contra hc
    obtain ⟨x, hx, hx'⟩ := ht.1 (by simpa using hc)
    rw [hs x hx] at hx'
    have := hf (p + x) ((block_iff hp).2 ⟨by omega, by omega⟩)
    simp [this] at hx'

theorem Front.kids {S : List Nat} {b d : Nat} {F : List (Tr (d + 1) × Nat)} (h : Front S b (d + 1) F) : Front S b d (kidsP b F) := by
  have hp2 := pow_split d b
  have hpos := Nat.two_pow_pos (d + b)
  have e1 : d + b + 1 = d + 1 + b := by omega
  have hnode : ∀ s q, (s, q) ∈ kidsP b F → NZ b d s ∧ Tight b d s ∧ 2 ^ (d + b) ∣ q ∧
      (∀ x < 2 ^ (d + b), hasR b d s x = decide (q + x ∈ S)) ∧ fullBlock S (d + b + 1) q = false := by
    intro s q hq
    obtain ⟨t, p, hm, hc⟩ := mem_kidsP.1 hq
    obtain ⟨hz, ht, hp, hs⟩ := h.node t p hm
    have hbare : t.bare = false := by
      rcases hc with ⟨e, -⟩ | ⟨e, -⟩ <;> simp [Tr.bare, e]
    have hf := h.bare hm
    rw [hbare, ← e1] at hf
    have hd : 2 ^ (d + b) ∣ p := (Nat.pow_dvd_pow 2 (by omega)).trans hp
    rcases hc with ⟨e, rfl⟩ | ⟨e, rfl⟩
    · refine ⟨hz.1 s e, ht.2.1 s e, hd, fun x hx => ?_, hf.symm⟩
      rw [← hs x (by omega), hasR_lo hx hbare, e]
      rfl
    · refine ⟨hz.2 s e, ht.2.2 s e, Nat.dvd_add hd ⟨1, by simp⟩, fun x hx => ?_, ?_⟩
      · rw [Nat.add_assoc, ← hs (2 ^ (d + b) + x) (by omega), hasR_hi hbare, e]
        rfl
      · rw [hf]
        exact fullBlock_same (by rw [e1]; exact (block_iff hp).2 ⟨by omega, by omega⟩)
  refine ⟨h.apart.kids, fun s q hq => ?_, fun q hq => ?_⟩
  · obtain ⟨h1, h2, h3, h4, -⟩ := hnode s q hq
    exact ⟨h1, h2, h3, h4⟩
  · constructor
    · rintro ⟨s, hm⟩
      obtain ⟨h1, -, -, h4, h5⟩ := hnode s q hm
      obtain ⟨x, hx, hx'⟩ := exists_hasR d s h1
      rw [h4 x hx] at hx'
      exact ⟨⟨q + x, by simpa using hx', (block_iff hq).2 ⟨by omega, by omega⟩⟩, h5⟩
    · rintro ⟨⟨x, hx, e⟩, hf⟩
      obtain ⟨p, hpe⟩ : ∃ p, p = q / 2 ^ (d + 1 + b) * 2 ^ (d + 1 + b) := ⟨_, rfl⟩
      have hp : 2 ^ (d + 1 + b) ∣ p := ⟨q / 2 ^ (d + 1 + b), by rw [hpe, Nat.mul_comm]⟩
      have hqp : q / 2 ^ (d + 1 + b) = p / 2 ^ (d + 1 + b) := by
        rw [hpe, Nat.mul_div_cancel _ (Nat.two_pow_pos _)]
      have hqp' := (block_iff hp).1 hqp
      have hf' : fullBlock S (d + 1 + b) p = false := by rw [← fullBlock_same hqp, ← e1]; exact hf
      obtain ⟨t, hm⟩ := (h.pos p hp).2 ⟨⟨x, hx, (div_up (i := d + b) (j := d + 1 + b) (by omega) e).trans hqp⟩, by
        by_contra hc
        rw [fullBlock_mono (i := d + 1 + b) (j := d + 1 + b + 1) (by omega) (by simpa using hc)] at hf'
        cases hf'⟩
      obtain ⟨-, -, -, hs⟩ := h.node t p hm
      have hbare : t.bare = false := by rw [h.bare hm]; exact hf'
      have hxq := (block_iff hq).1 e
      have hq' : q = p ∨ q = p + 2 ^ (d + b) := by
        obtain ⟨a, rfl⟩ := hq
        obtain ⟨c, rfl⟩ := (Nat.pow_dvd_pow 2 (by omega : d + b ≤ d + 1 + b)).trans hp
        have h1 : c ≤ a := by
          by_contra hc
          have : 2 ^ (d + b) * (a + 1) ≤ 2 ^ (d + b) * c := Nat.mul_le_mul_left _ (by omega)
          rw [Nat.mul_add, Nat.mul_one] at this
          omega
        have h2 : a < c + 2 := by
          by_contra hc
          have : 2 ^ (d + b) * (c + 2) ≤ 2 ^ (d + b) * a := Nat.mul_le_mul_left _ (by omega)
          rw [Nat.mul_add] at this
          omega
        have : a = c ∨ a = c + 1 := by omega
        rcases this with rfl | rfl
        · exact Or.inl rfl
        · right; rw [Nat.mul_add, Nat.mul_one]
      rcases hq' with rfl | rfl
      · have h1 := hs (x - q) (by omega)
        rw [hasR_lo (by omega) hbare, show q + (x - q) = x by omega, decide_eq_true hx] at h1
        obtain ⟨s, hs'⟩ := Option.isSome_iff_exists.1 (isSome_of_any h1)
        exact ⟨s, mem_kidsP.2 ⟨t, q, hm, Or.inl ⟨hs', rfl⟩⟩⟩
      · have h1 := hs (2 ^ (d + b) + (x - (p + 2 ^ (d + b)))) (by omega)
        rw [hasR_hi hbare, show p + (2 ^ (d + b) + (x - (p + 2 ^ (d + b)))) = x by omega, decide_eq_true hx] at h1
        obtain ⟨s, hs'⟩ := Option.isSome_iff_exists.1 (isSome_of_any h1)
        exact ⟨s, mem_kidsP.2 ⟨t, p, hm, Or.inr ⟨hs', rfl⟩⟩⟩

/-- Every element outside the full blocks of the size above is in a node. -/
theorem Front.find {S : List Nat} {b d : Nat} {F : List (Tr d × Nat)} (h : Front S b d F) {x : Nat} (hx : x ∈ S)
    (hf : fullBlock S (d + b + 1) x = false) : ∃ t p, (t, p) ∈ F ∧ x / 2 ^ (d + b) = p / 2 ^ (d + b) := by
  have hpos := Nat.two_pow_pos (d + b)
  have e : x / 2 ^ (d + b) = x / 2 ^ (d + b) * 2 ^ (d + b) / 2 ^ (d + b) := by rw [Nat.mul_div_cancel _ hpos]
  obtain ⟨t, hm⟩ := (h.pos (x / 2 ^ (d + b) * 2 ^ (d + b)) ⟨_, Nat.mul_comm _ _⟩).2
    ⟨⟨x, hx, e⟩, by rw [← fullBlock_same (div_up (by omega) e)]; exact hf⟩
  exact ⟨t, _, hm, e⟩

/-- Every node holds an element. -/
theorem Front.elem {S : List Nat} {b d : Nat} {F : List (Tr d × Nat)} (h : Front S b d F) {t : Tr d} {p : Nat} (hm : (t, p) ∈ F) :
    ∃ x ∈ S, x / 2 ^ (d + b) = p / 2 ^ (d + b) ∧ fullBlock S (d + b + 1) x = false := by
  obtain ⟨⟨x, hx, e⟩, hf⟩ := (h.pos p (h.node t p hm).2.2.1).1 ⟨t, hm⟩
  exact ⟨x, hx, e, by rw [fullBlock_same (div_up (by omega) e)]; exact hf⟩

/-- `fullLast` among the elements outside larger full blocks. -/
def fullLast' (S : List Nat) (j : Nat) : Prop :=
  ∀ x ∈ S, ∀ y ∈ S, x / 2 ^ j < y / 2 ^ j → fullBlock S (j + 1) x = false → fullBlock S (j + 1) y = false →
    fullBlock S j x = true → fullBlock S j y = true

theorem Front.late {S : List Nat} {b d : Nat} {F : List (Tr (d + 1) × Nat)} (h : Front S b (d + 1) F) :
    Late (F.map Prod.fst) ↔ fullLast' S (d + 1 + b) := by
  have hpos := Nat.two_pow_pos (d + 1 + b)
  rw [Late, List.pairwise_map]
  constructor
  · intro hL x hx y hy hlt hfx hfy hf
    obtain ⟨t, p, hm, e⟩ := h.find hx hfx
    obtain ⟨t', p', hm', e'⟩ := h.find hy hfy
    rw [fullBlock_same e'] at ⊢
    rw [fullBlock_same e, ← h.bare hm] at hf
    rw [← h.bare hm']
    rw [e, e'] at hlt
    have hpp : p < p' := by
      by_contra hc
      exact absurd (Nat.div_le_div_right (c := 2 ^ (d + 1 + b)) (by omega : p' ≤ p)) (by omega)
    obtain ⟨i, hi, ei⟩ := List.getElem_of_mem hm
    obtain ⟨j, hj, ej⟩ := List.getElem_of_mem hm'
    have hij : i < j := by
      by_contra hc
      rcases Nat.lt_or_ge j i with hc' | hc'
      · have := List.pairwise_iff_getElem.1 h.apart j i hj hi hc'
        rw [ei, ej] at this
        simp only at this
        omega
      · have : i = j := by omega
        subst this
        rw [ei] at ej
        have : p = p' := congrArg Prod.snd ej
        omega
    have := List.pairwise_iff_getElem.1 hL i j hi hj hij
    rw [ei, ej] at this
    exact this hf
  · intro hL
    rw [List.pairwise_iff_getElem]
    intro i j hi hj hij hb
    have hm : F[i] ∈ F := List.getElem_mem hi
    have hm' : F[j] ∈ F := List.getElem_mem hj
    obtain ⟨x, hx, ex, fx⟩ := h.elem (t := F[i].1) (p := F[i].2) hm
    obtain ⟨y, hy, ey, fy⟩ := h.elem (t := F[j].1) (p := F[j].2) hm'
    rw [h.bare (t := F[i].1) (p := F[i].2) hm, ← fullBlock_same ex] at hb
    rw [h.bare (t := F[j].1) (p := F[j].2) hm', ← fullBlock_same ey]
    refine hL x hx y hy ?_ fx fy hb
    have := List.pairwise_iff_getElem.1 h.apart i j hi hj hij
    rw [ex, ey]
    calc F[i].2 / 2 ^ (d + 1 + b) < (F[i].2 + 2 ^ (d + 1 + b)) / 2 ^ (d + 1 + b) := by rw [Nat.add_div_right _ hpos]; omega
      _ ≤ _ := Nat.div_le_div_right this

theorem Front.noBare {S : List Nat} {b d : Nat} {F : List (Tr (d + 1) × Nat)} (h : Front S b (d + 1) F) :
    (∀ t ∈ F.map Prod.fst, t.bare = false) ↔ ∀ x ∈ S, fullBlock S (d + 1 + b + 1) x = false → fullBlock S (d + 1 + b) x = false := by
  constructor
  · intro hn x hx hf
    obtain ⟨t, p, hm, e⟩ := h.find hx hf
    rw [fullBlock_same e, ← h.bare hm]
    exact hn t (List.mem_map.2 ⟨_, hm, rfl⟩)
  · intro hn t ht
    obtain ⟨⟨t, p⟩, hm, rfl⟩ := List.mem_map.1 ht
    obtain ⟨x, hx, e, hf⟩ := h.elem hm
    rw [h.bare hm, ← fullBlock_same e]
    exact hn x hx hf

theorem Front.allBare {S : List Nat} {b d : Nat} {F : List (Tr (d + 1) × Nat)} (h : Front S b (d + 1) F) :
    (∀ t ∈ F.map Prod.fst, t.bare = true) ↔ ∀ x ∈ S, fullBlock S (d + 1 + b) x = true := by
  constructor
  · intro hn x hx
    cases hf : fullBlock S (d + 1 + b + 1) x with
    | true => exact fullBlock_mono (by omega) hf
    | false =>
      obtain ⟨t, p, hm, e⟩ := h.find hx hf
      rw [fullBlock_same e, ← h.bare hm]
      exact hn t (List.mem_map.2 ⟨_, hm, rfl⟩)
  · intro hn t ht
    obtain ⟨⟨t, p⟩, hm, rfl⟩ := List.mem_map.1 ht
    obtain ⟨x, hx, e, hf⟩ := h.elem hm
    rw [h.bare hm, ← fullBlock_same e]
    exact hn x hx

theorem Front.count {S : List Nat} {b d : Nat} {F : List (Tr (d + 1) × Nat)} (h : Front S b (d + 1) F) (hS : S.Pairwise (· < ·)) :
    bareN (F.map Prod.fst) = maxBlocks S (d + 1 + b) := by
  have hpos := Nat.two_pow_pos (d + 1 + b)
  have hF : (F.map Prod.snd).Pairwise (· < ·) := by
    rw [List.pairwise_map]
    exact h.apart.imp fun h => by omega
  have e : ((F.map Prod.snd).filter fun p => fullBlock S (d + 1 + b) p) =
      S.filter fun x => decide (x % 2 ^ (d + 1 + b) = 0) && fullBlock S (d + 1 + b) x && !fullBlock S (d + 1 + b + 1) x := by
    apply sorted_ext (hF.filter _) (hS.filter _)
    intro p
    simp only [List.mem_filter, Bool.and_eq_true, decide_eq_true_eq, Bool.not_eq_true']
    constructor
    · rintro ⟨hp, hf⟩
      obtain ⟨⟨t, p⟩, hm, rfl⟩ := List.mem_map.1 hp
      have hd := (h.node t p hm).2.2.1
      exact ⟨fullBlock_iff.1 hf p rfl, ⟨Nat.mod_eq_zero_of_dvd hd, hf⟩, ((h.pos p hd).1 ⟨t, hm⟩).2⟩
    · rintro ⟨hp, ⟨hd, hf⟩, hn⟩
      obtain ⟨t, hm⟩ := (h.pos p (Nat.dvd_of_mod_eq_zero hd)).2 ⟨⟨p, hp, rfl⟩, hn⟩
      exact ⟨List.mem_map.2 ⟨_, hm, rfl⟩, hf⟩
  rw [maxBlocks, ← e, bareN, List.filter_map, List.filter_map, List.length_map, List.length_map]
  congr 1
  refine List.filter_congr fun a ha => ?_
  exact h.bare (t := a.1) (p := a.2) ha

/-- `maxBlocks` for all `j` with `b < j <= h` together. -/
def maxBlocksUp (S : List Nat) (b h : Nat) : Nat := ((List.range (h - b)).map fun i => maxBlocks S (b + 1 + i)).sum

/-! ## All levels -/

theorem front_lateAll {S : List Nat} {b pad : Nat} (hS : S.Pairwise (· < ·)) : ∀ (d : Nat) (F : List (Tr d × Nat)), Front S b d F →
    (LateAll pad d (F.map Prod.fst) ↔ ∀ j, b + 1 ≤ j → j ≤ d + b → fullLast' S j ∧ 2 * maxBlocks S j ≤ pad)
  | 0, F, _ => ⟨fun _ j h1 h2 => by omega, fun _ => trivial⟩
  | d + 1, F, h => by
    rw [LateAll, h.late, h.count hS, ← kidsP_fst b, front_lateAll hS d _ h.kids]
    constructor
    · rintro ⟨h1, h2, h3⟩ j hj hj'
      by_cases hc : j = d + 1 + b
      · subst hc; exact ⟨h1, h2⟩
      · exact h3 j hj (by omega)
    · intro hh
      exact ⟨(hh _ (by omega) (Nat.le_refl _)).1, (hh _ (by omega) (Nat.le_refl _)).2, fun j hj hj' => hh j hj (by omega)⟩

theorem front_leaves {S : List Nat} {b : Nat} : ∀ (d : Nat) (F : List (Tr d × Nat)), Front S b d F →
    (leaves d (F.map Prod.fst) = [] ↔ ∀ x ∈ S, fullBlock S (b + 1) x = true)
  | 0, F, h => by
    rw [leaves]
    simp only [List.map_eq_nil_iff]
    constructor
    · rintro rfl x hx
      by_contra hc
      obtain ⟨t, p, hm, -⟩ := h.find hx (by simpa using hc)
      simp at hm
    · intro hn
      by_contra hc
      obtain ⟨⟨t, p⟩, hm⟩ := List.exists_mem_of_ne_nil F hc
      obtain ⟨x, hx, -, hf⟩ := h.elem hm
      have := hn x hx
      rw [Nat.zero_add] at hf
      rw [this] at hf
      cases hf
  | d + 1, F, h => by
    rw [leaves, ← kidsP_fst b]
    exact front_leaves d _ h.kids

/-- All leaves are full. -/
theorem front_three {S : List Nat} : ∀ (d : Nat) (F : List (Tr d × Nat)), Front S 1 d F →
    ((∀ w ∈ leaves d (F.map Prod.fst), w = 3) ↔ ∀ x ∈ S, fullBlock S 1 x = true)
  | 0, F, h => by
    have key : ∀ t p, (t, p) ∈ F → (t.word = 3 ↔ fullBlock S 1 p = true) := by
      intro t p hm
      obtain ⟨hz, -, hp, hs⟩ := h.node t p hm
      rw [Nat.zero_add] at hp
      have h0 := hs 0 (by simp)
      have h1 := hs 1 (by simp)
      rw [hasR] at h0 h1
      have hz : 0 < t.word ∧ t.word < 4 := hz
      rw [fullBlock_iff]
      constructor
      · intro e y hy
        have := (block_iff hp).1 hy
        rw [e] at h0 h1
        have : y = p + 0 ∨ y = p + 1 := by omega
        rcases this with rfl | rfl
        · simpa [show Nat.testBit 3 0 = true from by decide] using h0.symm
        · simpa [show Nat.testBit 3 1 = true from by decide] using h1.symm
      · intro hf
        rw [decide_eq_true (hf (p + 0) ((block_iff hp).2 ⟨by omega, by omega⟩))] at h0
        rw [decide_eq_true (hf (p + 1) ((block_iff hp).2 ⟨by omega, by omega⟩))] at h1
        have : t.word = 1 ∨ t.word = 2 ∨ t.word = 3 := by omega
        rcases this with e | e | e
        · rw [e] at h1; exact absurd h1 (by decide)
        · rw [e] at h0; exact absurd h0 (by decide)
        · exact e
    rw [leaves]
    constructor
    · intro hw x hx
      cases hf : fullBlock S (1 + 1) x with
      | true => exact fullBlock_mono (by omega) hf
      | false =>
        obtain ⟨t, p, hm, e⟩ := h.find hx (by simpa using hf)
        rw [Nat.zero_add] at e
        rw [fullBlock_same e, ← key t p hm]
        exact hw _ (List.mem_map.2 ⟨t, List.mem_map.2 ⟨_, hm, rfl⟩, rfl⟩)
    · intro hn w hw
      obtain ⟨t, ht, rfl⟩ := List.mem_map.1 hw
      obtain ⟨⟨t, p⟩, hm, rfl⟩ := List.mem_map.1 ht
      obtain ⟨x, hx, e, -⟩ := h.elem hm
      rw [Nat.zero_add] at e
      rw [key t p hm, ← fullBlock_same e]
      exact hn x hx
  | d + 1, F, h => by
    rw [leaves, ← kidsP_fst 1]
    exact front_three d _ h.kids

theorem sum_range_shift (f : Nat → Nat) (n : Nat) : ((List.range (n + 1)).map f).sum = ((List.range n).map f).sum + f n := by
  rw [List.range_succ]
  simp

theorem front_bareAll {S : List Nat} {b : Nat} (hS : S.Pairwise (· < ·)) : ∀ (d : Nat) (F : List (Tr d × Nat)), Front S b d F →
    bareAll d (F.map Prod.fst) = maxBlocksUp S b (d + b)
  | 0, F, _ => by simp [bareAll, maxBlocksUp]
  | d + 1, F, h => by
    rw [bareAll, h.count hS, ← kidsP_fst b, front_bareAll hS d _ h.kids, maxBlocksUp, maxBlocksUp,
      show d + 1 + b - b = d + 1 by omega, show d + b - b = d by omega, sum_range_shift,
      show b + 1 + d = d + 1 + b by omega]
    omega

/-- No node has a child. -/
theorem front_solid_nil {S : List Nat} {b d : Nat} {F : List (Tr (d + 1) × Nat)} (h : Front S b (d + 1) F) :
    (nodeLevelsS (d + 1) (F.map Prod.fst)).flatten = [] ↔ ∀ x ∈ S, fullBlock S (d + 1 + b) x = true := by
  rw [← h.allBare, nodeLevelsS, List.flatten_cons, List.append_eq_nil_iff, solid_nil_iff]
  refine ⟨fun h => h.1, fun hb => ⟨hb, ?_⟩⟩
  have hk : CBT.kids (F.map Prod.fst) = [] := by
    refine List.flatMap_eq_nil_iff.2 fun t ht => ?_
    obtain ⟨e1, e2⟩ := Tr.bare_eq (hb t ht)
    simp [kidsOf, e1, e2]
  rw [hk, nodeLevelsS_nil]
  simp

theorem front_lateFlat {S : List Nat} {b : Nat} : ∀ (d : Nat) (F : List (Tr d × Nat)), Front S b d F →
    (LateFlat d (F.map Prod.fst) ↔ ∀ j, b + 1 ≤ j → j ≤ d + b → fullLast' S j ∧
      (b + 2 ≤ j → (∃ x ∈ S, fullBlock S j x = true ∧ fullBlock S (j + 1) x = false) → ∀ y ∈ S, fullBlock S (j - 1) y = true))
  | 0, F, _ => ⟨fun _ j h1 h2 => by omega, fun _ => trivial⟩
  | d + 1, F, h => by
    have ih := front_lateFlat d _ h.kids
    have hsol : (nodeLevelsS d (kidsP b F |>.map Prod.fst)).flatten = [] ↔ (1 ≤ d → ∀ x ∈ S, fullBlock S (d + b) x = true) := by
      cases d with
      | zero => simp [nodeLevelsS]
      | succ d => rw [front_solid_nil h.kids]; simp
    rw [LateFlat, ← kidsP_fst b, hsol, ih, h.late, h.noBare]
    constructor
    · rintro (⟨h1, h2⟩ | ⟨h1, h2⟩) j hj hj'
      · by_cases hc : j = d + 1 + b
        · subst hc
          refine ⟨fun x hx y hy _ hfx _ hf => ?_, ?_⟩
          · rw [h1 x hx hfx] at hf; cases hf
          · rintro - ⟨x, hx, hf, hn⟩
            rw [h1 x hx hn] at hf; cases hf
        · exact h2 j hj (by omega)
      · by_cases hc : j = d + 1 + b
        · subst hc
          refine ⟨h1, fun hj2 _ => ?_⟩
          rw [show d + 1 + b - 1 = d + b by omega]
          exact h2 (by omega)
        · have hall := h2 (by omega)
          exact ⟨fun x hx y hy _ _ _ _ => fullBlock_mono (by omega) (hall y hy), fun _ _ y hy => fullBlock_mono (by omega) (hall y hy)⟩
    · intro hh
      by_cases hn : ∀ x ∈ S, fullBlock S (d + 1 + b + 1) x = false → fullBlock S (d + 1 + b) x = false
      · exact Or.inl ⟨hn, fun j hj hj' => hh j hj (by omega)⟩
      · push Not at hn
        obtain ⟨x, hx, hf, hf'⟩ := hn
        obtain ⟨h1, h2⟩ := hh (d + 1 + b) (by omega) (Nat.le_refl _)
        refine Or.inr ⟨h1, fun hd => ?_⟩
        have := h2 (by omega) ⟨x, hx, by simpa using hf', hf⟩
        rwa [show d + 1 + b - 1 = d + b by omega] at this

/-! ## From the nodes to all elements -/

theorem not_full_above {S : List Nat} {h j x : Nat} (hb : ∀ x ∈ S, x < 2 ^ h) (hj : h < j) : fullBlock S j x = false := by
  by_contra hc
  have hf : fullBlock S (h + 1) x = true := fullBlock_mono hj (by simpa using hc)
  rw [fullBlock_iff] at hf
  have hpos := Nat.two_pow_pos h
  have hp := Nat.two_pow_pos (h + 1)
  have e : (x / 2 ^ (h + 1) * 2 ^ (h + 1) + 2 ^ h) / 2 ^ (h + 1) = x / 2 ^ (h + 1) := by
    rw [Nat.mul_comm, Nat.mul_add_div hp, Nat.div_eq_of_lt (a := 2 ^ h) (by rw [Nat.pow_succ]; omega), Nat.add_zero]
  have := hb _ (hf _ e)
  omega

theorem fullLast_iff {S : List Nat} {h b : Nat} (hb : ∀ x ∈ S, x < 2 ^ h) :
    (∀ j, b + 1 ≤ j → fullLast S j) ↔ ∀ j, b + 1 ≤ j → j ≤ h → fullLast' S j := by
  constructor
  · intro hh j hj _ x hx y hy hlt _ _ hf
    exact hh j hj x hx y hy hlt hf
  · intro hh
    have key : ∀ k j, b + 1 ≤ j → h < j + k → fullLast S j := by
      intro k
      induction k with
      | zero =>
        intro j _ hj x hx y hy _ hf
        rw [not_full_above hb (by omega)] at hf
        cases hf
      | succ k ih =>
        intro j hj hjk x hx y hy hlt hf
        by_cases hjh : j ≤ h
        · cases hfy : fullBlock S (j + 1) y with
          | true => exact fullBlock_mono (by omega) hfy
          | false =>
            cases hfx : fullBlock S (j + 1) x with
            | false => exact hh j hj hjh x hx y hy hlt hfx hfy hf
            | true =>
              exfalso
              by_cases he : x / 2 ^ (j + 1) = y / 2 ^ (j + 1)
              · rw [fullBlock_same he, hfy] at hfx; cases hfx
              · have hle : x / 2 ^ (j + 1) ≤ y / 2 ^ (j + 1) := by
                  rw [Nat.pow_succ, ← Nat.div_div_eq_div_mul, ← Nat.div_div_eq_div_mul]
                  exact Nat.div_le_div_right (by omega)
                rw [ih (j + 1) (by omega) (by omega) x hx y hy (by omega) hfx] at hfy
                cases hfy
        · rw [not_full_above hb (by omega)] at hf
          cases hf
    intro j hj
    exact key (h + 1) j hj (by omega)

/-- Every full block is in a largest one. -/
theorem full_max {S : List Nat} {h x : Nat} (hb : ∀ x ∈ S, x < 2 ^ h) : ∀ k j, h < j + k → fullBlock S j x = true →
    ∃ i, j ≤ i ∧ i ≤ h ∧ fullBlock S i x = true ∧ fullBlock S (i + 1) x = false
  | 0, j, hj, hf => by rw [not_full_above hb (by omega)] at hf; cases hf
  | k + 1, j, hj, hf => by
    cases hn : fullBlock S (j + 1) x with
    | false =>
      refine ⟨j, Nat.le_refl _, ?_, hf, hn⟩
      by_contra hc
      rw [not_full_above hb (by omega)] at hf
      cases hf
    | true =>
      obtain ⟨i, h1, h2, h3⟩ := full_max hb k (j + 1) (by omega) hn
      exact ⟨i, by omega, h2, h3⟩

theorem maxBlocks_zero {S : List Nat} {j : Nat} (h : maxBlocks S j = 0) {x : Nat} (hf : fullBlock S j x = true) :
    fullBlock S (j + 1) x = true := by
  by_contra hc
  have hpos := Nat.two_pow_pos j
  rw [maxBlocks, List.length_eq_zero_iff, List.filter_eq_nil_iff] at h
  have e : x / 2 ^ j * 2 ^ j / 2 ^ j = x / 2 ^ j := Nat.mul_div_cancel _ hpos
  refine h (x / 2 ^ j * 2 ^ j) (fullBlock_iff.1 hf _ e) ?_
  rw [fullBlock_same e, fullBlock_same (div_up (by omega) e), hf, Nat.mul_mod_left]
  simpa using hc

theorem maxBlocks_none {S : List Nat} {j : Nat} (h : ∀ x ∈ S, fullBlock S j x = false) : maxBlocks S j = 0 := by
  rw [maxBlocks, List.filter_eq_nil_iff.2 (by intro x hx; simp [h x hx])]
  rfl

theorem zero_of_sum : {l : List Nat} → l.sum = 0 → ∀ a ∈ l, a = 0
  | b :: l, h, a, ha => by
    rw [List.sum_cons] at h
    rcases List.mem_cons.1 ha with rfl | ha
    · omega
    · exact zero_of_sum (by omega) a ha

theorem zero_sum : {l : List Nat} → (∀ a ∈ l, a = 0) → l.sum = 0
  | [], _ => rfl
  | b :: l, h => by rw [List.sum_cons, h b (by simp), zero_sum fun a ha => h a (List.mem_cons_of_mem _ ha)]

theorem maxBlocksUp_zero {S : List Nat} {b h : Nat} (hb : ∀ x ∈ S, x < 2 ^ h) :
    maxBlocksUp S b h = 0 ↔ ∀ x ∈ S, fullBlock S (b + 1) x = false := by
  constructor
  · intro h0 x hx
    by_contra hc
    obtain ⟨i, h1, h2, h3, h4⟩ := full_max hb (h + 1) (b + 1) (by omega) (by simpa using hc : fullBlock S (b + 1) x = true)
    have := zero_of_sum h0 (maxBlocks S i) (List.mem_map.2 ⟨i - (b + 1), List.mem_range.2 (by omega), by rw [show b + 1 + (i - (b + 1)) = i by omega]⟩)
    rw [maxBlocks_zero this h3] at h4
    cases h4
  · intro hn
    refine zero_sum fun a ha => ?_
    obtain ⟨i, -, rfl⟩ := List.mem_map.1 ha
    apply maxBlocks_none
    intro x hx
    by_contra hc
    have := fullBlock_mono (i := b + 1) (by omega) (by simpa using hc : fullBlock S (b + 1 + i) x = true)
    rw [hn x hx] at this
    cases this

theorem sum_two (f : Nat → Nat) (a : Nat) (hz : ∀ i, i ≠ a → i ≠ a + 1 → f i = 0) : ∀ n, ((List.range n).map f).sum =
    (if a < n then f a else 0) + (if a + 1 < n then f (a + 1) else 0)
  | 0 => by simp
  | n + 1 => by
    rw [sum_range_shift, sum_two f a hz n]
    rcases Nat.lt_trichotomy n a with h | h | h
    · rw [hz n (by omega) (by omega), if_neg (by omega), if_neg (by omega), if_neg (by omega), if_neg (by omega)]
    · subst h
      rw [if_neg (by omega), if_neg (by omega), if_pos (by omega), if_neg (by omega)]
      omega
    · by_cases h' : n = a + 1
      · subst h'
        rw [if_pos (by omega), if_neg (by omega), if_pos (by omega), if_pos (by omega)]
        omega
      · rw [hz n (by omega) (by omega), if_pos (by omega), if_pos (by omega), if_pos (by omega), if_pos (by omega), Nat.add_zero]

/-- If all elements are in full blocks of one size and none in one four times as large, two sizes are left. -/
theorem maxBlocksUp_two {S : List Nat} {b h j : Nat} (hb : ∀ x ∈ S, x < 2 ^ h) (hj : b + 1 ≤ j)
    (h1 : ∀ i, b + 1 ≤ i → i < j → maxBlocks S i = 0) (h2 : ∀ x ∈ S, fullBlock S (j + 2) x = false) :
    maxBlocksUp S b h = maxBlocks S j + maxBlocks S (j + 1) := by
  have hup : ∀ i, h < i → maxBlocks S i = 0 := fun i hi => maxBlocks_none fun x _ => not_full_above hb hi
  rw [maxBlocksUp, sum_two (fun i => maxBlocks S (b + 1 + i)) (j - (b + 1))]
  · rw [show b + 1 + (j - (b + 1)) = j by omega, show b + 1 + (j - (b + 1) + 1) = j + 1 by omega]
    congr 1
    · split
      · rfl
      · rw [hup j (by omega)]
    · split
      · rfl
      · rw [hup (j + 1) (by omega)]
  · intro i hi1 hi2
    by_cases hlt : b + 1 + i < j
    · exact h1 _ (by omega) hlt
    · apply maxBlocks_none
      intro x hx
      by_contra hc
      have := fullBlock_mono (i := j + 2) (by omega) (by simpa using hc : fullBlock S (b + 1 + i) x = true)
      rw [h2 x hx] at this
      cases this

theorem all_full {S : List Nat} {h b : Nat} (hall : ∀ x < 2 ^ h, x ∈ S) (hb : b ≤ h) {x : Nat} (hx : x < 2 ^ h) : fullBlock S b x = true := by
  refine fullBlock_mono hb (fullBlock_iff.2 fun y hy => hall y ?_)
  rw [Nat.div_eq_of_lt hx] at hy
  exact (Nat.div_eq_zero_iff_lt (Nat.two_pow_pos _)).1 hy

end CBT
