import Verif.Proof.Unreadable
import Verif.Proof.ExactSets
import Verif.Proof.FlatCollapse

/-!
# Which nodes without children a run-aware intersection meets
-/

namespace CBT

/-- The trie has a node without children for block `k` of size `2^j`. -/
def BareAt (b : Nat) : (d : Nat) → Tr d → (j k : Nat) → Prop
  | 0, _, _, _ => False
  | d + 1, t, j, k => t.bare = true ∧ j = d + 1 + b ∧ k = 0 ∨
    (∃ s, t.l = some s ∧ BareAt b d s j k) ∨
    ∃ s k', t.r = some s ∧ k = 2 ^ (d + b - j) + k' ∧ BareAt b d s j k'

theorem BareAt.bounds {b : Nat} : {d : Nat} → {t : Tr d} → {j k : Nat} → BareAt b d t j k → b < j ∧ j ≤ d + b ∧ k < 2 ^ (d + b - j)
  | 0, _, _, _, h => h.elim
  | d + 1, t, j, k, h => by
    rcases h with ⟨_, rfl, rfl⟩ | ⟨s, _, h⟩ | ⟨s, k', _, rfl, h⟩
    · exact ⟨by omega, Nat.le_refl _, Nat.two_pow_pos _⟩
    · obtain ⟨h1, h2, h3⟩ := h.bounds
      refine ⟨h1, by omega, h3.trans_le (Nat.pow_le_pow_right (by omega) (by omega))⟩
    · obtain ⟨h1, h2, h3⟩ := h.bounds
      refine ⟨h1, by omega, ?_⟩
      rw [show d + 1 + b - j = (d + b - j) + 1 by omega, Nat.pow_succ]
      omega

theorem inBlock_lt {t j k y : Nat} (hj : j ≤ t) (hk : k < 2 ^ (t - j)) (hy : y / 2 ^ j = k) : y < 2 ^ t := by
  rw [← Nat.sub_add_cancel hj, Nat.pow_add]
  exact (Nat.div_lt_iff_lt_mul (Nat.two_pow_pos j)).1 (hy ▸ hk)

theorem inBlock_shift {t j y : Nat} (hj : j ≤ t) : (2 ^ t + y) / 2 ^ j = 2 ^ (t - j) + y / 2 ^ j := by
  obtain ⟨e, rfl⟩ := Nat.exists_eq_add_of_le hj
  rw [Nat.add_sub_cancel_left, Nat.pow_add, Nat.mul_add_div (Nat.two_pow_pos j)]

section
variable {α : Type} (bad : α → Nat → Nat → Prop) (b : Nat)

/-- The block is met by the tries, and one of them cannot read its node for it. -/
def Met1 (d p : Nat) (as : List α) (ts : List (Option (Tr d))) : Prop :=
  ∃ a t j k, (a, some t) ∈ as.zip ts ∧ BareAt b d t j k ∧ bad a j (p + k * 2 ^ j) ∧
    ∀ t', some t' ∈ ts → ∃ y, y / 2 ^ j = k ∧ hasR b d t' y = true

theorem mem_zip_left {d : Nat} {as : List α} {ts : List (Option (Tr (d + 1)))} {a : α} {s : Tr d} :
    (a, some s) ∈ as.zip (leftsO (deact ts)) ↔ ∃ t, (a, some t) ∈ as.zip ts ∧ t.l = some s := by
  rw [leftsO, deact, List.map_map, List.zip_map_right, List.mem_map]
  constructor
  · rintro ⟨⟨a', o⟩, hm, e⟩
    simp only [Prod.map_apply, id_eq, Function.comp_apply, Prod.mk.injEq] at e
    obtain ⟨rfl, e⟩ := e
    cases o with
    | none => simp at e
    | some t =>
      refine ⟨t, hm, ?_⟩
      cases hb : t.bare <;> simp [Option.filter, hb] at e
      exact e
  · rintro ⟨t, hm, hs⟩
    refine ⟨_, hm, ?_⟩
    simp [Option.filter, Tr.bare, hs]

theorem mem_zip_right {d : Nat} {as : List α} {ts : List (Option (Tr (d + 1)))} {a : α} {s : Tr d} :
    (a, some s) ∈ as.zip (rightsO (deact ts)) ↔ ∃ t, (a, some t) ∈ as.zip ts ∧ t.r = some s := by
  rw [rightsO, deact, List.map_map, List.zip_map_right, List.mem_map]
  constructor
  · rintro ⟨⟨a', o⟩, hm, e⟩
    simp only [Prod.map_apply, id_eq, Function.comp_apply, Prod.mk.injEq] at e
    obtain ⟨rfl, e⟩ := e
    cases o with
    | none => simp at e
    | some t =>
      refine ⟨t, hm, ?_⟩
      cases hb : t.bare <;> simp [Option.filter, hb] at e
      exact e
  · rintro ⟨t, hm, hs⟩
    refine ⟨_, hm, ?_⟩
    simp [Option.filter, Tr.bare, hs]

theorem mem_leftsO {d : Nat} {ts : List (Option (Tr (d + 1)))} {s : Tr d} :
    some s ∈ leftsO (deact ts) ↔ ∃ t, some t ∈ ts ∧ t.l = some s := by
  rw [leftsO, deact, List.map_map, List.mem_map]
  constructor
  · rintro ⟨o, hm, e⟩
    cases o with
    | none => simp at e
    | some t =>
      refine ⟨t, hm, ?_⟩
      cases hb : t.bare <;> simp [Option.filter, hb] at e
      exact e
  · rintro ⟨t, hm, hs⟩
    refine ⟨_, hm, ?_⟩
    simp [Option.filter, Tr.bare, hs]

theorem mem_rightsO {d : Nat} {ts : List (Option (Tr (d + 1)))} {s : Tr d} :
    some s ∈ rightsO (deact ts) ↔ ∃ t, some t ∈ ts ∧ t.r = some s := by
  rw [rightsO, deact, List.map_map, List.mem_map]
  constructor
  · rintro ⟨o, hm, e⟩
    cases o with
    | none => simp at e
    | some t =>
      refine ⟨t, hm, ?_⟩
      cases hb : t.bare <;> simp [Option.filter, hb] at e
      exact e
  · rintro ⟨t, hm, hs⟩
    refine ⟨_, hm, ?_⟩
    simp [Option.filter, Tr.bare, hs]

theorem allLO_deact {d : Nat} {ts : List (Option (Tr (d + 1)))} :
    allLO (deact ts) = true ↔ ∀ t, some t ∈ ts → t.bare = false → ∃ s, t.l = some s := by
  simp only [allLO, deact, List.all_map, List.all_eq_true, Function.comp_apply]
  constructor
  · intro h t ht hb
    have := h _ ht
    simp only [Option.filter, hb, Bool.not_false, if_true, Option.all_some] at this
    exact Option.isSome_iff_exists.1 this
  · intro h o ho
    cases o with
    | none => rfl
    | some t =>
      cases hb : t.bare with
      | true => simp [Option.filter, hb]
      | false =>
        obtain ⟨s, hs⟩ := h t ho hb
        simp [Option.filter, hb, hs]

theorem allRO_deact {d : Nat} {ts : List (Option (Tr (d + 1)))} :
    allRO (deact ts) = true ↔ ∀ t, some t ∈ ts → t.bare = false → ∃ s, t.r = some s := by
  simp only [allRO, deact, List.all_map, List.all_eq_true, Function.comp_apply]
  constructor
  · intro h t ht hb
    have := h _ ht
    simp only [Option.filter, hb, Bool.not_false, if_true, Option.all_some] at this
    exact Option.isSome_iff_exists.1 this
  · intro h o ho
    cases o with
    | none => rfl
    | some t =>
      cases hb : t.bare with
      | true => simp [Option.filter, hb]
      | false =>
        obtain ⟨s, hs⟩ := h t ho hb
        simp [Option.filter, hb, hs]

theorem hits_iff : ∀ (d p : Nat) (as : List α) (ts : List (Option (Tr d))), (∀ t, some t ∈ ts → NZ b d t) →
    (Hits bad b d p as ts ↔ Met1 bad b d p as ts)
  | 0, p, as, ts, _ => by
    constructor
    · exact False.elim
    · rintro ⟨a, t, j, k, -, h, -⟩; exact h
  | d + 1, p, as, ts, hnz => by
    have hp := pow_split d b
    have hl : ∀ s, some s ∈ leftsO (deact ts) → NZ b d s := by
      intro s hs
      obtain ⟨t, ht, e⟩ := mem_leftsO.1 hs
      exact (hnz t ht).1 s e
    have hr : ∀ s, some s ∈ rightsO (deact ts) → NZ b d s := by
      intro s hs
      obtain ⟨t, ht, e⟩ := mem_rightsO.1 hs
      exact (hnz t ht).2 s e
    have hnb : ∀ (t : Tr (d + 1)) s, t.l = some s ∨ t.r = some s → t.bare = false := by
      rintro t s (h | h) <;> simp [Tr.bare, h]
    rw [Hits, hits_iff d _ _ _ hl, hits_iff d _ _ _ hr]
    constructor
    · rintro (⟨a, t, hm, hb, hbad⟩ | ⟨hA, a, s, j, k, hm, hB, hbad, hmet⟩ | ⟨hA, a, s, j, k, hm, hB, hbad, hmet⟩)
      · refine ⟨a, t, d + 1 + b, 0, hm, Or.inl ⟨hb, rfl, rfl⟩, by simpa using hbad, fun t' ht' => ?_⟩
        obtain ⟨x, hx, h⟩ := (hnz t' ht').exists_hasR
        exact ⟨x, Nat.div_eq_of_lt hx, h⟩
      · obtain ⟨t, hm, hs⟩ := mem_zip_left.1 hm
        obtain ⟨hj0, hj, hk⟩ := hB.bounds
        refine ⟨a, t, j, k, hm, Or.inr (Or.inl ⟨s, hs, hB⟩), hbad, fun t' ht' => ?_⟩
        cases hb : t'.bare with
        | true => exact ⟨k * 2 ^ j, Nat.mul_div_cancel _ (Nat.two_pow_pos j), hasR_bare hb⟩
        | false =>
          obtain ⟨s', hs'⟩ := allLO_deact.1 hA t' ht' hb
          obtain ⟨y, hy, h⟩ := hmet s' (mem_leftsO.2 ⟨t', ht', hs'⟩)
          refine ⟨y, hy, ?_⟩
          rw [hasR_lo (inBlock_lt hj hk hy) hb, hs']
          exact h
      · obtain ⟨t, hm, hs⟩ := mem_zip_right.1 hm
        obtain ⟨hj0, hj, hk⟩ := hB.bounds
        refine ⟨a, t, j, 2 ^ (d + b - j) + k, hm, Or.inr (Or.inr ⟨s, k, hs, rfl, hB⟩), ?_, fun t' ht' => ?_⟩
        · rw [Nat.add_mul, ← Nat.pow_add, Nat.sub_add_cancel hj, ← Nat.add_assoc]
          exact hbad
        · cases hb : t'.bare with
          | true => exact ⟨_, Nat.mul_div_cancel _ (Nat.two_pow_pos j), hasR_bare hb⟩
          | false =>
            obtain ⟨s', hs'⟩ := allRO_deact.1 hA t' ht' hb
            obtain ⟨y, hy, h⟩ := hmet s' (mem_rightsO.2 ⟨t', ht', hs'⟩)
            refine ⟨2 ^ (d + b) + y, by rw [inBlock_shift hj, hy], ?_⟩
            rw [hasR_hi hb, hs']
            exact h
    · rintro ⟨a, t, j, k, hm, hB, hbad, hmet⟩
      rcases hB with ⟨hb, rfl, rfl⟩ | ⟨s, hs, hB⟩ | ⟨s, k, hs, rfl, hB⟩
      · exact Or.inl ⟨a, t, hm, hb, by simpa using hbad⟩
      · obtain ⟨hj0, hj, hk⟩ := hB.bounds
        have hlo : ∀ t', some t' ∈ ts → t'.bare = false → ∃ s', t'.l = some s' ∧ ∃ y, y / 2 ^ j = k ∧ hasR b d s' y = true := by
          intro t' ht' hb
          obtain ⟨y, hy, h⟩ := hmet t' ht'
          rw [hasR_lo (inBlock_lt hj hk hy) hb, Option.any_eq_true] at h
          obtain ⟨s', hs', h⟩ := h
          exact ⟨s', hs', y, hy, h⟩
        refine Or.inr (Or.inl ⟨allLO_deact.2 fun t' ht' hb => ?_, a, s, j, k, mem_zip_left.2 ⟨t, hm, hs⟩, hB, hbad, fun s' hs' => ?_⟩)
        · obtain ⟨s', h, -⟩ := hlo t' ht' hb
          exact ⟨s', h⟩
        · obtain ⟨t', ht', hs'⟩ := mem_leftsO.1 hs'
          obtain ⟨s'', h, h'⟩ := hlo t' ht' (hnb t' s' (Or.inl hs'))
          rw [hs'] at h
          cases h
          exact h'
      · obtain ⟨hj0, hj, hk⟩ := hB.bounds
        have hhi : ∀ t', some t' ∈ ts → t'.bare = false → ∃ s', t'.r = some s' ∧ ∃ y, y / 2 ^ j = k ∧ hasR b d s' y = true := by
          intro t' ht' hb
          obtain ⟨y, hy, h⟩ := hmet t' ht'
          have hge : 2 ^ (d + b) ≤ y := by
            by_contra hc
            have h1 : y / 2 ^ j < 2 ^ (d + b - j) := by
              rw [Nat.div_lt_iff_lt_mul (Nat.two_pow_pos j), ← Nat.pow_add, Nat.sub_add_cancel hj]
              omega
            omega
          obtain ⟨z, rfl⟩ := Nat.exists_eq_add_of_le hge
          rw [inBlock_shift hj] at hy
          rw [hasR_hi hb, Option.any_eq_true] at h
          obtain ⟨s', hs', h⟩ := h
          exact ⟨s', hs', z, by omega, h⟩
        refine Or.inr (Or.inr ⟨allRO_deact.2 fun t' ht' hb => ?_, a, s, j, k, mem_zip_right.2 ⟨t, hm, hs⟩, hB, ?_, fun s' hs' => ?_⟩)
        · obtain ⟨s', h, -⟩ := hhi t' ht' hb
          exact ⟨s', h⟩
        · rw [Nat.add_mul, ← Nat.pow_add, Nat.sub_add_cancel hj, ← Nat.add_assoc] at hbad
          exact hbad
        · obtain ⟨t', ht', hs'⟩ := mem_rightsO.1 hs'
          obtain ⟨s'', h, h'⟩ := hhi t' ht' (hnb t' s' (Or.inr hs'))
          rw [hs'] at h
          cases h
          exact h'

end

/-! ## Nodes without children of a pruned trie -/

/-- `P` holds on all of block `k` of size `2^j`. -/
def FullAt (P : Nat → Bool) (j k : Nat) : Prop := ∀ y, y / 2 ^ j = k → P y = true

theorem full_allHas {b : Nat} : (d : Nat) → (T : Tr d) → full b d T = true → ∀ x < 2 ^ (d + b), has b d T x = true
  | 0, T, h, x, hx => by
    rw [full, decide_eq_true_iff] at h
    rw [has, h]
    exact testBit_full (by simpa using hx)
  | d + 1, T, h, x, hx => by
    have hp := pow_split d b
    rw [full, Bool.and_eq_true, Option.any_eq_true, Option.any_eq_true] at h
    obtain ⟨⟨s, hs, h1⟩, s', hs', h2⟩ := h
    by_cases hlt : x < 2 ^ (d + b)
    · simp only [has]
      rw [if_pos hlt, hs]
      exact full_allHas d s h1 x hlt
    · obtain ⟨z, rfl⟩ := Nat.exists_eq_add_of_le (Nat.le_of_not_lt hlt)
      rw [has_hi, hs']
      exact full_allHas d s' h2 z (by omega)

theorem bareAt_prune {b : Nat} : (d : Nat) → (T : Tr d) → NE b d T → ∀ j k,
    (BareAt b d (prune b d T) j k ↔ b < j ∧ j ≤ d + b ∧ k < 2 ^ (d + b - j) ∧ FullAt (has b d T) j k ∧
      (j < d + b → ¬ FullAt (has b d T) (j + 1) (k / 2)))
  | 0, T, _, j, k => by
    constructor
    · exact False.elim
    · rintro ⟨h1, h2, -⟩; exact (show False by omega)
  | d + 1, T, hne, j, k => by
    have hp := pow_split d b
    cases hf : full b (d + 1) T with
    | true =>
      rw [prune_full hf]
      have hall := full_allHas (d + 1) T hf
      constructor
      · rintro (⟨-, rfl, rfl⟩ | ⟨s, h, -⟩ | ⟨s, k', h, -⟩)
        · refine ⟨by omega, Nat.le_refl _, Nat.two_pow_pos _, fun y hy => hall y ?_, fun h => by omega⟩
          exact (Nat.div_eq_zero_iff_lt (Nat.two_pow_pos _)).1 hy
        · simp at h
        · simp at h
      · rintro ⟨h1, h2, h3, h4, h5⟩
        left
        have hj : j = d + 1 + b := by
          by_contra hc
          refine h5 (by omega) fun y hy => hall y ?_
          refine inBlock_lt (j := j + 1) (by omega) (?_ : k / 2 < _) hy
          rw [show d + 1 + b - j = (d + 1 + b - (j + 1)) + 1 by omega, Nat.pow_succ] at h3
          omega
        subst hj
        refine ⟨rfl, rfl, ?_⟩
        simpa using h3
    | false =>
      rw [prune_not_full hf]
      have hnall : ¬ ∀ x < 2 ^ (d + 1 + b), has b (d + 1) T x = true := by
        intro h
        rw [full_of_has (d + 1) T hne h] at hf
        cases hf
      have hlo : ∀ x, x < 2 ^ (d + b) → has b (d + 1) T x = T.l.any fun t => has b d t x := by
        intro x hx; simp only [has]; rw [if_pos hx]
      have hnb := hne.1
      constructor
      · rintro (⟨h, -, -⟩ | ⟨s, h, hB⟩ | ⟨s, k', h, rfl, hB⟩)
        · exfalso
          revert h hnb
          simp only [Tr.bare, Tr.l_mk, Tr.r_mk]
          cases T.l <;> cases T.r <;> simp
        · rw [Tr.l_mk, Option.map_eq_some_iff] at h
          obtain ⟨s0, hs0, rfl⟩ := h
          obtain ⟨h1, h2, h3, h4, h5⟩ := (bareAt_prune d s0 (hne.2.1 s0 hs0) j k).1 hB
          refine ⟨h1, by omega, h3.trans_le (Nat.pow_le_pow_right (by omega) (by omega)), fun y hy => ?_, fun _ hF => ?_⟩
          · rw [hlo y (inBlock_lt h2 h3 hy), hs0]; exact h4 y hy
          · by_cases hj : j < d + b
            · refine h5 hj fun y hy => ?_
              have hy' : y < 2 ^ (d + b) := by
                refine inBlock_lt (j := j + 1) (by omega) (?_ : k / 2 < _) hy
                rw [show d + b - j = (d + b - (j + 1)) + 1 by omega, Nat.pow_succ] at h3
                omega
              have := hF y hy
              rw [hlo y hy', hs0] at this
              exact this
            · have hj' : j = d + b := by omega
              subst hj'
              have hk : k = 0 := by simpa using h3
              subst hk
              refine hnall fun x hx => hF x ?_
              rw [show d + b + 1 = d + 1 + b by omega]
              exact Nat.div_eq_of_lt hx
        · rw [Tr.r_mk, Option.map_eq_some_iff] at h
          obtain ⟨s0, hs0, rfl⟩ := h
          obtain ⟨h1, h2, h3, h4, h5⟩ := (bareAt_prune d s0 (hne.2.2 s0 hs0) j k').1 hB
          refine ⟨h1, by omega, ?_, fun y hy => ?_, fun _ hF => ?_⟩
          · rw [show d + 1 + b - j = (d + b - j) + 1 by omega, Nat.pow_succ]; omega
          · have hge : 2 ^ (d + b) ≤ y := by
              by_contra hc
              have h1 : y / 2 ^ j < 2 ^ (d + b - j) := by
                rw [Nat.div_lt_iff_lt_mul (Nat.two_pow_pos j), ← Nat.pow_add, Nat.sub_add_cancel h2]
                omega
              omega
            obtain ⟨z, rfl⟩ := Nat.exists_eq_add_of_le hge
            rw [inBlock_shift h2] at hy
            rw [has_hi, hs0]; exact h4 z (by omega)
          · by_cases hj : j < d + b
            · refine h5 hj fun y hy => ?_
              have := hF (2 ^ (d + b) + y) (by
                rw [inBlock_shift (by omega), hy, show d + b - j = (d + b - (j + 1)) + 1 by omega, Nat.pow_succ]; omega)
              rw [has_hi, hs0] at this
              exact this
            · have hj' : j = d + b := by omega
              subst hj'
              have hk : k' = 0 := by simpa using h3
              subst hk
              refine hnall fun x hx => hF x ?_
              rw [show d + b + 1 = d + 1 + b by omega, Nat.div_eq_of_lt hx]
              simp
      · rintro ⟨h1, h2, h3, h4, h5⟩
        right
        have hj : j ≤ d + b := by
          by_contra hc
          have : j = d + 1 + b := by omega
          subst this
          have hk : k = 0 := by simpa using h3
          subst hk
          exact hnall fun x hx => h4 x (Nat.div_eq_of_lt hx)
        by_cases hk : k < 2 ^ (d + b - j)
        · left
          have hs : ∃ s0, T.l = some s0 := by
            have h0 := h4 (k * 2 ^ j) (Nat.mul_div_cancel _ (Nat.two_pow_pos j))
            rw [hlo _ (inBlock_lt hj hk (Nat.mul_div_cancel _ (Nat.two_pow_pos j))), Option.any_eq_true] at h0
            obtain ⟨s0, h0, -⟩ := h0
            exact ⟨s0, h0⟩
          obtain ⟨s0, hs0⟩ := hs
          refine ⟨prune b d s0, by rw [Tr.l_mk, hs0]; rfl, (bareAt_prune d s0 (hne.2.1 s0 hs0) j k).2 ⟨h1, hj, hk, fun y hy => ?_, fun hj' hF => ?_⟩⟩
          · have := h4 y hy
            rw [hlo y (inBlock_lt hj hk hy), hs0] at this
            exact this
          · refine h5 (by omega) fun y hy => ?_
            have hy' : y < 2 ^ (d + b) := by
              refine inBlock_lt (j := j + 1) (by omega) (?_ : k / 2 < _) hy
              rw [show d + b - j = (d + b - (j + 1)) + 1 by omega, Nat.pow_succ] at hk
              omega
            rw [hlo y hy', hs0]
            exact hF y hy
        · right
          obtain ⟨k', rfl⟩ := Nat.exists_eq_add_of_le (Nat.le_of_not_lt hk)
          have hk' : k' < 2 ^ (d + b - j) := by
            rw [show d + 1 + b - j = (d + b - j) + 1 by omega, Nat.pow_succ] at h3; omega
          have hs : ∃ s0, T.r = some s0 := by
            have h0 := h4 (2 ^ (d + b) + k' * 2 ^ j) (by rw [inBlock_shift hj, Nat.mul_div_cancel _ (Nat.two_pow_pos j)])
            rw [has_hi, Option.any_eq_true] at h0
            obtain ⟨s0, h0, -⟩ := h0
            exact ⟨s0, h0⟩
          obtain ⟨s0, hs0⟩ := hs
          refine ⟨prune b d s0, k', by rw [Tr.r_mk, hs0]; rfl, rfl,
            (bareAt_prune d s0 (hne.2.2 s0 hs0) j k').2 ⟨h1, hj, hk', fun y hy => ?_, fun hj' hF => ?_⟩⟩
          · have := h4 (2 ^ (d + b) + y) (by rw [inBlock_shift hj, hy])
            rw [has_hi, hs0] at this
            exact this
          · refine h5 (by omega) fun y hy => ?_
            have h2k : (2 ^ (d + b - j) + k') / 2 = 2 ^ (d + b - (j + 1)) + k' / 2 := by
              rw [show d + b - j = (d + b - (j + 1)) + 1 by omega, Nat.pow_succ]; omega
            rw [h2k] at hy
            have hge : 2 ^ (d + b) ≤ y := by
              by_contra hc
              have h1 : y / 2 ^ (j + 1) < 2 ^ (d + b - (j + 1)) := by
                rw [Nat.div_lt_iff_lt_mul (Nat.two_pow_pos _), ← Nat.pow_add, Nat.sub_add_cancel (by omega)]
                omega
              omega
            obtain ⟨z, rfl⟩ := Nat.exists_eq_add_of_le hge
            rw [inBlock_shift (by omega)] at hy
            rw [has_hi, hs0]
            exact hF z (by omega)

end CBT
