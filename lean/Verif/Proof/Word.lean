import Verif.Proof.Decode

/-!
# Words of the fast trie
-/

namespace CBT

theorem exists_odd {w : Nat} (h : 0 < w) : ∃ r q, w = 2 ^ r * (2 * q + 1) := by
  induction w using Nat.strongRecOn with
  | ind w ih =>
    rcases Nat.even_or_odd' w with ⟨c, hc | hc⟩
    · obtain ⟨r, q, hq⟩ := ih c (by omega) (by omega)
      exact ⟨r + 1, q, by rw [hc, hq, Nat.pow_succ]; ring⟩
    · exact ⟨0, c, by simp [hc]⟩

theorem ctz_odd {f r q : Nat} (h : r < f) : ctz f (2 ^ r * (2 * q + 1)) = r := by
  induction f generalizing r with
  | zero => omega
  | succ f ih =>
    cases r with
    | zero => simp [ctz]
    | succ r =>
      have h1 : 2 ^ (r + 1) * (2 * q + 1) = 2 * (2 ^ r * (2 * q + 1)) := by rw [Nat.pow_succ]; ring
      rw [ctz, h1, Nat.mul_mod_right, Nat.mul_div_cancel_left _ (by omega)]
      simp [ih (r := r) (by omega)]

theorem odd_and_neg {K q : Nat} (h : 2 * q + 1 < 2 ^ K) : (2 * q + 1) &&& (2 ^ K - (2 * q + 1)) = 1 := by
  apply Nat.eq_of_testBit_eq
  intro i
  rw [Nat.testBit_and, Nat.testBit_two_pow_sub_succ (by omega)]
  cases i with
  | zero =>
    have : 0 < K := by
      rcases Nat.eq_zero_or_pos K with rfl | h'
      · omega
      · exact h'
    simp [this]
  | succ i =>
    rw [Nat.testBit_succ, Nat.testBit_succ, Nat.testBit_succ]
    rw [show (2 * q + 1) / 2 = q by omega, show 2 * q / 2 = q by omega]
    cases q.testBit i <;> simp

theorem lowbit {N r q : Nat} (h : 2 ^ r * (2 * q + 1) < 2 ^ N) :
    (2 ^ r * (2 * q + 1)) &&& ((2 ^ N - 1 - 2 ^ r * (2 * q + 1) + 1) % 2 ^ N) = 2 ^ r := by
  have hp : 0 < 2 ^ r * (2 * q + 1) := Nat.mul_pos (Nat.two_pow_pos r) (by omega)
  rw [show 2 ^ N - 1 - 2 ^ r * (2 * q + 1) + 1 = 2 ^ N - 2 ^ r * (2 * q + 1) by omega, Nat.mod_eq_of_lt (by omega)]
  have hr : r < N := by
    by_contra hc
    have h1 : 2 ^ N ≤ 2 ^ r := Nat.pow_le_pow_right (by omega) (by omega)
    have h2 : 2 ^ r ≤ 2 ^ r * (2 * q + 1) := Nat.le_mul_of_pos_right _ (by omega)
    omega
  obtain ⟨K, rfl⟩ := Nat.exists_eq_add_of_le (Nat.le_of_lt hr)
  rw [Nat.pow_add] at h ⊢
  have hK : 2 * q + 1 < 2 ^ K := Nat.lt_of_mul_lt_mul_left h
  rw [← Nat.mul_sub, Nat.mul_comm, Nat.mul_comm (2 ^ r) (2 ^ K - _), ← Nat.shiftLeft_eq, ← Nat.shiftLeft_eq,
    ← Nat.shiftLeft_and_distrib, odd_and_neg hK, Nat.shiftLeft_eq, Nat.one_mul]

/-- The set bits of a word, in increasing order. -/
def bitsUp (N w : Nat) : List Nat := (List.range N).filter w.testBit

theorem bitsUp_step {N r q : Nat} (h : 2 ^ r * (2 * q + 1) < 2 ^ N) :
    bitsUp N (2 ^ r * (2 * q + 1)) = r :: bitsUp N ((2 ^ r * (2 * q + 1)) ^^^ 2 ^ r) ∧
    (∀ i ≤ r, ((2 ^ r * (2 * q + 1)) ^^^ 2 ^ r).testBit i = false) ∧
    (2 ^ r * (2 * q + 1)) ^^^ 2 ^ r < 2 ^ N ∧ r < N := by
  have hr : r < N := by
    by_contra hc
    have h1 : 2 ^ N ≤ 2 ^ r := Nat.pow_le_pow_right (by omega) (by omega)
    have h2 : 2 ^ r ≤ 2 ^ r * (2 * q + 1) := Nat.le_mul_of_pos_right _ (by omega)
    omega
  have hlow : ∀ i < r, (2 ^ r * (2 * q + 1)).testBit i = false := by
    intro i hi
    rw [Nat.testBit_two_pow_mul]; simp; omega
  have hbit : (2 ^ r * (2 * q + 1)).testBit r = true := by
    rw [Nat.testBit_two_pow_mul]; simp
  have hx : ∀ i, ((2 ^ r * (2 * q + 1)) ^^^ 2 ^ r).testBit i =
      if i ≤ r then false else (2 ^ r * (2 * q + 1)).testBit i := by
    intro i
    rw [Nat.testBit_xor, Nat.testBit_two_pow]
    rcases Nat.lt_trichotomy i r with hi | rfl | hi
    · rw [hlow i hi, if_pos (by omega)]; simp; omega
    · rw [hbit]; simp
    · rw [if_neg (by omega)]
      have : ¬ r = i := by omega
      simp [this]
  refine ⟨?_, ?_, ?_, hr⟩
  · apply sorted_ext
    · exact List.pairwise_lt_range.filter _
    · rw [List.pairwise_cons]
      refine ⟨?_, List.pairwise_lt_range.filter _⟩
      intro a ha
      have := (List.mem_filter.1 ha).2
      rw [hx] at this
      by_contra hc
      rw [if_pos (by omega)] at this
      simp at this
    · intro x
      simp only [bitsUp, List.mem_filter, List.mem_range, List.mem_cons, hx]
      constructor
      · rintro ⟨h1, h2⟩
        rcases Nat.lt_trichotomy x r with hi | rfl | hi
        · rw [hlow x hi] at h2; simp at h2
        · exact Or.inl rfl
        · right; rw [if_neg (by omega)]; exact ⟨h1, h2⟩
      · rintro (rfl | ⟨h1, h2⟩)
        · exact ⟨hr, hbit⟩
        · split at h2
          · simp at h2
          · exact ⟨h1, h2⟩
  · intro i hi; rw [hx, if_pos hi]
  · apply Nat.xor_lt_two_pow h
    exact Nat.pow_lt_pow_right (by omega) hr

theorem emitWord_aux {lg p : Nat} (hlg : lg ≤ 6) : ∀ (f k w : Nat) (out : List Nat), w < 2 ^ 2 ^ lg → (∀ i < k, w.testBit i = false) →
    2 ^ lg ≤ f + k → emitWord lg p f w out = .ok (out ++ (bitsUp (2 ^ lg) w).map (· + p)) := by
  have h64 : 2 ^ lg ≤ 64 := Nat.pow_le_pow_right (n := 2) (by omega) hlg
  intro f
  induction f with
  | zero =>
    intro k w out hw hk hf
    have h0 : w = 0 := by
      apply Nat.eq_of_testBit_eq
      intro i
      rw [Nat.zero_testBit]
      by_cases hi : i < k
      · exact hk i hi
      · exact Nat.testBit_lt_two_pow (Nat.lt_of_lt_of_le hw (Nat.pow_le_pow_right (by omega) (by omega)))
    subst h0
    simp [emitWord, bitsUp]
  | succ f ih =>
    intro k w out hw hk hf
    by_cases h0 : w = 0
    · subst h0; simp [emitWord, bitsUp]
    · obtain ⟨r, q, rfl⟩ := exists_odd (Nat.pos_of_ne_zero h0)
      obtain ⟨e1, e2, e3, e4⟩ := bitsUp_step hw
      have hkr : k ≤ r := by
        by_contra hc
        have := hk r (by omega)
        rw [Nat.testBit_two_pow_mul] at this
        simp at this
      rw [emitWord, if_neg h0]
      simp only [lowbit hw, ctz_odd (f := 64) (r := r) (q := q) (by omega)]
      rw [ih (r + 1) _ _ e3 (fun i hi => e2 i (by omega)) (by omega), e1]
      simp

/-- The loop over the set bits of a word appends the members of the word's block. -/
theorem emitWord_ok {lg p w : Nat} (hlg : lg ≤ 6) (out : List Nat) (hw : w < 2 ^ 2 ^ lg) :
    emitWord lg p (2 ^ lg) w out = .ok (out ++ enum lg w.testBit p) := by
  rw [emitWord_aux hlg (2 ^ lg) 0 w out hw (fun i hi => by omega) (by omega)]
  rw [enum, bitsUp]
  congr 3
  funext x; omega

/-- Leaf relation of the fast trie. -/
def leafW (lg : Nat) (n : FNav) (w id _level : Nat) : Prop :=
  (0 < w ∧ w < 2 ^ 2 ^ lg) ∧ n.getWord id = .ok w

theorem fastRecDecode_step {lg hu : Nat} {n : FNav} {rem part id ℓ s : Nat} {out : List Nat} {a b : Bool}
    (hn : n.getNode id ℓ = .ok (node2 a b)) (hs : shl1 (hu - ℓ - 1) = .ok s) :
    fastRecDecode lg hu n (rem + 1) out part id ℓ = (do
      let out ← if a then (do
                  let c ← n.getLeftChild id ℓ
                  fastRecDecode lg hu n rem out part c (ℓ + 1))
                else pure out
      if b then (do
        let c ← n.getRightChild id ℓ
        fastRecDecode lg hu n rem out (part ||| s) c (ℓ + 1))
      else pure out) := by
  rw [fastRecDecode, hn, hs]
  cases a <;> cases b <;> simp [node2]

theorem fastRunsRecDecode_step {lg hu : Nat} {n : FNav} {rem part id ℓ s : Nat} {out : List Nat} {a b : Bool}
    (hn : n.getNode id ℓ = .ok (node2 a b)) (hab : (a || b) = true) (hs : shl1 (hu - ℓ - 1) = .ok s) :
    fastRunsRecDecode lg hu n (rem + 1) out part id ℓ = (do
      let out ← if a then (do
                  let c ← n.getLeftChild id ℓ
                  fastRunsRecDecode lg hu n rem out part c (ℓ + 1))
                else pure out
      if b then (do
        let c ← n.getRightChild id ℓ
        fastRunsRecDecode lg hu n rem out (part ||| s) c (ℓ + 1))
      else pure out) := by
  rw [fastRunsRecDecode, hn, hs]
  cases a <;> cases b <;> simp [node2] at hab ⊢

theorem enum_zeroW (lg : Nat) (t : Tr 0) (p : Nat) : enum (0 + lg) (has lg 0 t) p = enum lg (Nat.testBit t.word) p := by
  rw [Nat.zero_add]; rfl

theorem enum_zeroWR (lg : Nat) (t : Tr 0) (p : Nat) : enum (0 + lg) (hasR lg 0 t) p = enum lg (Nat.testBit t.word) p := by
  rw [Nat.zero_add]; rfl

theorem fastRecDecode_rep {lg hu : Nat} {n : FNav} (hlg : lg ≤ 6) (hh : hu ≤ 64) :
    ∀ (d ℓ : Nat) (t : Tr d) (id part : Nat) (out : List Nat),
    Rep n.toNav (leafW lg n) d ℓ t id → hu = ℓ + d + lg → 2 ^ (d + lg) ∣ part →
    fastRecDecode lg hu n d out part id ℓ = .ok (out ++ enum (d + lg) (has lg d t) part) := by
  intro d
  induction d with
  | zero =>
    intro ℓ t id part out hr hℓ hd
    obtain ⟨hw, hn⟩ := hr
    rw [fastRecDecode, hn, enum_zeroW]
    exact emitWord_ok hlg out hw.2
  | succ d ih =>
    intro ℓ t id part out hr hℓ hd
    rw [show d + 1 + lg = d + lg + 1 by omega] at hd
    obtain ⟨hn, hl, hr⟩ := hr
    have hs : shl1 (hu - ℓ - 1) = .ok (2 ^ (d + lg)) := by
      rw [hℓ, show ℓ + (d + 1) + lg - ℓ - 1 = d + lg by omega]; exact shl1_ok (by omega)
    have ho : part ||| 2 ^ (d + lg) = part + 2 ^ (d + lg) := or_two_pow hd
    rw [enum_has_node, fastRecDecode_step hn hs, ho]
    cases h1 : t.l with
    | none =>
      cases h2 : t.r with
      | none => simp
      | some s' =>
        obtain ⟨c', hc', hR'⟩ := hr s' h2
        simp [hc', ih (ℓ + 1) s' c' (part + 2 ^ (d + lg)) out hR' (by omega) (dvd_hi hd)]
    | some s =>
      obtain ⟨c, hc, hR, _⟩ := hl s h1
      have e1 := ih (ℓ + 1) s c part out hR (by omega) (dvd_lo hd)
      cases h2 : t.r with
      | none => simp [hc, e1]
      | some s' =>
        obtain ⟨c', hc', hR'⟩ := hr s' h2
        simp [hc, hc', e1, ih (ℓ + 1) s' c' (part + 2 ^ (d + lg)) _ hR' (by omega) (dvd_hi hd)]

theorem fastRunsRecDecode_rep {lg hu : Nat} {n : FNav} (hlg : lg ≤ 6) (hh : hu < 64) :
    ∀ (d ℓ : Nat) (t : Tr d) (id part : Nat) (out : List Nat),
    Rep n.toNav (leafW lg n) d ℓ t id → hu = ℓ + d + lg → 2 ^ (d + lg) ∣ part →
    fastRunsRecDecode lg hu n d out part id ℓ = .ok (out ++ enum (d + lg) (hasR lg d t) part) := by
  intro d
  induction d with
  | zero =>
    intro ℓ t id part out hr hℓ hd
    obtain ⟨hw, hn⟩ := hr
    rw [fastRunsRecDecode, hn, enum_zeroWR]
    exact emitWord_ok hlg out hw.2
  | succ d ih =>
    intro ℓ t id part out hr hℓ hd
    obtain ⟨hn, hl, hr⟩ := hr
    cases hb : t.bare with
    | true =>
      obtain ⟨e1, e2⟩ := Tr.bare_eq hb
      rw [e1, e2] at hn
      rw [fastRunsRecDecode, hn, hℓ]
      simp only [R_bind_ok, Option.isSome, node2_ff, if_true, show ℓ + (d + 1) + lg - ℓ = d + 1 + lg by omega]
      exact fillRange_ok out (by omega) hd (fun x _ => hasR_bare hb)
    | false =>
    rw [show d + 1 + lg = d + lg + 1 by omega] at hd
    have hs : shl1 (hu - ℓ - 1) = .ok (2 ^ (d + lg)) := by
      rw [hℓ, show ℓ + (d + 1) + lg - ℓ - 1 = d + lg by omega]; exact shl1_ok (by omega)
    have ho : part ||| 2 ^ (d + lg) = part + 2 ^ (d + lg) := or_two_pow hd
    have hab : (t.l.isSome || t.r.isSome) = true := by
      revert hb; unfold Tr.bare; cases t.l <;> cases t.r <;> simp
    rw [enum_hasR_node _ _ hb, fastRunsRecDecode_step hn hab hs, ho]
    cases h1 : t.l with
    | none =>
      cases h2 : t.r with
      | none => simp
      | some s' =>
        obtain ⟨c', hc', hR'⟩ := hr s' h2
        simp [hc', ih (ℓ + 1) s' c' (part + 2 ^ (d + lg)) out hR' (by omega) (dvd_hi hd)]
    | some s =>
      obtain ⟨c, hc, hR, _⟩ := hl s h1
      have e1 := ih (ℓ + 1) s c part out hR (by omega) (dvd_lo hd)
      cases h2 : t.r with
      | none => simp [hc, e1]
      | some s' =>
        obtain ⟨c', hc', hR'⟩ := hr s' h2
        simp [hc, hc', e1, ih (ℓ + 1) s' c' (part + 2 ^ (d + lg)) _ hR' (by omega) (dvd_hi hd)]

end CBT
