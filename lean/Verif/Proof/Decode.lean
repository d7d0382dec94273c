import Verif.Proof.Rep

/-!
# Decoding a represented trie
-/

namespace CBT

@[simp] theorem R_bind_ok {α β : Type} (a : α) (f : α → R β) : (Except.ok a >>= f : R β) = f a := rfl
@[simp] theorem R_bind_err {α β : Type} (e : UB) (f : α → R β) : (Except.error e >>= f : R β) = .error e := rfl
@[simp] theorem R_pure {α : Type} (a : α) : (pure a : R α) = .ok a := rfl

theorem shl1_ok {k : Nat} (h : k < 64) : shl1 k = .ok (2 ^ k) := by
  simp [shl1, h, Nat.one_shiftLeft]

theorem or_two_pow {k p : Nat} (h : 2 ^ (k + 1) ∣ p) : p ||| 2 ^ k = p + 2 ^ k := by
  obtain ⟨q, rfl⟩ := h
  rw [← Nat.two_pow_add_eq_or_of_lt]
  exact Nat.pow_lt_pow_right (by omega) (by omega)

theorem or_two_pow_sub {k p : Nat} (h : 2 ^ k ∣ p) : p ||| (2 ^ k - 1) = p + (2 ^ k - 1) := by
  obtain ⟨q, rfl⟩ := h
  rw [← Nat.two_pow_add_eq_or_of_lt]
  have := Nat.two_pow_pos k
  omega

theorem dvd_lo {k p : Nat} (h : 2 ^ (k + 1) ∣ p) : 2 ^ k ∣ p :=
  (Nat.pow_dvd_pow 2 (Nat.le_succ k)).trans h

theorem dvd_hi {k p : Nat} (h : 2 ^ (k + 1) ∣ p) : 2 ^ k ∣ p + 2 ^ k :=
  (Nat.dvd_add_right (dvd_lo h)).2 (dvd_refl _)

theorem fillRange_ok {p k : Nat} (out : List Nat) (hk : k < 64) (h : 2 ^ k ∣ p) {P : Nat → Bool}
    (hP : ∀ x < 2 ^ k, P x = true) : fillRange p k out = .ok (out ++ enum k P p) := by
  have := Nat.two_pow_pos k
  rw [fillRange, shl1_ok hk]
  simp only [R_bind_ok, or_two_pow_sub h]
  rw [enum_true hP, show p + (2 ^ k - 1) + 1 - p = 2 ^ k by omega]

theorem node2_tt : node2 true true = 3 := rfl
theorem node2_tf : node2 true false = 2 := rfl
theorem node2_ft : node2 false true = 1 := rfl
theorem node2_ff : node2 false false = 0 := rfl

/-- The members below a node: those below the left child, then those below the right child. -/
theorem enum_has_node {b d : Nat} (t : Tr (d + 1)) (p : Nat) :
    enum (d + 1 + b) (has b (d + 1) t) p =
      (match t.l with | none => [] | some s => enum (d + b) (has b d s) p) ++
      (match t.r with | none => [] | some s => enum (d + b) (has b d s) (p + 2 ^ (d + b))) := by
  rw [show d + 1 + b = d + b + 1 by omega, enum_succ]
  congr 1
  · rw [enum_congr (Q := fun x => t.l.any fun s => has b d s x) (fun x hx => has_lo hx)]
    cases t.l with
    | none => exact enum_false (fun _ _ => rfl)
    | some s => exact enum_congr (fun _ _ => rfl)
  · rw [enum_congr (Q := fun x => t.r.any fun s => has b d s x) (fun x hx => has_hi)]
    cases t.r with
    | none => exact enum_false (fun _ _ => rfl)
    | some s => exact enum_congr (fun _ _ => rfl)

theorem enum_hasR_node {b d : Nat} (t : Tr (d + 1)) (p : Nat) (hb : t.bare = false) :
    enum (d + 1 + b) (hasR b (d + 1) t) p =
      (match t.l with | none => [] | some s => enum (d + b) (hasR b d s) p) ++
      (match t.r with | none => [] | some s => enum (d + b) (hasR b d s) (p + 2 ^ (d + b))) := by
  rw [show d + 1 + b = d + b + 1 by omega, enum_succ]
  congr 1
  · rw [enum_congr (Q := fun x => t.l.any fun s => hasR b d s x) (fun x hx => hasR_lo hx hb)]
    cases t.l with
    | none => exact enum_false (fun _ _ => rfl)
    | some s => exact enum_congr (fun _ _ => rfl)
  · rw [enum_congr (Q := fun x => t.r.any fun s => hasR b d s x) (fun x hx => hasR_hi hb)]
    cases t.r with
    | none => exact enum_false (fun _ _ => rfl)
    | some s => exact enum_congr (fun _ _ => rfl)

/-- A last-level node of the flat and level-wise tries, seen as a word of two bits. -/
def leafF (n : Nav) (w id level : Nat) : Prop :=
  (0 < w ∧ w < 4) ∧ n.getNode id level = .ok (node2 (w.testBit 0) (w.testBit 1)) ∧
    (∃ c, n.getLeftChild id level = .ok c) ∧ (∃ c, n.getRightChild id level = .ok c)

theorem enum_one (P : Nat → Bool) (p : Nat) :
    enum 1 P p = (if P 0 then [p] else []) ++ (if P 1 then [p + 1] else []) := by
  cases h0 : P 0 <;> cases h1 : P 1 <;> simp [enum, List.range_succ, h0, h1]

theorem enum_word (t : Tr 0) (p : Nat) :
    enum 1 (has 1 0 t) p =
      (if Nat.testBit t.word 0 then [p] else []) ++ (if Nat.testBit t.word 1 then [p + 1] else []) := enum_one _ _

theorem enum_wordR (t : Tr 0) (p : Nat) :
    enum 1 (hasR 1 0 t) p =
      (if Nat.testBit t.word 0 then [p] else []) ++ (if Nat.testBit t.word 1 then [p + 1] else []) := enum_one _ _

theorem recDecode_step {n : Nav} {rem part id ℓ s : Nat} {out : List Nat} {a b : Bool} (hn : n.getNode id ℓ = .ok (node2 a b))
    (hs : shl1 (n.height - ℓ - 1) = .ok s) :
    recDecode n (rem + 1) out part id ℓ = (do
      let out ← if a then (do
                  let c ← n.getLeftChild id ℓ
                  recDecode n rem out part c (ℓ + 1))
                else pure out
      if b then (do
        let c ← n.getRightChild id ℓ
        recDecode n rem out (part ||| s) c (ℓ + 1))
      else pure out) := by
  rw [recDecode, hn, hs]
  cases a <;> cases b <;> simp [node2]

theorem recDecode_rep {n : Nav} (hh : n.height ≤ 64) : ∀ (d ℓ : Nat) (t : Tr d) (id part : Nat) (out : List Nat),
    Rep n (leafF n) d ℓ t id → n.height = ℓ + d + 1 → 2 ^ (d + 1) ∣ part →
    recDecode n (d + 1) out part id ℓ = .ok (out ++ enum (d + 1) (has 1 d t) part) := by
  intro d
  induction d with
  | zero =>
    intro ℓ t id part out hr hℓ hd
    obtain ⟨hw, hn, ⟨c, hc⟩, ⟨c', hc'⟩⟩ := hr
    have hs : shl1 (n.height - ℓ - 1) = .ok 1 := by rw [hℓ]; simp [shl1]
    have ho : part ||| 1 = part + 1 := or_two_pow (k := 0) hd
    rw [show 0 + 1 = 1 from rfl, enum_word, recDecode_step hn hs]
    simp only [hc, hc', R_bind_ok, recDecode, ho]
    cases Nat.testBit t.word 0 <;> cases Nat.testBit t.word 1 <;> simp
  | succ d ih =>
    intro ℓ t id part out hr hℓ hd
    obtain ⟨hn, hl, hr⟩ := hr
    have hs : shl1 (n.height - ℓ - 1) = .ok (2 ^ (d + 1)) := by
      rw [hℓ, show ℓ + (d + 1) + 1 - ℓ - 1 = d + 1 by omega]; exact shl1_ok (by omega)
    have ho : part ||| 2 ^ (d + 1) = part + 2 ^ (d + 1) := or_two_pow hd
    rw [enum_has_node, recDecode_step hn hs, ho]
    cases h1 : t.l with
    | none =>
      cases h2 : t.r with
      | none => simp
      | some s' =>
        obtain ⟨c', hc', hR'⟩ := hr s' h2
        simp [hc', ih (ℓ + 1) s' c' (part + 2 ^ (d + 1)) out hR' (by omega) (dvd_hi hd)]
    | some s =>
      obtain ⟨c, hc, hR, _⟩ := hl s h1
      have e1 := ih (ℓ + 1) s c part out hR (by omega) (dvd_lo hd)
      cases h2 : t.r with
      | none => simp [hc, e1]
      | some s' =>
        obtain ⟨c', hc', hR'⟩ := hr s' h2
        simp [hc, hc', e1, ih (ℓ + 1) s' c' (part + 2 ^ (d + 1)) _ hR' (by omega) (dvd_hi hd)]

/-! ## Runs -/

theorem runsRecDecode_step {n : Nav} {rem part id ℓ s : Nat} {out : List Nat} {a b : Bool}
    (hn : n.getNode id ℓ = .ok (node2 a b)) (hab : (a || b) = true) (hs : shl1 (n.height - ℓ - 1) = .ok s) :
    runsRecDecode n (rem + 1) out part id ℓ = (do
      let out ← if a then (do
                  let c ← n.getLeftChild id ℓ
                  runsRecDecode n rem out part c (ℓ + 1))
                else pure out
      if b then (do
        let c ← n.getRightChild id ℓ
        runsRecDecode n rem out (part ||| s) c (ℓ + 1))
      else pure out) := by
  rw [runsRecDecode, hn, hs]
  cases a <;> cases b <;> simp [node2] at hab ⊢

theorem runsRecDecode_bare {n : Nav} {rem part id ℓ k : Nat} {out : List Nat} {P : Nat → Bool}
    (hn : n.getNode id ℓ = .ok (node2 false false)) (hk : n.height = ℓ + k) (hk' : k < 64) (hd : 2 ^ k ∣ part)
    (hP : ∀ x < 2 ^ k, P x = true) :
    runsRecDecode n (rem + 1) out part id ℓ = .ok (out ++ enum k P part) := by
  rw [runsRecDecode, hn, hk]
  simp only [R_bind_ok, node2_ff, if_true, Nat.add_sub_cancel_left]
  exact fillRange_ok out hk' hd hP

theorem word_bits {w : Nat} (h : 0 < w ∧ w < 4) : (w.testBit 0 || w.testBit 1) = true := by
  obtain ⟨h1, h2⟩ := h
  have : w = 1 ∨ w = 2 ∨ w = 3 := by omega
  rcases this with rfl | rfl | rfl <;> decide

/-- Every node at depth `k` is a last-level node or a node without children. -/
def Stops : (k d : Nat) → Tr d → Prop
  | 0, 0, _ => True
  | 0, _ + 1, t => t.bare = true
  | _ + 1, 0, _ => False
  | k + 1, d + 1, t => (∀ s, t.l = some s → Stops k d s) ∧ (∀ s, t.r = some s → Stops k d s)

theorem Stops.refl : (d : Nat) → (t : Tr d) → Stops d d t
  | 0, _ => trivial
  | d + 1, _ => ⟨fun s _ => Stops.refl d s, fun s _ => Stops.refl d s⟩

theorem runsRecDecode_rep {n : Nav} (hh : n.height < 64) : ∀ (k d ℓ : Nat) (t : Tr d) (id part : Nat) (out : List Nat),
    Rep n (leafF n) d ℓ t id → n.height = ℓ + d + 1 → 2 ^ (d + 1) ∣ part → Stops k d t →
    runsRecDecode n (k + 1) out part id ℓ = .ok (out ++ enum (d + 1) (hasR 1 d t) part) := by
  intro k d
  induction d generalizing k with
  | zero =>
    intro ℓ t id part out hr hℓ hd hst
    obtain ⟨hw, hn, ⟨c, hc⟩, ⟨c', hc'⟩⟩ := hr
    have hs : shl1 (n.height - ℓ - 1) = .ok 1 := by rw [hℓ]; simp [shl1]
    have ho : part ||| 1 = part + 1 := or_two_pow (k := 0) hd
    cases k with
    | succ k => exact hst.elim
    | zero =>
      rw [show 0 + 1 = 1 from rfl, enum_wordR, runsRecDecode_step hn (word_bits hw) hs]
      simp only [hc, hc', R_bind_ok, runsRecDecode, ho]
      cases Nat.testBit t.word 0 <;> cases Nat.testBit t.word 1 <;> simp
  | succ d ih =>
    intro ℓ t id part out hr hℓ hd hst
    obtain ⟨hn, hl, hr⟩ := hr
    cases hb : t.bare with
    | true =>
      obtain ⟨e1, e2⟩ := Tr.bare_eq hb
      rw [e1, e2] at hn
      exact runsRecDecode_bare (k := d + 1 + 1) hn (by omega) (by omega) hd (fun x _ => hasR_bare hb)
    | false =>
    have hs : shl1 (n.height - ℓ - 1) = .ok (2 ^ (d + 1)) := by
      rw [hℓ, show ℓ + (d + 1) + 1 - ℓ - 1 = d + 1 by omega]; exact shl1_ok (by omega)
    have ho : part ||| 2 ^ (d + 1) = part + 2 ^ (d + 1) := or_two_pow hd
    have hab : (t.l.isSome || t.r.isSome) = true := by
      revert hb; unfold Tr.bare; cases t.l <;> cases t.r <;> simp
    rw [enum_hasR_node _ _ hb, runsRecDecode_step hn hab hs, ho]
    cases k with
    | zero => rw [Stops, hb] at hst; simp at hst
    | succ k =>
    obtain ⟨hst1, hst2⟩ := hst
    cases h1 : t.l with
    | none =>
      cases h2 : t.r with
      | none => simp
      | some s' =>
        obtain ⟨c', hc', hR'⟩ := hr s' h2
        simp [hc', ih k (ℓ + 1) s' c' (part + 2 ^ (d + 1)) out hR' (by omega) (dvd_hi hd) (hst2 s' h2)]
    | some s =>
      obtain ⟨c, hc, hR, _⟩ := hl s h1
      have e1 := ih k (ℓ + 1) s c part out hR (by omega) (dvd_lo hd) (hst1 s h1)
      cases h2 : t.r with
      | none => simp [hc, e1]
      | some s' =>
        obtain ⟨c', hc', hR'⟩ := hr s' h2
        simp [hc, hc', e1, ih k (ℓ + 1) s' c' (part + 2 ^ (d + 1)) _ hR' (by omega) (dvd_hi hd) (hst2 s' h2)]

end CBT
