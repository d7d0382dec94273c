import Verif.Proof.FlatCollapse

/-!
# How many blocks a decoder can emit
-/

namespace CBT

/-- Both halves of a decoding step at a node with a child. -/
theorem runsRecDecode_halves {n : Nav} {rem part id ℓ : Nat} {out out' : List Nat} {a b : Bool} (hab : (a || b) = true)
    (hn : n.getNode id ℓ = .ok (node2 a b)) (h : runsRecDecode n (rem + 1) out part id ℓ = .ok out') :
    ∃ o, (a = true → ∃ c, n.getLeftChild id ℓ = .ok c ∧ runsRecDecode n rem out part c (ℓ + 1) = .ok o) ∧ (a = false → o = out) ∧
      (b = true → ∃ c s, shl1 (n.height - ℓ - 1) = .ok s ∧ n.getRightChild id ℓ = .ok c ∧
        runsRecDecode n rem o (part ||| s) c (ℓ + 1) = .ok out') ∧ (b = false → out' = o) := by
  rw [runsRecDecode, hn] at h
  cases a with
  | false =>
    cases b with
    | false => simp at hab
    | true =>
      simp only [R_bind_ok, node2_ft] at h
      simp at h
      obtain ⟨s, hs, h⟩ := bind_ok h
      obtain ⟨c, hc, h⟩ := bind_ok h
      exact ⟨out, by simp, by simp, fun _ => ⟨c, s, hs, hc, h⟩, by simp⟩
  | true =>
    cases b with
    | false =>
      simp only [R_bind_ok, node2_tf] at h
      simp at h
      obtain ⟨c, hc, h⟩ := bind_ok h
      obtain ⟨o, ho, h⟩ := bind_ok h
      have h : o = out' := by simpa using h
      exact ⟨o, fun _ => ⟨c, hc, ho⟩, by simp, by simp, fun _ => h.symm⟩
    | true =>
      simp only [R_bind_ok, node2_tt] at h
      simp at h
      obtain ⟨c, hc, h⟩ := bind_ok h
      obtain ⟨o, ho, h⟩ := bind_ok h
      obtain ⟨s, hs, h⟩ := bind_ok h
      obtain ⟨c', hc', h⟩ := bind_ok h
      exact ⟨o, fun _ => ⟨c, hc, ho⟩, by simp, fun _ => ⟨c', s, hs, hc', h⟩, by simp⟩

theorem fastRunsRecDecode_halves {lg hu : Nat} {n : FNav} {rem part id ℓ : Nat} {out out' : List Nat} {a b : Bool} (hab : (a || b) = true)
    (hn : n.getNode id ℓ = .ok (node2 a b)) (h : fastRunsRecDecode lg hu n (rem + 1) out part id ℓ = .ok out') :
    ∃ o, (a = true → ∃ c, n.getLeftChild id ℓ = .ok c ∧ fastRunsRecDecode lg hu n rem out part c (ℓ + 1) = .ok o) ∧ (a = false → o = out) ∧
      (b = true → ∃ c s, shl1 (hu - ℓ - 1) = .ok s ∧ n.getRightChild id ℓ = .ok c ∧
        fastRunsRecDecode lg hu n rem o (part ||| s) c (ℓ + 1) = .ok out') ∧ (b = false → out' = o) := by
  rw [fastRunsRecDecode, hn] at h
  cases a with
  | false =>
    cases b with
    | false => simp at hab
    | true =>
      simp only [R_bind_ok, node2_ft] at h
      simp at h
      obtain ⟨s, hs, h⟩ := bind_ok h
      obtain ⟨c, hc, h⟩ := bind_ok h
      exact ⟨out, by simp, by simp, fun _ => ⟨c, s, hs, hc, h⟩, by simp⟩
  | true =>
    cases b with
    | false =>
      simp only [R_bind_ok, node2_tf] at h
      simp at h
      obtain ⟨c, hc, h⟩ := bind_ok h
      obtain ⟨o, ho, h⟩ := bind_ok h
      have h : o = out' := by simpa using h
      exact ⟨o, fun _ => ⟨c, hc, ho⟩, by simp, by simp, fun _ => h.symm⟩
    | true =>
      simp only [R_bind_ok, node2_tt] at h
      simp at h
      obtain ⟨c, hc, h⟩ := bind_ok h
      obtain ⟨o, ho, h⟩ := bind_ok h
      obtain ⟨s, hs, h⟩ := bind_ok h
      obtain ⟨c', hc', h⟩ := bind_ok h
      exact ⟨o, fun _ => ⟨c, hc, ho⟩, by simp, fun _ => ⟨c', s, hs, hc', h⟩, by simp⟩

/-- Every node that can be read above level `D` has a child; `cp ℓ i` counts the ones among the first `i` bits of level `ℓ`, and the
child of a one has the number of ones before it, plus `off`, as its number. -/
structure Counted (n : Nav) (D off : Nat) (cp : Nat → Nat → Nat) : Prop where
  node : ∀ id ℓ v, ℓ < D → n.getNode id ℓ = .ok v → ∃ b0 b1, v = node2 b0 b1 ∧ (b0 || b1) = true ∧
    cp ℓ (2 * id + 1) = cp ℓ (2 * id) + b0.toNat ∧ cp ℓ (2 * id + 2) = cp ℓ (2 * id + 1) + b1.toNat ∧
    (b0 = true → ∀ c, n.getLeftChild id ℓ = .ok c → c = cp ℓ (2 * id) + off) ∧
    (b1 = true → ∀ c, n.getRightChild id ℓ = .ok c → c = cp ℓ (2 * id + 1) + off)

/-- The number of leaves, of those numbered `lo` to `lo + m - 1`, before the subtree of node `i`, `r` levels above the leaves. -/
def slot (cp : Nat → Nat → Nat) (off lo m : Nat) : (r ℓ i : Nat) → Nat
  | 0, _, i => min (i - lo) m
  | r + 1, ℓ, i => slot cp off lo m r (ℓ + 1) (cp ℓ (2 * i) + off)

theorem slot_le (cp : Nat → Nat → Nat) (off lo m : Nat) : (r ℓ i : Nat) → slot cp off lo m r ℓ i ≤ m
  | 0, _, _ => Nat.min_le_right _ _
  | r + 1, ℓ, _ => slot_le cp off lo m r (ℓ + 1) _

/-- What is put together from the two children of a node. -/
theorem slot_node {off : Nat} {cp : Nat → Nat → Nat} {lo m r ℓ id : Nat} {k : Nat}
    {b0 b1 : Bool} (e0 : cp ℓ (2 * id + 1) = cp ℓ (2 * id) + b0.toNat) (e1 : cp ℓ (2 * id + 2) = cp ℓ (2 * id + 1) + b1.toNat)
    {B C : List Nat} (hk : k = B.length + C.length)
    (hB : b0 = true → B.length + slot cp off lo m r (ℓ + 1) (cp ℓ (2 * id) + off) ≤ slot cp off lo m r (ℓ + 1) (cp ℓ (2 * id) + off + 1))
    (hB' : b0 = false → B = [])
    (hD : b1 = true → C.length + slot cp off lo m r (ℓ + 1) (cp ℓ (2 * id + 1) + off) ≤
      slot cp off lo m r (ℓ + 1) (cp ℓ (2 * id + 1) + off + 1))
    (hD' : b1 = false → C = []) :
    k + slot cp off lo m (r + 1) ℓ id ≤ slot cp off lo m (r + 1) ℓ (id + 1) := by
  simp only [slot]
  rw [show 2 * (id + 1) = 2 * id + 2 by omega, e1, e0]
  rw [e0] at hD
  cases b0 with
  | false =>
    obtain rfl := hB' rfl
    cases b1 with
    | false =>
      obtain rfl := hD' rfl
      simp at hk
      simp [hk]
    | true =>
      have := hD rfl
      simp at this hk ⊢
      rw [show cp ℓ (2 * id) + 1 + off = cp ℓ (2 * id) + off + 1 by omega]
      omega
  | true =>
    have h1 := hB rfl
    cases b1 with
    | false =>
      obtain rfl := hD' rfl
      simp at hk ⊢
      rw [show cp ℓ (2 * id) + 1 + off = cp ℓ (2 * id) + off + 1 by omega]
      omega
    | true =>
      have h2 := hD rfl
      simp at h2 hk ⊢
      rw [show cp ℓ (2 * id) + 1 + off = cp ℓ (2 * id) + off + 1 by omega] at h2
      rw [show cp ℓ (2 * id) + 1 + 1 + off = cp ℓ (2 * id) + off + 1 + 1 by omega]
      omega

theorem or_one_half (p : Nat) : (p ||| 1) / 2 = p / 2 := by
  have h := Nat.shiftRight_or_distrib (a := p) (b := 1) (i := 1)
  simpa [Nat.shiftRight_eq_div_pow] using h

/-- A successful decoder that sees no node without children emits numbers of at most as many pairs `{2k, 2k+1}` as there are leaves. -/
theorem decode_pairs {n : Nav} {D off lo m : Nat} {cp : Nat → Nat → Nat} (hC : Counted n D off cp) (hh : n.height = D + 1)
    (hleaf : ∀ id v, n.getNode id D = .ok v → ∃ b0 b1, v = node2 b0 b1 ∧ (b0 || b1) = true ∧ lo ≤ id ∧ id < lo + m) :
    ∀ (r ℓ : Nat) (out : List Nat) (part id : Nat) (out' : List Nat), ℓ + r = D →
      runsRecDecode n (r + 1) out part id ℓ = .ok out' →
      ∃ E B : List Nat, out' = out ++ E ∧ (∀ x ∈ E, x / 2 ∈ B) ∧ B.length + slot cp off lo m r ℓ id ≤ slot cp off lo m r ℓ (id + 1) := by
  intro r
  induction r with
  | zero =>
    intro ℓ out part id out' hℓ h
    obtain rfl : ℓ = D := by omega
    have hg : ∃ v, n.getNode id ℓ = .ok v := by
      rw [runsRecDecode] at h
      obtain ⟨v, hv, -⟩ := bind_ok h
      exact ⟨v, hv⟩
    obtain ⟨v, hv⟩ := hg
    obtain ⟨b0, b1, rfl, hb, h1, h2⟩ := hleaf id v hv
    obtain ⟨o, l1, l2, r1, r2⟩ := runsRecDecode_halves hb hv h
    have hl : ∃ E, o = out ++ E ∧ ∀ x ∈ E, x / 2 = part / 2 := by
      cases b0 with
      | false => exact ⟨[], by simpa using l2 rfl, by simp⟩
      | true =>
        obtain ⟨c, -, e⟩ := l1 rfl
        rw [runsRecDecode] at e
        exact ⟨[part], by simpa using e.symm, by simp⟩
    have hr : ∃ E, out' = o ++ E ∧ ∀ x ∈ E, x / 2 = part / 2 := by
      cases b1 with
      | false => exact ⟨[], by simpa using r2 rfl, by simp⟩
      | true =>
        obtain ⟨c, s, hs, -, e⟩ := r1 rfl
        rw [hh, show ℓ + 1 - ℓ - 1 = 0 by omega, shl1_ok (by omega)] at hs
        obtain rfl : 1 = s := by simpa using hs
        rw [runsRecDecode] at e
        exact ⟨[part ||| 1], by simpa using e.symm, by simp [or_one_half]⟩
    obtain ⟨E1, rfl, hE1⟩ := hl
    obtain ⟨E2, rfl, hE2⟩ := hr
    refine ⟨E1 ++ E2, [part / 2], by simp, ?_, ?_⟩
    · intro x hx
      rcases List.mem_append.1 hx with hx | hx
      · simp [hE1 x hx]
      · simp [hE2 x hx]
    · simp only [slot, List.length_singleton]
      omega
  | succ r ih =>
    intro ℓ out part id out' hℓ h
    have hg : ∃ v, n.getNode id ℓ = .ok v := by
      rw [runsRecDecode] at h
      obtain ⟨v, hv, -⟩ := bind_ok h
      exact ⟨v, hv⟩
    obtain ⟨v, hv⟩ := hg
    obtain ⟨b0, b1, rfl, hb, e0, e1, hl, hr⟩ := hC.node id ℓ v (by omega) hv
    obtain ⟨o, l1, l2, r1, r2⟩ := runsRecDecode_halves hb hv h
    have hL : ∃ E B : List Nat, o = out ++ E ∧ (∀ x ∈ E, x / 2 ∈ B) ∧ (b0 = true → B.length + slot cp off lo m r (ℓ + 1) (cp ℓ (2 * id) + off) ≤
        slot cp off lo m r (ℓ + 1) (cp ℓ (2 * id) + off + 1)) ∧ (b0 = false → B = []) := by
      cases b0 with
      | false => exact ⟨[], [], by simpa using l2 rfl, by simp, by simp, by simp⟩
      | true =>
        obtain ⟨c, hc, e⟩ := l1 rfl
        obtain rfl := hl rfl c hc
        obtain ⟨E, B, h1, h2, h3⟩ := ih (ℓ + 1) _ _ _ _ (by omega) e
        exact ⟨E, B, h1, h2, fun _ => h3, by simp⟩
    have hR : ∃ E B : List Nat, out' = o ++ E ∧ (∀ x ∈ E, x / 2 ∈ B) ∧ (b1 = true → B.length + slot cp off lo m r (ℓ + 1) (cp ℓ (2 * id + 1) + off) ≤
        slot cp off lo m r (ℓ + 1) (cp ℓ (2 * id + 1) + off + 1)) ∧ (b1 = false → B = []) := by
      cases b1 with
      | false => exact ⟨[], [], by simpa using r2 rfl, by simp, by simp, by simp⟩
      | true =>
        obtain ⟨c, s, -, hc, e⟩ := r1 rfl
        obtain rfl := hr rfl c hc
        obtain ⟨E, B, h1, h2, h3⟩ := ih (ℓ + 1) _ _ _ _ (by omega) e
        exact ⟨E, B, h1, h2, fun _ => h3, by simp⟩
    obtain ⟨E1, B1, rfl, hE1, hB1, hB1'⟩ := hL
    obtain ⟨E2, B2, rfl, hE2, hB2, hB2'⟩ := hR
    refine ⟨E1 ++ E2, B1 ++ B2, by simp, ?_, slot_node e0 e1 (by simp) hB1 hB1' hB2 hB2'⟩
    intro x hx
    rcases List.mem_append.1 hx with hx | hx
    · exact List.mem_append_left _ (hE1 x hx)
    · exact List.mem_append_right _ (hE2 x hx)

/-- A decoder that stops above the last level emits even numbers only. -/
theorem decode_even {n : Nav} {D off : Nat} {cp : Nat → Nat → Nat} (hC : Counted n D off cp) (hh : n.height = D + 1) :
    ∀ (r ℓ : Nat) (out : List Nat) (part id : Nat) (out' : List Nat), ℓ + r ≤ D → 2 ∣ part →
      runsRecDecode n r out part id ℓ = .ok out' → ∃ E, out' = out ++ E ∧ ∀ x ∈ E, 2 ∣ x := by
  intro r
  induction r with
  | zero =>
    intro ℓ out part id out' _ hp h
    rw [runsRecDecode] at h
    exact ⟨[part], by simpa using h.symm, by simpa using hp⟩
  | succ r ih =>
    intro ℓ out part id out' hℓ hp h
    have hg : ∃ v, n.getNode id ℓ = .ok v := by
      rw [runsRecDecode] at h
      obtain ⟨v, hv, -⟩ := bind_ok h
      exact ⟨v, hv⟩
    obtain ⟨v, hv⟩ := hg
    obtain ⟨b0, b1, rfl, hb, -, -, -, -⟩ := hC.node id ℓ v (by omega) hv
    obtain ⟨o, l1, l2, r1, r2⟩ := runsRecDecode_halves hb hv h
    have hL : ∃ E, o = out ++ E ∧ ∀ x ∈ E, 2 ∣ x := by
      cases b0 with
      | false => exact ⟨[], by simpa using l2 rfl, by simp⟩
      | true =>
        obtain ⟨c, hc, e⟩ := l1 rfl
        exact ih (ℓ + 1) _ _ _ _ (by omega) hp e
    have hR : ∃ E, out' = o ++ E ∧ ∀ x ∈ E, 2 ∣ x := by
      cases b1 with
      | false => exact ⟨[], by simpa using r2 rfl, by simp⟩
      | true =>
        obtain ⟨c, s, hs, hc, e⟩ := r1 rfl
        refine ih (ℓ + 1) _ _ _ _ (by omega) ?_ e
        have h64 : n.height - ℓ - 1 < 64 := by
          unfold shl1 at hs
          split at hs
          · assumption
          · cases hs
        rw [shl1_ok h64] at hs
        obtain rfl : 2 ^ (n.height - ℓ - 1) = s := by simpa using hs
        obtain ⟨j, hj⟩ : ∃ j, n.height - ℓ - 1 = j + 1 := ⟨n.height - ℓ - 2, by omega⟩
        rw [hj, Nat.dvd_iff_mod_eq_zero]
        have h2 : (2 ^ (j + 1)) % 2 = 0 := by rw [Nat.pow_succ]; omega
        have h3 : part % 2 = 0 := by omega
        have := Nat.or_mod_two_pow (a := part) (b := 2 ^ (j + 1)) (n := 1)
        simpa [h2, h3] using this
    obtain ⟨E1, rfl, hE1⟩ := hL
    obtain ⟨E2, rfl, hE2⟩ := hR
    refine ⟨E1 ++ E2, by simp, fun x hx => ?_⟩
    rcases List.mem_append.1 hx with hx | hx
    · exact hE1 x hx
    · exact hE2 x hx

/-- The fast decoder emits numbers of at most as many words as are stored. -/
theorem fast_decode_words {lg hu : Nat} {n : FNav} {D off lo m : Nat} {cp : Nat → Nat → Nat} (hlg : lg ≤ 6) (hC : Counted n.toNav D off cp)
    (hh : hu = D + lg) (hleaf : ∀ id w, n.getWord id = .ok w → w < 2 ^ 2 ^ lg ∧ lo ≤ id ∧ id < lo + m) :
    ∀ (r ℓ : Nat) (out : List Nat) (part id : Nat) (out' : List Nat), ℓ + r = D → 2 ^ (lg + r) ∣ part →
      fastRunsRecDecode lg hu n r out part id ℓ = .ok out' →
      ∃ E B : List Nat, out' = out ++ E ∧ (∀ x ∈ E, x / 2 ^ lg ∈ B) ∧ B.length + slot cp off lo m r ℓ id ≤ slot cp off lo m r ℓ (id + 1) := by
  intro r
  induction r with
  | zero =>
    intro ℓ out part id out' hℓ hp h
    rw [fastRunsRecDecode] at h
    obtain ⟨w, hw, h⟩ := bind_ok h
    obtain ⟨h0, h1, h2⟩ := hleaf id w hw
    rw [emitWord_ok hlg out h0] at h
    refine ⟨enum lg w.testBit part, [part / 2 ^ lg], by simpa using h.symm, ?_, ?_⟩
    · intro x hx
      rw [enum] at hx
      obtain ⟨i, hi, rfl⟩ := List.mem_map.1 hx
      have hi := List.mem_range.1 (List.mem_filter.1 hi).1
      obtain ⟨q, rfl⟩ := hp
      rw [List.mem_singleton, Nat.add_zero]
      have hpos := Nat.two_pow_pos lg
      rw [Nat.mul_add_div hpos, Nat.div_eq_of_lt hi, Nat.mul_div_cancel_left _ hpos]; rfl
    · simp only [slot, List.length_singleton]
      omega
  | succ r ih =>
    intro ℓ out part id out' hℓ hp h
    have hg : ∃ v, n.getNode id ℓ = .ok v := by
      rw [fastRunsRecDecode] at h
      obtain ⟨v, hv, -⟩ := bind_ok h
      exact ⟨v, hv⟩
    obtain ⟨v, hv⟩ := hg
    obtain ⟨b0, b1, rfl, hb, e0, e1, hl, hr⟩ := hC.node id ℓ v (by omega) hv
    obtain ⟨o, l1, l2, r1, r2⟩ := fastRunsRecDecode_halves hb hv h
    have hL : ∃ E B : List Nat, o = out ++ E ∧ (∀ x ∈ E, x / 2 ^ lg ∈ B) ∧ (b0 = true → B.length + slot cp off lo m r (ℓ + 1) (cp ℓ (2 * id) + off) ≤
        slot cp off lo m r (ℓ + 1) (cp ℓ (2 * id) + off + 1)) ∧ (b0 = false → B = []) := by
      cases b0 with
      | false => exact ⟨[], [], by simpa using l2 rfl, by simp, by simp, by simp⟩
      | true =>
        obtain ⟨c, hc, e⟩ := l1 rfl
        obtain rfl := hl rfl c hc
        obtain ⟨E, B, h1, h2, h3⟩ := ih (ℓ + 1) _ _ _ _ (by omega) (dvd_lo hp) e
        exact ⟨E, B, h1, h2, fun _ => h3, by simp⟩
    have hR : ∃ E B : List Nat, out' = o ++ E ∧ (∀ x ∈ E, x / 2 ^ lg ∈ B) ∧ (b1 = true → B.length + slot cp off lo m r (ℓ + 1) (cp ℓ (2 * id + 1) + off) ≤
        slot cp off lo m r (ℓ + 1) (cp ℓ (2 * id + 1) + off + 1)) ∧ (b1 = false → B = []) := by
      cases b1 with
      | false => exact ⟨[], [], by simpa using r2 rfl, by simp, by simp, by simp⟩
      | true =>
        obtain ⟨c, s, hs, hc, e⟩ := r1 rfl
        obtain rfl := hr rfl c hc
        have h64 : hu - ℓ - 1 < 64 := by
          unfold shl1 at hs
          split at hs
          · assumption
          · cases hs
        rw [shl1_ok h64, show hu - ℓ - 1 = lg + r by omega] at hs
        obtain rfl : 2 ^ (lg + r) = s := by simpa using hs
        have hp' : 2 ^ (lg + r + 1) ∣ part := hp
        rw [or_two_pow hp'] at e
        obtain ⟨E, B, h1, h2, h3⟩ := ih (ℓ + 1) _ _ _ _ (by omega) (dvd_hi hp') e
        exact ⟨E, B, h1, h2, fun _ => h3, by simp⟩
    obtain ⟨E1, B1, rfl, hE1, hB1, hB1'⟩ := hL
    obtain ⟨E2, B2, rfl, hE2, hB2, hB2'⟩ := hR
    refine ⟨E1 ++ E2, B1 ++ B2, by simp, ?_, slot_node e0 e1 (by simp) hB1 hB1' hB2 hB2'⟩
    intro x hx
    rcases List.mem_append.1 hx with hx | hx
    · exact List.mem_append_left _ (hE1 x hx)
    · exact List.mem_append_right _ (hE2 x hx)

end CBT
