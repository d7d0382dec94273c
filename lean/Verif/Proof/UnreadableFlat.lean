import Verif.Proof.UnreadableSets
import Verif.SpecUnreadable

/-!
# The nodes a run-encoded flat trie cannot read
-/

namespace CBT

open Spec

/-- `kids` with the start of each block. -/
def kidsP (b : Nat) {d : Nat} (F : List (Tr (d + 1) × Nat)) : List (Tr d × Nat) :=
  F.flatMap fun a => a.1.l.toList.map (fun s => (s, a.2)) ++ a.1.r.toList.map (fun s => (s, a.2 + 2 ^ (d + b)))

theorem kidsP_fst (b : Nat) {d : Nat} : (F : List (Tr (d + 1) × Nat)) → (kidsP b F).map Prod.fst = kids (F.map Prod.fst)
  | [] => rfl
  | a :: F => by
    rw [List.map_cons, kids_cons, ← kidsP_fst b F, kidsP, kidsP, List.flatMap_cons, List.map_append]
    congr 1
    simp [kidsOf, Function.comp_def]

theorem kidsP_cons (b : Nat) {d : Nat} (a : Tr (d + 1) × Nat) (F : List (Tr (d + 1) × Nat)) :
    kidsP b (a :: F) = a.1.l.toList.map (fun s => (s, a.2)) ++ a.1.r.toList.map (fun s => (s, a.2 + 2 ^ (d + b))) ++ kidsP b F := by
  rw [kidsP, kidsP, List.flatMap_cons]

theorem kidsP_append (b : Nat) {d : Nat} (F G : List (Tr (d + 1) × Nat)) : kidsP b (F ++ G) = kidsP b F ++ kidsP b G := by
  simp [kidsP]

theorem mem_kidsP {b d : Nat} {F : List (Tr (d + 1) × Nat)} {s : Tr d} {q : Nat} : (s, q) ∈ kidsP b F ↔
    ∃ t p, (t, p) ∈ F ∧ (t.l = some s ∧ q = p ∨ t.r = some s ∧ q = p + 2 ^ (d + b)) := by
  simp only [kidsP, List.mem_flatMap, List.mem_append, List.mem_map, Option.mem_toList, Prod.mk.injEq]
  constructor
  · rintro ⟨⟨t, p⟩, hm, ⟨s', h, rfl, rfl⟩ | ⟨s', h, rfl, rfl⟩⟩
    · exact ⟨t, _, hm, Or.inl ⟨h, rfl⟩⟩
    · exact ⟨t, p, hm, Or.inr ⟨h, rfl⟩⟩
  · rintro ⟨t, p, hm, ⟨h, rfl⟩ | ⟨h, rfl⟩⟩
    · exact ⟨(t, q), hm, Or.inl ⟨s, h, rfl, rfl⟩⟩
    · exact ⟨(t, p), hm, Or.inr ⟨s, h, rfl, rfl⟩⟩

/-- The blocks do not overlap and come in increasing order. -/
def Apart (b d : Nat) (F : List (Tr d × Nat)) : Prop := F.Pairwise fun a a' => a.2 + 2 ^ (d + b) ≤ a'.2

theorem Apart.kids {b d : Nat} : {F : List (Tr (d + 1) × Nat)} → Apart b (d + 1) F → Apart b d (kidsP b F)
  | [], _ => .nil
  | a :: F, h => by
    have hp := pow_split d b
    have hpos := Nat.two_pow_pos (d + b)
    rw [Apart, List.pairwise_cons] at h
    have ih := Apart.kids h.2
    rw [Apart, kidsP_cons, List.pairwise_append]
    refine ⟨?_, ih, ?_⟩
    · cases a.1.l <;> cases a.1.r <;> simp
    · rintro ⟨s, q⟩ hs ⟨s', q'⟩ hs'
      obtain ⟨t', p', hm, h'⟩ := mem_kidsP.1 hs'
      have := h.1 _ hm
      simp only [List.mem_append, List.mem_map, Option.mem_toList, Prod.mk.injEq] at hs
      rcases hs with ⟨_, _, _, rfl⟩ | ⟨_, _, _, rfl⟩ <;> rcases h' with ⟨_, rfl⟩ | ⟨_, rfl⟩ <;> simp only at this ⊢ <;> omega

open Classical in
/-- The size of the blocks of the last populated level, and their starts. -/
noncomputable def lastLv (b : Nat) : (d : Nat) → List (Tr d × Nat) → Nat × List Nat
  | 0, F => (b, F.map Prod.snd)
  | d + 1, F => if kidsP b F = [] then (d + 1 + b, F.map Prod.snd) else lastLv b d (kidsP b F)

theorem lastLv_le (b : Nat) : (d : Nat) → (F : List (Tr d × Nat)) → (lastLv b d F).1 ≤ d + b
  | 0, F => by simp [lastLv]
  | d + 1, F => by
    rw [lastLv]
    split
    · exact Nat.le_refl _
    · exact (lastLv_le b d _).trans (by omega)

theorem lastLv_length (b : Nat) : (d : Nat) → (F : List (Tr d × Nat)) → leaves d (F.map Prod.fst) = [] →
    2 * (lastLv b d F).2.length ≤ (flatBits d (F.map Prod.fst)).length
  | 0, F, h => by
    have : F = [] := by simpa [leaves] using h
    subst this
    simp [lastLv]
  | d + 1, F, h => by
    rw [lastLv, flatBits, List.length_append, length_bitsOf]
    split
    · simp
    · have := lastLv_length b d (kidsP b F) (by rw [kidsP_fst]; exact h)
      rw [kidsP_fst] at this
      omega

theorem flatBits_nil : (d : Nat) → flatBits d ([] : List (Tr d)) = []
  | 0 => rfl
  | d + 1 => by rw [flatBits]; exact flatBits_nil d

theorem kids_nil_iff {b d : Nat} {F : List (Tr (d + 1) × Nat)} : kidsP b F = [] ↔ kids (F.map Prod.fst) = [] := by
  rw [← kidsP_fst b, List.map_eq_nil_iff]

/-- `levels_cases` with the number of zeros. -/
theorem levels_last (b : Nat) : (d : Nat) → (F : List (Tr d × Nat)) → F ≠ [] → leaves d (F.map Prod.fst) = [] →
    ∃ Ls k, levelsF d (F.map Prod.fst) = Ls ++ [List.replicate (2 * (lastLv b d F).2.length) false] ++ List.replicate k [] ∧
      (∀ B ∈ Ls, B ≠ []) ∧ flatBits d (F.map Prod.fst) = Ls.flatten ++ List.replicate (2 * (lastLv b d F).2.length) false ∧
      (lastLv b d F).2 ≠ []
  | 0, F, h, hl => by
    have : F = [] := by simpa [leaves] using hl
    exact (h this).elim
  | d + 1, F, h, hl => by
    have hne : bitsOf (F.map Prod.fst) ≠ [] := by
      cases F with
      | nil => exact (h rfl).elim
      | cons a f => simp [bitsOf_cons]
    rw [lastLv]
    by_cases hk : kidsP b F = []
    · rw [if_pos hk]
      have hk := kids_nil_iff.1 hk
      have hb := kids_nil_bare hk
      refine ⟨[], d + 1, ?_, by simp, ?_, by simpa using h⟩
      · rw [levelsF, hk, levelsF_nil, bitsOf_bare _ hb]; simp
      · rw [flatBits, hk, flatBits_nil, bitsOf_bare _ hb]; simp
    · rw [if_neg hk]
      obtain ⟨Ls, k, h2, h3, h4, h5⟩ := levels_last b d (kidsP b F) hk (by rw [kidsP_fst]; exact hl)
      rw [kidsP_fst] at h2 h4
      refine ⟨bitsOf (F.map Prod.fst) :: Ls, k, by rw [levelsF, h2]; rfl, ?_, by rw [flatBits, h4]; simp, h5⟩
      intro B hB
      rcases List.mem_cons.1 hB with rfl | hB
      · exact hne
      · exact h3 B hB

/-- What run encoding gives if no leaf is left. -/
theorem flat_encode_collapsed {t : FlatTrie} {d pad : Nat} {T : Tr d} (hh : t.height = d + 1)
    (hr : Rep (t.nav pad) (leafF (t.nav pad)) d 0 T 0) (hne : NE 1 d T) (hl : leaves d [prune 1 d T] = []) :
    ∃ B k, flatBits d [prune 1 d T] = B ++ List.replicate (2 * (lastLv 1 d [(prune 1 d T, 0)]).2.length) false ∧
      t.encodeRuns pad = .ok { t with
        heightWithRuns := k, runsEncoded := true, bTrie := B,
        lastLevel := List.replicate (2 * (lastLv 1 d [(prune 1 d T, 0)]).2.length) false } := by
  obtain ⟨Ls, k, h2, h3, h4, h5⟩ := levels_last 1 d [(prune 1 d T, 0)] (by simp) hl
  have h5' := List.length_pos_iff.2 h5
  refine ⟨Ls.flatten, Ls.length + 1, h4, ?_⟩
  rw [FlatTrie.encodeRuns, hh]
  simp only [Nat.add_eq_zero_iff, one_ne_zero, and_false, if_false, Nat.add_sub_cancel, writeCompress_start hr hne, R_bind_ok]
  obtain ⟨e1, e2, e3⟩ := flat_write (Ls := Ls) (k := k) (B := List.replicate (2 * (lastLv 1 d [(prune 1 d T, 0)]).2.length) false)
    (by rw [Ne, List.replicate_eq_nil_iff]; omega) h3 h2
  simp only [List.map_cons, List.map_nil] at e1 e2 e3
  rw [e1, e2]
  simp only [R_bind_ok]
  rw [e3]
  rfl

/-- `rep_flat` for tries whose last level is readable only in part. -/
theorem repB_flat {n : Nav} {leaf : Nat → Nat → Nat → Prop} {bits : BV} {b B D pad : Nat} {bad : Nat → Nat → Prop}
    (hget : ∀ id ℓ b0 b1, ℓ < D → bits[2 * id]? = some b0 → bits[2 * id + 1]? = some b1 → 2 * id + 1 < B + pad →
      n.getNode id ℓ = .ok (node2 b0 b1))
    (hget' : ∀ id ℓ b0 b1, ℓ < D → bits[2 * id]? = some b0 → bits[2 * id + 1]? = some b1 → B + pad ≤ 2 * id + 1 →
      n.getNode id ℓ = .error .oob)
    (hleft : ∀ id ℓ, ℓ < D → bits[2 * id]? = some true →
      n.getLeftChild id ℓ = .ok ((bits.take (2 * id + 1)).count true))
    (hright : ∀ id ℓ, ℓ < D → bits[2 * id + 1]? = some true →
      n.getRightChild id ℓ = .ok ((bits.take (2 * id + 2)).count true)) :
    ∀ (d ℓ : Nat) (F : List (Tr d × Nat)) (P : BV) (m : Nat), ℓ + d = D → bits = P ++ flatBits d (F.map Prod.fst) →
      P.length = 2 * m → P.count true + 1 = m + F.length → leaves d (F.map Prod.fst) = [] → Apart b d F →
      bits.length = B + 2 * (lastLv b d F).2.length →
      (∀ j x, bad j x ↔ j = (lastLv b d F).1 ∧ x ∈ (lastLv b d F).2.drop (pad / 2)) →
      ∀ j t p, F[j]? = some (t, p) → RepB n bad leaf b d ℓ t (m + j) p := by
  intro d
  induction d with
  | zero =>
    intro ℓ F P m hℓ hb hP _ hl _ _ _ j t p hj
    have : F = [] := by simpa [leaves] using hl
    subst this
    simp at hj
  | succ d ih =>
    intro ℓ F P m hℓ hb hP hc hl hA hB hbad j t p hj
    obtain ⟨F1, F2, hF, hj1⟩ := split_at hj
    have hℓD : ℓ < D := by omega
    generalize hf : F.map Prod.fst = f at hb hl
    generalize hf1 : F1.map Prod.fst = f1
    generalize hf2 : F2.map Prod.fst = f2
    have hff : f = f1 ++ t :: f2 := by rw [← hf, hF, ← hf1, ← hf2]; simp
    have hflen : F.length = f.length := by rw [← hf]; simp
    have hf1len : f1.length = j := by rw [← hf1]; simpa using hj1
    have hkl : (kidsP b F1).length = (kids f1).length := by rw [← hf1, ← kidsP_fst b]; simp
    have hkids : kidsP b F = kidsP b F1 ++ (t.l.toList.map (fun s => (s, p)) ++ t.r.toList.map (fun s => (s, p + 2 ^ (d + b))) ++ kidsP b F2) := by
      rw [hF, kidsP_append, kidsP_cons]
    have hbits : bits = (P ++ bitsOf f1) ++ (t.l.isSome :: t.r.isSome :: (bitsOf f2 ++ flatBits d (kids f))) := by
      rw [hb, flatBits, ← List.append_assoc]
      conv_lhs => rw [hff, bitsOf_append, bitsOf_cons]
      rw [← hff]; simp
    have hlen : (P ++ bitsOf f1).length = 2 * (m + j) := by
      rw [List.length_append, length_bitsOf, hP, hf1len]; omega
    have hfl : f.length = f1.length + 1 + f2.length := by rw [hff]; simp; omega
    have hb0 : bits[2 * (m + j)]? = some t.l.isSome := by
      rw [hbits, ← hlen, List.getElem?_append_right (Nat.le_refl _)]; simp
    have hb1 : bits[2 * (m + j) + 1]? = some t.r.isSome := by
      rw [hbits, ← hlen, List.getElem?_append_right (by omega)]
      simp
    have ht1 : (bits.take (2 * (m + j) + 1)).count true = P.count true + (kids f1).length + t.l.toList.length := by
      rw [hbits, ← hlen, List.take_append]
      rw [List.take_of_length_le (by omega)]
      simp only [Nat.add_sub_cancel_left, List.take_succ_cons, List.take_zero, List.count_append, count_bitsOf]
      cases t.l <;> simp
    have ht2 : (bits.take (2 * (m + j) + 2)).count true =
        P.count true + (kids f1).length + t.l.toList.length + t.r.toList.length := by
      rw [hbits, ← hlen, List.take_append]
      rw [List.take_of_length_le (by omega)]
      simp only [Nat.add_sub_cancel_left, List.take_succ_cons, List.take_zero, List.count_append, count_bitsOf]
      cases t.l <;> cases t.r <;> simp
    have hkf : (kidsP b F).map Prod.fst = kids f := by rw [kidsP_fst, hf]
    by_cases hk : kidsP b F = []
    · rw [lastLv, if_pos hk] at hB hbad
      have hk' : kids f = [] := by rw [← hkf, hk]; rfl
      have hbare := kids_nil_bare hk' t (by rw [hff]; simp)
      obtain ⟨hl0, hr0⟩ := Tr.bare_eq hbare
      have hBm : B = 2 * m := by
        rw [hb, flatBits, hk', flatBits_nil, List.append_nil, List.length_append, length_bitsOf, hP] at hB
        simp only [List.length_map] at hB
        omega
      have hbadp : bad (d + 1 + b) p ↔ pad / 2 ≤ j := by
        rw [hbad]
        simp only
        have hsort : (F.map Prod.snd).Pairwise (· < ·) := by
          rw [List.pairwise_map]
          exact hA.imp fun h => Nat.lt_of_lt_of_le (Nat.lt_add_of_pos_right (Nat.two_pow_pos _)) h
        have hjp : (F.map Prod.snd)[j]? = some p := by rw [List.getElem?_map, hj]; rfl
        have hjl : j < (F.map Prod.snd).length := by
          by_contra hc
          rw [List.getElem?_eq_none (by omega)] at hjp
          simp at hjp
        rw [List.getElem?_eq_getElem hjl, Option.some.injEq] at hjp
        constructor
        · rintro ⟨-, hx⟩
          obtain ⟨i, hi, e⟩ := List.getElem_of_mem hx
          rw [List.getElem_drop] at e
          rw [List.length_drop] at hi
          have := hsort.nodup.getElem_inj_iff.1 (e.trans hjp.symm)
          omega
        · intro hle
          refine ⟨trivial, ?_⟩
          rw [List.mem_iff_getElem]
          refine ⟨j - pad / 2, by rw [List.length_drop]; omega, ?_⟩
          rw [List.getElem_drop]
          simp only [show pad / 2 + (j - pad / 2) = j by omega]
          exact hjp
      refine ⟨fun _ h => ?_, fun h => ?_, fun s hs => (by rw [hl0] at hs; cases hs), fun s hs => (by rw [hr0] at hs; cases hs)⟩
      · exact hget' _ _ _ _ hℓD hb0 hb1 (by have := hbadp.1 h; omega)
      · refine hget _ _ _ _ hℓD hb0 hb1 ?_
        have : ¬ pad / 2 ≤ j := fun hc => h ⟨hbare, hbadp.2 hc⟩
        omega
    · rw [lastLv, if_neg hk] at hB hbad
      have hnb : ∀ x, ¬ bad (d + 1 + b) x := by
        intro x hx
        have := ((hbad _ _).1 hx).1
        have h2 := lastLv_le b d (kidsP b F)
        omega
      have hll := lastLv_length b d (kidsP b F) (by rw [hkf]; exact hl)
      rw [hkf] at hll
      have hBge : 2 * (m + F.length) ≤ B := by
        rw [hb, flatBits, List.length_append, List.length_append, length_bitsOf, hP] at hB
        omega
      have ih' := ih (ℓ + 1) (kidsP b F) (P ++ bitsOf f) (m + F.length) (by omega)
        (by rw [hb, flatBits, List.append_assoc, hkf]) (by rw [List.length_append, length_bitsOf, hP]; omega)
        (by
          rw [List.count_append, count_bitsOf]
          have : (kidsP b F).length = (kids f).length := by rw [← hkf]; simp
          omega)
        (by rw [hkf]; exact hl) hA.kids hB hbad
      refine ⟨fun _ h => (hnb _ h).elim, fun _ => hget _ _ _ _ hℓD hb0 hb1 (by omega), ?_, ?_⟩
      · intro s hs
        refine ⟨_, hleft _ _ hℓD (by rw [hb0, hs]; rfl), ?_, ?_⟩
        · have := ih' (kidsP b F1).length s p (by rw [hkids]; simp [hs])
          rw [ht1, hs]
          simpa [show P.count true + (kids f1).length + 1 = m + F.length + (kidsP b F1).length by omega] using this
        · intro s' hs'
          have := ih' ((kidsP b F1).length + 1) s' (p + 2 ^ (d + b)) (by rw [hkids]; simp [hs, hs'])
          rw [ht1, hs]
          simpa [show P.count true + (kids f1).length + 1 + 1 = m + F.length + ((kidsP b F1).length + 1) by omega] using this
      · intro s' hs'
        refine ⟨_, hright _ _ hℓD (by rw [hb1, hs']; rfl), ?_⟩
        rw [ht2, hs']
        cases hl : t.l with
        | none =>
          have := ih' (kidsP b F1).length s' (p + 2 ^ (d + b)) (by rw [hkids]; simp [hl, hs'])
          simpa [show P.count true + (kids f1).length + 1 = m + F.length + (kidsP b F1).length by omega] using this
        | some s =>
          have := ih' ((kidsP b F1).length + 1) s' (p + 2 ^ (d + b)) (by rw [hkids]; simp [hl, hs'])
          simpa [show P.count true + (kids f1).length + 1 + 1 = m + F.length + ((kidsP b F1).length + 1) by omega] using this

theorem bvGet_past {pad : Nat} {v : BV} {i : Nat} (h : v.length + pad ≤ i) : bvGet pad v i = .error .oob := by
  rw [bvGet, List.getElem?_eq_none (by omega)]
  simp; omega

/-- Two bits are read; the second one decides. -/
theorem bvGet_two {pad z id : Nat} {v : BV} {b0 b1 : Bool} (h0 : (v ++ List.replicate z false)[2 * id]? = some b0)
    (h1 : (v ++ List.replicate z false)[2 * id + 1]? = some b1) :
    (do let x ← bvGet pad v (2 * id); let y ← bvGet pad v (2 * id + 1); pure (node2 x y) : R Nat) =
      if 2 * id + 1 < v.length + pad then .ok (node2 b0 b1) else .error .oob := by
  have rd : ∀ i b, (v ++ List.replicate z false)[i]? = some b → i < v.length + pad → bvGet pad v i = .ok b := by
    intro i b h hi
    by_cases hv : i < v.length
    · rw [List.getElem?_append_left hv] at h
      exact bvGet_some h
    · rw [List.getElem?_append_right (by omega), List.getElem?_replicate] at h
      split at h
      · simp only [Option.some.injEq] at h
        subst h
        rw [bvGet, List.getElem?_eq_none (by omega)]
        simp; omega
      · simp at h
  split
  · rename_i h
    rw [rd _ _ h0 (by omega), rd _ _ h1 h]
    rfl
  · rename_i h
    rw [bvGet_past (i := 2 * id + 1) (by omega)]
    by_cases hc : 2 * id < v.length + pad
    · rw [rd _ _ h0 hc]; rfl
    · rw [bvGet_past (i := 2 * id) (by omega)]; rfl

/-- The collapsed flat trie, whatever can be read after its bit vector. -/
theorem flat_repB {t : FlatTrie} {d pad : Nat} {T : Tr d} {bad : Nat → Nat → Prop} (hh : t.height = d + 1)
    (hb : flatBits d [T] = t.bTrie ++ List.replicate (2 * (lastLv 1 d [(T, 0)]).2.length) false) (hl : leaves d [T] = [])
    (hbad : ∀ j x, bad j x ↔ j = (lastLv 1 d [(T, 0)]).1 ∧ x ∈ (lastLv 1 d [(T, 0)]).2.drop (pad / 2)) :
    RepB (t.nav pad) bad (leafF (t.nav pad)) 1 d 0 T 0 0 := by
  have two : ∀ id ℓ b0 b1, ℓ < d → (flatBits d [T])[2 * id]? = some b0 → (flatBits d [T])[2 * id + 1]? = some b1 →
      (t.nav pad).getNode id ℓ = if 2 * id + 1 < t.bTrie.length + pad then .ok (node2 b0 b1) else .error .oob := by
    intro id ℓ b0 b1 hℓ h0 h1
    rw [hb] at h0 h1
    show t.getNode pad id ℓ = _
    rw [FlatTrie.getNode, if_pos (by omega)]
    exact bvGet_two h0 h1
  have hleft : ∀ id ℓ, ℓ < d → (flatBits d [T])[2 * id]? = some true →
      (t.nav pad).getLeftChild id ℓ = .ok (((flatBits d [T]).take (2 * id + 1)).count true) := by
    intro id ℓ hℓ h0
    rw [hb] at h0 ⊢
    show t.getLeftChild id ℓ = _
    rw [FlatTrie.getLeftChild, if_neg (by omega)]
    exact rank1_virtual (virtual_true h0)
  have hright : ∀ id ℓ, ℓ < d → (flatBits d [T])[2 * id + 1]? = some true →
      (t.nav pad).getRightChild id ℓ = .ok (((flatBits d [T]).take (2 * id + 2)).count true) := by
    intro id ℓ hℓ h0
    rw [hb] at h0 ⊢
    show t.getRightChild id ℓ = _
    rw [FlatTrie.getRightChild, if_neg (by omega)]
    exact rank1_virtual (virtual_true h0)
  refine repB_flat (B := t.bTrie.length) (pad := pad) (fun id ℓ b0 b1 hℓ h0 h1 h => ?_) (fun id ℓ b0 b1 hℓ h0 h1 h => ?_) hleft hright
    d 0 [(T, 0)] [] 0 (by omega) (by simp) rfl rfl hl (by simp [Apart]) ?_ hbad 0 T 0 rfl
  · rw [two id ℓ b0 b1 hℓ h0 h1, if_pos h]
  · rw [two id ℓ b0 b1 hℓ h0 h1, if_neg (by omega)]
  · rw [hb]; simp

/-! ## The last level in terms of the nodes without children -/

theorem bareAt_of_bare {b d : Nat} {t : Tr (d + 1)} (h : t.bare = true) {j k : Nat} : BareAt b (d + 1) t j k ↔ j = d + 1 + b ∧ k = 0 := by
  obtain ⟨h1, h2⟩ := Tr.bare_eq h
  rw [BareAt]
  simp [h, h1, h2]

theorem lastLv_spec (b : Nat) : (d : Nat) → (F : List (Tr d × Nat)) → F ≠ [] → leaves d (F.map Prod.fst) = [] → Apart b d F →
    (∀ x, x ∈ (lastLv b d F).2 ↔ ∃ t p k, (t, p) ∈ F ∧ BareAt b d t (lastLv b d F).1 k ∧ x = p + k * 2 ^ (lastLv b d F).1) ∧
    (∀ t p j k, (t, p) ∈ F → BareAt b d t j k → (lastLv b d F).1 ≤ j) ∧ (lastLv b d F).2.Pairwise (· < ·)
  | 0, F, h, hl, _ => by
    have : F = [] := by simpa [leaves] using hl
    exact (h this).elim
  | d + 1, F, h, hl, hA => by
    rw [lastLv]
    by_cases hk : kidsP b F = []
    · rw [if_pos hk]
      have hb := kids_nil_bare (kids_nil_iff.1 hk)
      have hb' : ∀ t p, (t, p) ∈ F → t.bare = true := fun t p hm => hb t (List.mem_map.2 ⟨_, hm, rfl⟩)
      refine ⟨fun x => ⟨fun hx => ?_, ?_⟩, fun t p j k hm hB => ?_, ?_⟩
      · obtain ⟨⟨t, p⟩, hm, rfl⟩ := List.mem_map.1 hx
        exact ⟨t, p, 0, hm, (bareAt_of_bare (hb' t p hm)).2 ⟨rfl, rfl⟩, by simp⟩
      · rintro ⟨t, p, k, hm, hB, rfl⟩
        obtain ⟨-, rfl⟩ := (bareAt_of_bare (hb' t p hm)).1 hB
        exact List.mem_map.2 ⟨_, hm, by simp⟩
      · exact ((bareAt_of_bare (hb' t p hm)).1 hB).1.symm.le
      · simp only
        rw [List.pairwise_map]
        exact hA.imp fun h => Nat.lt_of_lt_of_le (Nat.lt_add_of_pos_right (Nat.two_pow_pos _)) h
    · rw [if_neg hk]
      have hle := lastLv_le b d (kidsP b F)
      obtain ⟨h1, h2, h3⟩ := lastLv_spec b d (kidsP b F) hk (by rw [kidsP_fst]; exact hl) hA.kids
      generalize hj0 : (lastLv b d (kidsP b F)).1 = j0 at *
      have hsh : 2 ^ (d + b) = 2 ^ (d + b - j0) * 2 ^ j0 := by rw [← Nat.pow_add, Nat.sub_add_cancel hle]
      refine ⟨fun x => ?_, fun t p j k hm hB => ?_, h3⟩
      · rw [h1]
        constructor
        · rintro ⟨s, q, k, hm, hB, rfl⟩
          obtain ⟨t, p, hm', ⟨hs, rfl⟩ | ⟨hs, rfl⟩⟩ := mem_kidsP.1 hm
          · exact ⟨t, q, k, hm', Or.inr (Or.inl ⟨s, hs, hB⟩), rfl⟩
          · exact ⟨t, p, _, hm', Or.inr (Or.inr ⟨s, k, hs, rfl, hB⟩), by rw [Nat.add_mul, ← hsh, Nat.add_assoc]⟩
        · rintro ⟨t, p, k, hm, hB, rfl⟩
          rcases hB with ⟨_, h, _⟩ | ⟨s, hs, hB⟩ | ⟨s, k', hs, rfl, hB⟩
          · omega
          · exact ⟨s, p, k, mem_kidsP.2 ⟨t, p, hm, Or.inl ⟨hs, rfl⟩⟩, hB, rfl⟩
          · exact ⟨s, _, k', mem_kidsP.2 ⟨t, p, hm, Or.inr ⟨hs, rfl⟩⟩, hB, by rw [Nat.add_mul, ← hsh, Nat.add_assoc]⟩
      · rcases hB with ⟨_, h, _⟩ | ⟨s, hs, hB⟩ | ⟨s, k', hs, rfl, hB⟩
        · omega
        · exact h2 s p j k (mem_kidsP.2 ⟨t, p, hm, Or.inl ⟨hs, rfl⟩⟩) hB
        · exact h2 s _ j k' (mem_kidsP.2 ⟨t, p, hm, Or.inr ⟨hs, rfl⟩⟩) hB

end CBT
