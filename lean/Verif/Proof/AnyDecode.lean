import Verif.Proof.Inter
import Verif.Proof.FlatCollapse

/-!
# Decoding tries in any state

What a trie represents is recovered from the fact that `decode` returns.
-/

namespace CBT

/-- Nodes are pairs of bits, and the children of a node with two children have consecutive numbers. -/
structure Coherent (n : Nav) : Prop where
  node : ∀ id ℓ v, n.getNode id ℓ = .ok v → ∃ a b, v = node2 a b
  next : ∀ id ℓ l, ℓ + 1 < n.height → n.getNode id ℓ = .ok 3 → n.getLeftChild id ℓ = .ok l → n.getRightChild id ℓ = .ok (l + 1)

theorem node2_eq_three {a b : Bool} : node2 a b = 3 ↔ a = true ∧ b = true := by
  cases a <;> cases b <;> decide

theorem bvGet_true {pad : Nat} {v : BV} {i : Nat} (h : bvGet pad v i = .ok true) : v[i]? = some true := by
  unfold bvGet at h
  split at h
  · next b hb => cases h; exact hb
  · split at h <;> cases h

theorem rank1_next {v : BV} {i l : Nat} (hb : v[i]? = some true) (h : rank1 v i = .ok l) : rank1 v (i + 1) = .ok (l + 1) := by
  have hi : i < v.length := by
    by_contra hc
    rw [List.getElem?_eq_none (by omega)] at hb; cases hb
  unfold rank1 at h ⊢
  rw [if_pos (by omega)] at h
  rw [if_pos (by omega), List.take_add_one, hb, List.count_append]
  cases h
  simp

/-- Two bits read one after the other. -/
theorem pair_three {x : R Bool} {y : R Bool} {v : Nat} (h : (do let b0 ← x; let b1 ← y; (.ok (node2 b0 b1) : R Nat)) = .ok v) :
    ∃ a b, v = node2 a b ∧ x = .ok a ∧ y = .ok b := by
  obtain ⟨a, ha, h⟩ := bind_ok h
  obtain ⟨b, hb, h⟩ := bind_ok h
  cases h
  exact ⟨a, b, rfl, ha, hb⟩

theorem FlatTrie.coherent (t : FlatTrie) (pad : Nat) : Coherent (t.nav pad) where
  node := by
    intro id ℓ v h
    change t.getNode pad id ℓ = .ok v at h
    unfold FlatTrie.getNode at h
    split at h
    · obtain ⟨a, b, h, _⟩ := pair_three h; exact ⟨a, b, h⟩
    · split at h
      · cases h
      · obtain ⟨a, b, h, _⟩ := pair_three h; exact ⟨a, b, h⟩
  next := by
    intro id ℓ l hℓ h hl
    have hh : (t.nav pad).height = t.height := rfl
    rw [hh] at hℓ
    change t.getNode pad id ℓ = .ok 3 at h
    change t.getLeftChild id ℓ = .ok l at hl
    change t.getRightChild id ℓ = _
    rw [FlatTrie.getNode, if_pos hℓ] at h
    obtain ⟨a, b, h, _, hb⟩ := pair_three h
    obtain ⟨rfl, rfl⟩ := node2_eq_three.1 h.symm
    rw [FlatTrie.getLeftChild, if_neg (by omega)] at hl
    rw [FlatTrie.getRightChild, if_neg (by omega)]
    exact rank1_next (bvGet_true hb) hl

theorem FastTrie.coherent (t : FastTrie) (pad : Nat) : Coherent (t.nav pad).toNav where
  node := by
    intro id ℓ v h
    change t.getNode pad id ℓ = .ok v at h
    obtain ⟨a, b, h, _⟩ := pair_three h; exact ⟨a, b, h⟩
  next := by
    intro id ℓ l hℓ h hl
    have hh : (t.nav pad).height = t.height := rfl
    rw [hh] at hℓ
    change t.getNode pad id ℓ = .ok 3 at h
    change t.getLeftChild id ℓ = .ok l at hl
    change t.getRightChild id ℓ = _
    obtain ⟨a, b, h, _, hb⟩ := pair_three h
    obtain ⟨rfl, rfl⟩ := node2_eq_three.1 h.symm
    rw [FastTrie.getLeftChild, if_neg (by omega)] at hl
    rw [FastTrie.getRightChild, if_neg (by omega)]
    exact rank1_next (bvGet_true hb) hl

/-- The levels of a level-wise trie have fewer than `2^64` bits, as every `sdsl` vector. -/
theorem LevelTrie.coherent (t : LevelTrie) (il : Bool) (pad : Nat) (hlen : ∀ v ∈ t.bTrie, v.length < 2 ^ 64) : Coherent (t.nav il pad) where
  node := by
    intro id ℓ v h
    change t.getNode pad id ℓ = .ok v at h
    obtain ⟨lv, _, h⟩ := bind_ok h
    obtain ⟨a, b, h, _⟩ := pair_three h; exact ⟨a, b, h⟩
  next := by
    intro id ℓ l hℓ h hl
    have hh : (t.nav il pad).height = t.height := rfl
    rw [hh] at hℓ
    change t.getNode pad id ℓ = .ok 3 at h
    obtain ⟨lv, hlv, h⟩ := bind_ok h
    obtain ⟨a, b, h, ha, hb⟩ := pair_three h
    obtain ⟨rfl, rfl⟩ := node2_eq_three.1 h.symm
    cases il with
    | false =>
      change t.getLeftChild id ℓ = .ok l at hl
      change t.getRightChild id ℓ = _
      rw [LevelTrie.getLeftChild, if_neg (by omega), hlv] at hl
      rw [LevelTrie.getRightChild, if_neg (by omega), hlv]
      exact rank1_next (bvGet_true ha) hl
    | true =>
      change t.getLeftChildIl id ℓ = .ok l at hl
      change t.getRightChildIl id ℓ = _
      rw [LevelTrie.getLeftChildIl, if_neg (by omega), hlv] at hl
      rw [LevelTrie.getRightChildIl, if_neg (by omega), hlv]
      simp only [R_bind_ok] at hl ⊢
      obtain ⟨k, hk, hl⟩ := bind_ok hl
      have ha' := bvGet_true ha
      have h1 : 1 ≤ k ∧ k < 2 ^ 64 := by
        have hmem : lv ∈ t.bTrie := by
          unfold vGet at hlv
          split at hlv
          · next x hx => cases hlv; exact List.mem_of_getElem? hx
          · cases hlv
        have hc := List.count_le_length (a := true) (l := lv)
        have hi : 2 * id < lv.length := by
          by_contra hc
          rw [List.getElem?_eq_none (by omega)] at ha'; cases ha'
        have e : rank1 lv (2 * id) = .ok ((lv.take (2 * id)).count true) := by rw [rank1, if_pos (by omega)]
        have e2 := rank1_next ha' e
        rw [e2] at hk
        cases hk
        have := (List.take_sublist (2 * id + 1) lv).count_le true
        have e3 : (lv.take (2 * id + 1)).count true = (lv.take (2 * id)).count true + 1 := by
          rw [rank1, if_pos (by omega)] at e2; injection e2
        have := hlen lv hmem
        omega
      rw [rank1_next (bvGet_true hb) hk]
      simp only [R_bind_ok]
      have hl' : (k + 2 ^ 64 - 1) % 2 ^ 64 = l := by injection hl
      have hr' : (k + 1 + 2 ^ 64 - 1) % 2 ^ 64 = l + 1 := by omega
      rw [hr']

/-! ## Leaves that may be empty -/

/-- Leaf relation of the classes with a bit vector for the last level. -/
def leafP (n : Nav) (w id ℓ : Nat) : Prop := n.getNode id ℓ = .ok (node2 (w.testBit 0) (w.testBit 1))

/-- The same, where an empty node stands for both values. -/
def leafQ (n : Nav) (w id ℓ : Nat) : Prop :=
  n.getNode id ℓ = .ok (node2 (w.testBit 0) (w.testBit 1)) ∧ (w.testBit 0 || w.testBit 1) = true ∨ n.getNode id ℓ = .ok 0 ∧ w = 3

/-- Leaf relation of the fast trie. -/
def leafV (lg : Nat) (n : FNav) (w id _level : Nat) : Prop := w < 2 ^ 2 ^ lg ∧ n.getWord id = .ok w

/-- A word of two bits. -/
theorem word_of (a b : Bool) : ∃ w, Nat.testBit w 0 = a ∧ Nat.testBit w 1 = b := by
  cases a <;> cases b
  · exact ⟨0, by decide, by decide⟩
  · exact ⟨2, by decide, by decide⟩
  · exact ⟨1, by decide, by decide⟩
  · exact ⟨3, by decide, by decide⟩

/-- An inner node, put together from its children. -/
theorem rep_node {n : Nav} (hc : Coherent n) {leaf : Nat → Nat → Nat → Prop} {d ℓ id : Nat} {a b : Bool}
    (hℓ : ℓ + 1 < n.height) (hn : n.getNode id ℓ = .ok (node2 a b)) {Q : Tr d → Prop} {Q' : Tr d → Prop}
    (hl : a = true → ∃ c s, n.getLeftChild id ℓ = .ok c ∧ Rep n leaf d (ℓ + 1) s c ∧ Q s)
    (hr : b = true → ∃ c s, n.getRightChild id ℓ = .ok c ∧ Rep n leaf d (ℓ + 1) s c ∧ Q' s) :
    ∃ t : Tr (d + 1), Rep n leaf (d + 1) ℓ t id ∧ t.l.isSome = a ∧ t.r.isSome = b ∧ (∀ s, t.l = some s → Q s) ∧ ∀ s, t.r = some s → Q' s := by
  cases a with
  | false =>
    cases b with
    | false => exact ⟨Tr.mk none none, ⟨hn, by simp, by simp⟩, rfl, rfl, by simp, by simp⟩
    | true =>
      obtain ⟨c, s, h1, h2, h3⟩ := hr rfl
      exact ⟨Tr.mk none (some s), ⟨hn, by simp, by simpa using ⟨c, h1, h2⟩⟩, rfl, rfl, by simp, by simpa using h3⟩
  | true =>
    obtain ⟨c, s, h1, h2, h3⟩ := hl rfl
    cases b with
    | false => exact ⟨Tr.mk (some s) none, ⟨hn, by simpa using ⟨c, h1, h2⟩, by simp⟩, rfl, rfl, by simpa using h3, by simp⟩
    | true =>
      obtain ⟨c', s', h1', h2', h3'⟩ := hr rfl
      have : c' = c + 1 := by
        have := hc.next id ℓ c hℓ hn h1
        rw [h1'] at this; injection this
      subst this
      refine ⟨Tr.mk (some s) (some s'), ⟨hn, ?_, ?_⟩, rfl, rfl, by simpa using h3, by simpa using h3'⟩
      · intro x hx; simp only [Tr.l_mk, Option.some.injEq] at hx; subst hx
        refine ⟨c, h1, h2, ?_⟩
        intro x hx; simp only [Tr.r_mk, Option.some.injEq] at hx; subst hx
        exact h2'
      · intro x hx; simp only [Tr.r_mk, Option.some.injEq] at hx; subst hx
        exact ⟨c + 1, h1', h2'⟩

/-- The two halves of a decoding step. -/
theorem step_parts {a b : Bool} {x y : R Nat} {f : Nat → R (List Nat)} {g : Nat → List Nat → R (List Nat)} {out R : List Nat}
    (h : (do
      let out ← if a then (do let c ← x; f c) else pure out
      if b then (do let c ← y; g c out) else pure out) = .ok R) :
    ∃ o, (if a then ∃ c, x = .ok c ∧ f c = .ok o else o = out) ∧ (if b then ∃ c, y = .ok c ∧ g c o = .ok R else R = o) := by
  have hb : ∀ o, (if b then (do let c ← y; g c o) else pure o : CBT.R (List Nat)) = .ok R →
      (if b then ∃ c, y = .ok c ∧ g c o = .ok R else R = o) := by
    intro o h
    cases b with
    | false => simp only [Bool.false_eq_true, if_false] at h ⊢; cases h; rfl
    | true => simp only [if_true] at h ⊢; exact bind_ok h
  cases a with
  | false =>
    simp only [Bool.false_eq_true, if_false] at h ⊢
    exact ⟨out, rfl, hb out h⟩
  | true =>
    simp only [if_true] at h ⊢
    obtain ⟨o, ho, h⟩ := bind_ok h
    exact ⟨o, bind_ok ho, hb o h⟩

theorem recDecode_any {n : Nav} (hc : Coherent n) (hh : n.height ≤ 64) : ∀ (d ℓ id part : Nat) (out R : List Nat),
    n.height = ℓ + d + 1 → 2 ^ (d + 1) ∣ part → recDecode n (d + 1) out part id ℓ = .ok R →
    ∃ t : Tr d, Rep n (leafP n) d ℓ t id ∧ R = out ++ enum (d + 1) (has 1 d t) part := by
  intro d
  induction d with
  | zero =>
    intro ℓ id part out R hℓ hd h
    have h' := h
    rw [recDecode] at h'
    obtain ⟨v, hv, _⟩ := bind_ok h'
    obtain ⟨a, b, rfl⟩ := hc.node id ℓ v hv
    obtain ⟨w, rfl, rfl⟩ := word_of a b
    refine ⟨Tr.ofWord w, hv, ?_⟩
    have hs : shl1 (n.height - ℓ - 1) = .ok 1 := by rw [hℓ]; simp [shl1]
    have ho : part ||| 1 = part + 1 := or_two_pow (k := 0) hd
    rw [show 0 + 1 = 1 from rfl, recDecode_step hv hs, ho] at h
    obtain ⟨o, h1, h2⟩ := step_parts h
    rw [show 0 + 1 = 1 from rfl, enum_word, Tr.word_ofWord]
    generalize Nat.testBit w 0 = p0 at h1 ⊢
    generalize Nat.testBit w 1 = p1 at h2 ⊢
    cases p0 <;> cases p1 <;> simp [recDecode] at h1 h2 ⊢
    · rw [h2, h1]
    · rw [← h2.2, h1]
    · rw [h2, h1.2]
    · rw [← h2.2, ← h1.2]; simp
  | succ d ih =>
    intro ℓ id part out R hℓ hd h
    have h' := h
    rw [recDecode] at h'
    obtain ⟨v, hv, _⟩ := bind_ok h'
    obtain ⟨a, b, rfl⟩ := hc.node id ℓ v hv
    have hs : shl1 (n.height - ℓ - 1) = .ok (2 ^ (d + 1)) := by
      rw [hℓ, show ℓ + (d + 1) + 1 - ℓ - 1 = d + 1 by omega]; exact shl1_ok (by omega)
    rw [recDecode_step hv hs, or_two_pow hd] at h
    obtain ⟨o, h1, h2⟩ := step_parts h
    obtain ⟨t, ht, hl, hr, e1, e2⟩ := rep_node hc (leaf := leafP n) (by omega) hv
      (Q := fun s => o = out ++ enum (d + 1) (has 1 d s) part) (Q' := fun s => R = o ++ enum (d + 1) (has 1 d s) (part + 2 ^ (d + 1)))
      (by
        rintro rfl
        obtain ⟨c, hc, h1⟩ := h1
        obtain ⟨s, hs1, hs2⟩ := ih _ _ _ _ _ (by omega) (dvd_lo hd) h1
        exact ⟨c, s, hc, hs1, hs2⟩)
      (by
        rintro rfl
        obtain ⟨c, hc, h2⟩ := h2
        obtain ⟨s, hs1, hs2⟩ := ih _ _ _ _ _ (by omega) (dvd_hi hd) h2
        exact ⟨c, s, hc, hs1, hs2⟩)
    refine ⟨t, ht, ?_⟩
    rw [enum_has_node]
    cases h3 : t.l with
    | none =>
      rw [h3] at hl
      subst hl
      have h1 : o = out := h1
      cases h4 : t.r with
      | none => rw [h4] at hr; subst hr; have h2 : R = o := h2; rw [h2, h1]; simp
      | some s => have := e2 s h4; rw [this, h1]; simp
    | some s =>
      have h1 := e1 s h3
      cases h4 : t.r with
      | none => rw [h4] at hr; subst hr; have h2 : R = o := h2; rw [h2, h1]; simp
      | some s => have := e2 s h4; rw [this, h1]; simp

theorem runsRecDecode_any {n : Nav} (hc : Coherent n) (hh : n.height < 64) : ∀ (d ℓ id part : Nat) (out R : List Nat),
    n.height = ℓ + d + 1 → 2 ^ (d + 1) ∣ part → runsRecDecode n (d + 1) out part id ℓ = .ok R →
    ∃ t : Tr d, Rep n (leafQ n) d ℓ t id ∧ R = out ++ enum (d + 1) (hasR 1 d t) part := by
  intro d
  induction d with
  | zero =>
    intro ℓ id part out R hℓ hd h
    have h' := h
    rw [runsRecDecode] at h'
    obtain ⟨v, hv, _⟩ := bind_ok h'
    obtain ⟨a, b, rfl⟩ := hc.node id ℓ v hv
    cases hab : (a || b) with
    | false =>
      rw [Bool.or_eq_false_iff] at hab
      obtain ⟨rfl, rfl⟩ := hab
      refine ⟨Tr.ofWord 3, Or.inr ⟨hv, rfl⟩, ?_⟩
      rw [runsRecDecode_bare (k := 1) (P := hasR 1 0 (Tr.ofWord 3)) hv (by omega) (by omega) hd (by
        intro x hx
        have : x = 0 ∨ x = 1 := by omega
        rcases this with rfl | rfl <;> decide)] at h
      injection h with h
      exact h.symm
    | true =>
    obtain ⟨w, rfl, rfl⟩ := word_of a b
    refine ⟨Tr.ofWord w, Or.inl ⟨hv, hab⟩, ?_⟩
    have hs : shl1 (n.height - ℓ - 1) = .ok 1 := by rw [hℓ]; simp [shl1]
    have ho : part ||| 1 = part + 1 := or_two_pow (k := 0) hd
    rw [show 0 + 1 = 1 from rfl, runsRecDecode_step hv hab hs, ho] at h
    obtain ⟨o, h1, h2⟩ := step_parts h
    rw [show 0 + 1 = 1 from rfl, enum_wordR, Tr.word_ofWord]
    generalize Nat.testBit w 0 = p0 at h1 ⊢
    generalize Nat.testBit w 1 = p1 at h2 ⊢
    cases p0 <;> cases p1 <;> simp [runsRecDecode] at h1 h2 ⊢
    · rw [h2, h1]
    · rw [← h2.2, h1]
    · rw [h2, h1.2]
    · rw [← h2.2, ← h1.2]; simp
  | succ d ih =>
    intro ℓ id part out R hℓ hd h
    have h' := h
    rw [runsRecDecode] at h'
    obtain ⟨v, hv, _⟩ := bind_ok h'
    obtain ⟨a, b, rfl⟩ := hc.node id ℓ v hv
    cases hab : (a || b) with
    | false =>
      rw [Bool.or_eq_false_iff] at hab
      obtain ⟨rfl, rfl⟩ := hab
      refine ⟨Tr.mk none none, ⟨hv, by simp, by simp⟩, ?_⟩
      rw [runsRecDecode_bare (k := d + 1 + 1) (P := hasR 1 (d + 1) (Tr.mk none none)) hv (by omega) (by omega) hd
        (fun x _ => hasR_bare rfl)] at h
      injection h with h
      exact h.symm
    | true =>
    have hs : shl1 (n.height - ℓ - 1) = .ok (2 ^ (d + 1)) := by
      rw [hℓ, show ℓ + (d + 1) + 1 - ℓ - 1 = d + 1 by omega]; exact shl1_ok (by omega)
    rw [runsRecDecode_step hv hab hs, or_two_pow hd] at h
    obtain ⟨o, h1, h2⟩ := step_parts h
    obtain ⟨t, ht, hl, hr, e1, e2⟩ := rep_node hc (leaf := leafQ n) (by omega) hv
      (Q := fun s => o = out ++ enum (d + 1) (hasR 1 d s) part) (Q' := fun s => R = o ++ enum (d + 1) (hasR 1 d s) (part + 2 ^ (d + 1)))
      (by
        rintro rfl
        obtain ⟨c, hc, h1⟩ := h1
        obtain ⟨s, hs1, hs2⟩ := ih _ _ _ _ _ (by omega) (dvd_lo hd) h1
        exact ⟨c, s, hc, hs1, hs2⟩)
      (by
        rintro rfl
        obtain ⟨c, hc, h2⟩ := h2
        obtain ⟨s, hs1, hs2⟩ := ih _ _ _ _ _ (by omega) (dvd_hi hd) h2
        exact ⟨c, s, hc, hs1, hs2⟩)
    refine ⟨t, ht, ?_⟩
    have hb : t.bare = false := by
      subst hl hr
      revert hab; unfold Tr.bare; cases t.l <;> cases t.r <;> simp
    rw [enum_hasR_node _ _ hb]
    cases h3 : t.l with
    | none =>
      rw [h3] at hl
      subst hl
      have h1 : o = out := h1
      cases h4 : t.r with
      | none => rw [h4] at hr; subst hr; have h2 : R = o := h2; rw [h2, h1]; simp
      | some s => have := e2 s h4; rw [this, h1]; simp
    | some s =>
      have h1 := e1 s h3
      cases h4 : t.r with
      | none => rw [h4] at hr; subst hr; have h2 : R = o := h2; rw [h2, h1]; simp
      | some s => have := e2 s h4; rw [this, h1]; simp

theorem fastRecDecode_any {lg hu : Nat} {n : FNav} (hc : Coherent n.toNav) (hw : ∀ id w, n.getWord id = .ok w → w < 2 ^ 2 ^ lg)
    (hlg : lg ≤ 6) (hh : hu ≤ 64) : ∀ (d ℓ id part : Nat) (out R : List Nat),
    n.height = ℓ + d + 1 → hu = ℓ + d + lg → 2 ^ (d + lg) ∣ part → fastRecDecode lg hu n d out part id ℓ = .ok R →
    ∃ t : Tr d, Rep n.toNav (leafV lg n) d ℓ t id ∧ R = out ++ enum (d + lg) (has lg d t) part := by
  intro d
  induction d with
  | zero =>
    intro ℓ id part out R _ hℓ hd h
    rw [fastRecDecode] at h
    obtain ⟨w, hw', h⟩ := bind_ok h
    have hlt := hw id w hw'
    refine ⟨Tr.ofWord w, ⟨hlt, hw'⟩, ?_⟩
    rw [emitWord_ok hlg out hlt] at h
    injection h with h
    rw [enum_zeroW, Tr.word_ofWord, h]
  | succ d ih =>
    intro ℓ id part out R hht hℓ hd h
    rw [show d + 1 + lg = d + lg + 1 by omega] at hd
    have h' := h
    rw [fastRecDecode] at h'
    obtain ⟨v, hv, _⟩ := bind_ok h'
    obtain ⟨a, b, rfl⟩ := hc.node id ℓ v hv
    have hs : shl1 (hu - ℓ - 1) = .ok (2 ^ (d + lg)) := by
      rw [hℓ, show ℓ + (d + 1) + lg - ℓ - 1 = d + lg by omega]; exact shl1_ok (by omega)
    rw [fastRecDecode_step hv hs, or_two_pow hd] at h
    obtain ⟨o, h1, h2⟩ := step_parts h
    obtain ⟨t, ht, hl, hr, e1, e2⟩ := rep_node hc (leaf := leafV lg n) (by omega) hv
      (Q := fun s => o = out ++ enum (d + lg) (has lg d s) part) (Q' := fun s => R = o ++ enum (d + lg) (has lg d s) (part + 2 ^ (d + lg)))
      (by
        rintro rfl
        obtain ⟨c, hc, h1⟩ := h1
        obtain ⟨s, hs1, hs2⟩ := ih _ _ _ _ _ (by omega) (by omega) (dvd_lo hd) h1
        exact ⟨c, s, hc, hs1, hs2⟩)
      (by
        rintro rfl
        obtain ⟨c, hc, h2⟩ := h2
        obtain ⟨s, hs1, hs2⟩ := ih _ _ _ _ _ (by omega) (by omega) (dvd_hi hd) h2
        exact ⟨c, s, hc, hs1, hs2⟩)
    refine ⟨t, ht, ?_⟩
    rw [enum_has_node]
    cases h3 : t.l with
    | none =>
      rw [h3] at hl
      subst hl
      have h1 : o = out := h1
      cases h4 : t.r with
      | none => rw [h4] at hr; subst hr; have h2 : R = o := h2; rw [h2, h1]; simp
      | some s => have := e2 s h4; rw [this, h1]; simp
    | some s =>
      have h1 := e1 s h3
      cases h4 : t.r with
      | none => rw [h4] at hr; subst hr; have h2 : R = o := h2; rw [h2, h1]; simp
      | some s => have := e2 s h4; rw [this, h1]; simp

theorem fastRunsRecDecode_any {lg hu : Nat} {n : FNav} (hc : Coherent n.toNav) (hw : ∀ id w, n.getWord id = .ok w → w < 2 ^ 2 ^ lg)
    (hlg : lg ≤ 6) (hh : hu < 64) : ∀ (d ℓ id part : Nat) (out R : List Nat),
    n.height = ℓ + d + 1 → hu = ℓ + d + lg → 2 ^ (d + lg) ∣ part → fastRunsRecDecode lg hu n d out part id ℓ = .ok R →
    ∃ t : Tr d, Rep n.toNav (leafV lg n) d ℓ t id ∧ R = out ++ enum (d + lg) (hasR lg d t) part := by
  intro d
  induction d with
  | zero =>
    intro ℓ id part out R _ hℓ hd h
    rw [fastRunsRecDecode] at h
    obtain ⟨w, hw', h⟩ := bind_ok h
    have hlt := hw id w hw'
    refine ⟨Tr.ofWord w, ⟨hlt, hw'⟩, ?_⟩
    rw [emitWord_ok hlg out hlt] at h
    injection h with h
    rw [enum_zeroWR, Tr.word_ofWord, h]
  | succ d ih =>
    intro ℓ id part out R hht hℓ hd h
    have h' := h
    rw [fastRunsRecDecode] at h'
    obtain ⟨v, hv, _⟩ := bind_ok h'
    obtain ⟨a, b, rfl⟩ := hc.node id ℓ v hv
    cases hab : (a || b) with
    | false =>
      rw [Bool.or_eq_false_iff] at hab
      obtain ⟨rfl, rfl⟩ := hab
      refine ⟨Tr.mk none none, ⟨hv, by simp, by simp⟩, ?_⟩
      rw [fastRunsRecDecode, hv, hℓ] at h
      simp only [R_bind_ok, node2_ff, if_true, show ℓ + (d + 1) + lg - ℓ = d + 1 + lg by omega] at h
      rw [fillRange_ok (P := hasR lg (d + 1) (Tr.mk none none)) out (by omega) hd (fun x _ => hasR_bare rfl)] at h
      injection h with h
      exact h.symm
    | true =>
    rw [show d + 1 + lg = d + lg + 1 by omega] at hd
    have hs : shl1 (hu - ℓ - 1) = .ok (2 ^ (d + lg)) := by
      rw [hℓ, show ℓ + (d + 1) + lg - ℓ - 1 = d + lg by omega]; exact shl1_ok (by omega)
    rw [fastRunsRecDecode_step hv hab hs, or_two_pow hd] at h
    obtain ⟨o, h1, h2⟩ := step_parts h
    obtain ⟨t, ht, hl, hr, e1, e2⟩ := rep_node hc (leaf := leafV lg n) (by omega) hv
      (Q := fun s => o = out ++ enum (d + lg) (hasR lg d s) part) (Q' := fun s => R = o ++ enum (d + lg) (hasR lg d s) (part + 2 ^ (d + lg)))
      (by
        rintro rfl
        obtain ⟨c, hc, h1⟩ := h1
        obtain ⟨s, hs1, hs2⟩ := ih _ _ _ _ _ (by omega) (by omega) (dvd_lo hd) h1
        exact ⟨c, s, hc, hs1, hs2⟩)
      (by
        rintro rfl
        obtain ⟨c, hc, h2⟩ := h2
        obtain ⟨s, hs1, hs2⟩ := ih _ _ _ _ _ (by omega) (by omega) (dvd_hi hd) h2
        exact ⟨c, s, hc, hs1, hs2⟩)
    refine ⟨t, ht, ?_⟩
    have hb : t.bare = false := by
      subst hl hr
      revert hab; unfold Tr.bare; cases t.l <;> cases t.r <;> simp
    rw [enum_hasR_node _ _ hb]
    cases h3 : t.l with
    | none =>
      rw [h3] at hl
      subst hl
      have h1 : o = out := h1
      cases h4 : t.r with
      | none => rw [h4] at hr; subst hr; have h2 : R = o := h2; rw [h2, h1]; simp
      | some s => have := e2 s h4; rw [this, h1]; simp
    | some s =>
      have h1 := e1 s h3
      cases h4 : t.r with
      | none => rw [h4] at hr; subst hr; have h2 : R = o := h2; rw [h2, h1]; simp
      | some s => have := e2 s h4; rw [this, h1]; simp

/-! ## The last levels in `Intersect` -/

theorem andNodes_leafP {ℓ : Nat} : (as : List Nav) → (ts : List (Tr 0)) → (os : List (Option Nat)) →
    Reps id leafP 0 ℓ as ts os → (A B : Bool) →
    andNodes as os ℓ (node2 A B) = .ok (node2 (A && allHas 1 0 ts 0) (B && allHas 1 0 ts 1))
  | [], [], os, _, A, B => by simp [andNodes, allHas]
  | a :: as, t :: ts, some i :: os, h, A, B => by
    have := andNodes_leafP as ts os h.2 (A && t.word.testBit 0) (B && t.word.testBit 1)
    rw [andNodes]
    have hn : a.getNode i ℓ = .ok (node2 (t.word.testBit 0) (t.word.testBit 1)) := h.1
    simp only [readRoot, R_bind_ok, hn, and_node2]
    rw [this]
    simp only [allHas, List.all_cons, has, Bool.and_assoc]
  | [], _ :: _, _, h, _, _ => by simp [Reps] at h
  | _ :: _, [], _, h, _, _ => by simp [Reps] at h
  | _ :: _, _ :: _, [], h, _, _ => by simp [Reps] at h
  | _ :: _, _ :: _, none :: _, h, _, _ => by simp [Reps] at h

theorem flat_leafOK_any (as : List Nav) (height : Nat) : LeafOK id leafP as (flatCfg height) 1 1 := by
  refine ⟨Or.inr (by simp), ?_⟩
  intro ℓ ts os pref r hr ht hd
  have hs : shl1 (height - ℓ - 1) = .ok (2 ^ 0) := by
    have : height = ℓ + 1 := ht
    rw [this, show ℓ + 1 - ℓ - 1 = 0 by omega]; exact shl1_ok (by omega)
  have h3 : andNodes (as.map id) os ℓ 3 = .ok (node2 (allHas 1 0 ts 0) (allHas 1 0 ts 1)) := by
    rw [List.map_id]
    have := andNodes_leafP as ts os hr true true
    rw [Bool.true_and, Bool.true_and] at this
    exact this
  have ho : pref ||| 2 ^ 0 = pref + 1 := or_two_pow (k := 0) (by simpa using hd)
  rw [AND, h3, enum_one]
  have hsk : ∀ get, children get true ℓ as os = .ok (List.replicate as.length none) := by
    intro get
    have := children_skip get as ts os hr
    rwa [List.map_id] at this
  have htop : (flatCfg height).top = height := rfl
  simp only [R_bind_ok, htop, hs, ho]
  cases allHas 1 0 ts 0 <;> cases allHas 1 0 ts 1 <;> simp [node2, AND, flatCfg, hsk]

theorem andWords_any {lg ℓ : Nat} : (as : List FNav) → (ts : List (Tr 0)) → (os : List (Option Nat)) →
    Reps FNav.toNav (leafV lg) 0 ℓ as ts os → (w : Nat) → w < 2 ^ 2 ^ lg →
    ∃ w', andWords as os w = .ok w' ∧ w' < 2 ^ 2 ^ lg ∧ ∀ x, w'.testBit x = (w.testBit x && allHas lg 0 ts x)
  | [], [], os, _, w, hw => ⟨w, rfl, hw, fun x => by simp [allHas]⟩
  | a :: as, t :: ts, some i :: os, h, w, hw => by
    obtain ⟨w', e, h1, h2⟩ := andWords_any as ts os h.2 (w &&& t.word) (Nat.lt_of_le_of_lt Nat.and_le_left hw)
    refine ⟨w', ?_, h1, ?_⟩
    · rw [andWords]
      have hn : a.getWord i = .ok t.word := h.1.2
      simp only [readRoot, R_bind_ok, hn]
      exact e
    · intro x
      rw [h2, Nat.testBit_and]
      simp only [allHas, List.all_cons, has, Bool.and_assoc]
  | [], _ :: _, _, h, _, _ => by simp [Reps] at h
  | _ :: _, [], _, h, _, _ => by simp [Reps] at h
  | _ :: _, _ :: _, [], h, _, _ => by simp [Reps] at h
  | _ :: _, _ :: _, none :: _, h, _, _ => by simp [Reps] at h

theorem fast_leafOK_any {lg : Nat} (hlg : lg ≤ 6) (as : List FNav) (height : Nat) :
    LeafOK FNav.toNav (leafV lg) as (fastCfg lg as height) lg 0 := by
  refine ⟨Or.inl rfl, ?_⟩
  intro ℓ ts os pref r hr ht hd
  have hpos := Nat.two_pow_pos (2 ^ lg)
  obtain ⟨w, e, h1, h2⟩ := andWords_any as ts os hr (2 ^ 2 ^ lg - 1) (by omega)
  rw [AND, fastCfg]
  simp only [e, R_bind_ok]
  rw [emitWord_ok hlg r h1]
  congr 2
  apply enum_congr
  intro x hx
  rw [h2, testBit_full hx, Bool.true_and]

theorem runsNodes_leafQ {ℓ : Nat} : ∀ (as : List Nav) (ts : List (Option (Tr 0))) (os : List (Option Nat)) (bs : List Bool),
    RepsA id leafQ 0 ℓ as ts os bs → ∀ (A B C D : Bool), ∃ tmp E F,
    runsNodes (as.map id) os bs ℓ (node2 A B) (node2 C D) =
      .ok (tmp, node2 (A && allO 1 0 ts 0) (B && allO 1 0 ts 1), node2 (C || E) (D || F)) ∧
    (∀ get, childrenActive get true ℓ as os tmp = .ok (List.replicate as.length none)) ∧
    (E = false → F = false → ∀ x < 2, allO 1 0 ts x = true) := by
  apply RepsA.rec'
  · intro os bs A B C D
    exact ⟨[], false, false, by simp [runsNodes, allO], fun _ => rfl, fun _ _ x _ => by simp [allO]⟩
  · intro a as t ts i os bs hr hrs ih A B C D
    rcases hr with ⟨hn, hw⟩ | ⟨hn, hw⟩
    · obtain ⟨tmp, E, F, e, hsk, hall⟩ := ih (A && t.word.testBit 0) (B && t.word.testBit 1) (C || t.word.testBit 0) (D || t.word.testBit 1)
      have hne : node2 (t.word.testBit 0) (t.word.testBit 1) ≠ 0 := by
        intro h0
        rw [node2_eq_zero] at h0
        simp [h0.1, h0.2] at hw
      refine ⟨true :: tmp, t.word.testBit 0 || E, t.word.testBit 1 || F, ?_, ?_, ?_⟩
      · have hn' : (id a).getNode i ℓ = .ok (node2 (t.word.testBit 0) (t.word.testBit 1)) := hn
        rw [List.map_cons, runsNodes]
        simp only [if_true, readRoot, R_bind_ok, hn', ne_eq, hne, not_false_iff, and_node2, or_node2, e]
        simp [allO, hasO, hasR, Bool.and_assoc, Bool.or_assoc]
      · intro get
        rw [childrenActive]
        simp [hsk get, List.replicate_succ]
      · intro h0 h1
        rw [Bool.or_eq_false_iff] at h0 h1
        rw [h0.1, h1.1] at hw
        cases hw
    · obtain ⟨tmp, E, F, e, hsk, hall⟩ := ih A B C D
      have ht : ∀ x < 2, hasR 1 0 t x = true := by
        intro x hx
        have : x = 0 ∨ x = 1 := by omega
        rw [hasR, hw]
        rcases this with rfl | rfl <;> decide
      refine ⟨false :: tmp, E, F, ?_, ?_, ?_⟩
      · have hn' : (id a).getNode i ℓ = .ok 0 := hn
        rw [List.map_cons, runsNodes]
        simp only [if_true, readRoot, R_bind_ok, hn', ne_eq, not_true, if_false, Nat.or_zero, e]
        simp [allO, hasO, ht 0 (by omega), ht 1 (by omega)]
      · intro get
        rw [childrenActive]
        simp [hsk get, List.replicate_succ]
      · intro h0 h1 x hx
        have := hall h0 h1 x hx
        simp only [allO, List.all_cons, hasO, Option.all_some, ht x hx, Bool.true_and] at this ⊢
        exact this
  · intro a as ts o os bs hrs ih A B C D
    obtain ⟨tmp, E, F, e, hsk, hall⟩ := ih A B C D
    refine ⟨false :: tmp, E, F, ?_, ?_, ?_⟩
    · rw [List.map_cons, runsNodes]
      simp only [Bool.false_eq_true, if_false, e, R_bind_ok]
      simp [allO, hasO]
    · intro get
      rw [childrenActive]
      simp [hsk get, List.replicate_succ]
    · intro h0 h1 x hx
      have := hall h0 h1 x hx
      simp only [allO, List.all_cons, hasO, Option.all_none, Bool.true_and] at this ⊢
      exact this

theorem flat_leafOKR_any (as : List Nav) (height : Nat) : LeafOKR id leafQ as (flatCfg height) 1 1 := by
  refine ⟨Or.inr (by simp), ?_⟩
  intro ℓ ts os bs pref r hr ht hd
  have hht : height = ℓ + 1 := ht
  have hs : shl1 (height - ℓ - 1) = .ok (2 ^ 0) := by
    rw [hht, show ℓ + 1 - ℓ - 1 = 0 by omega]; exact shl1_ok (by omega)
  obtain ⟨tmp, E, F, h3, hsk, hall⟩ := runsNodes_leafQ as ts os bs hr true true false false
  rw [Bool.true_and, Bool.true_and, Bool.false_or, Bool.false_or, node2_tt, node2_ff] at h3
  have ho : pref ||| 2 ^ 0 = pref + 1 := or_two_pow (k := 0) (by simpa using hd)
  have htop : (flatCfg height).top = height := rfl
  rw [runsAND, h3]
  rw [List.map_id]
  simp only [R_bind_ok, htop, hs, ho]
  by_cases h0 : node2 E F = 0
  · obtain ⟨hE, hF⟩ := node2_eq_zero.1 h0
    rw [h0]
    simp only [ne_eq, not_true, and_false, if_false, if_true]
    rw [hht, show ℓ + 1 - ℓ = 1 by omega]
    exact fillRange_ok r (by omega) hd (fun x hx => hall hE hF x hx)
  · simp only [ne_eq, h0, not_false_iff, and_true, if_false]
    rw [enum_one]
    cases allO 1 0 ts 0 <;> cases allO 1 0 ts 1 <;> simp [node2, runsAND, flatCfg, hsk]

theorem andWordsActive_any {lg ℓ : Nat} : ∀ (as : List FNav) (ts : List (Option (Tr 0))) (os : List (Option Nat)) (bs : List Bool),
    RepsA FNav.toNav (leafV lg) 0 ℓ as ts os bs → ∀ w < 2 ^ 2 ^ lg,
    ∃ w', andWordsActive as os bs w = .ok w' ∧ w' < 2 ^ 2 ^ lg ∧ ∀ x, w'.testBit x = (w.testBit x && allO lg 0 ts x) := by
  apply RepsA.rec'
  · intro os bs w hw
    exact ⟨w, by simp [andWordsActive], hw, fun x => by simp [allO]⟩
  · intro a as t ts i os bs hr hrs ih w hw
    obtain ⟨w', e, h1, h2⟩ := ih (w &&& t.word) (Nat.lt_of_le_of_lt Nat.and_le_left hw)
    refine ⟨w', ?_, h1, ?_⟩
    · rw [andWordsActive]
      have hn : a.getWord i = .ok t.word := hr.2
      simp only [if_true, readRoot, R_bind_ok, hn]
      exact e
    · intro x
      rw [h2, Nat.testBit_and]
      simp only [allO, List.all_cons, hasO, hasR, Option.all_some, Bool.and_assoc]
  · intro a as ts o os bs hrs ih w hw
    obtain ⟨w', e, h1, h2⟩ := ih w hw
    refine ⟨w', ?_, h1, ?_⟩
    · rw [andWordsActive]
      simpa using e
    · intro x
      rw [h2]
      simp [allO, hasO]

theorem fast_leafOKR_any {lg : Nat} (hlg : lg ≤ 6) (as : List FNav) (height : Nat) :
    LeafOKR FNav.toNav (leafV lg) as (fastCfg lg as height) lg 0 := by
  refine ⟨Or.inl rfl, ?_⟩
  intro ℓ ts os bs pref r hr ht hd
  have hpos := Nat.two_pow_pos (2 ^ lg)
  obtain ⟨w, e, h1, h2⟩ := andWordsActive_any as ts os bs hr (2 ^ 2 ^ lg - 1) (by omega)
  rw [runsAND, fastCfg]
  simp only [e, R_bind_ok]
  rw [emitWord_ok hlg r h1]
  congr 2
  apply enum_congr
  intro x hx
  rw [h2, testBit_full hx, Bool.true_and]

/-! ## Lists of tries -/

theorem enum_zero_lt {k x : Nat} {P : Nat → Bool} (h : x ∈ enum k P 0) : x < 2 ^ k := by
  obtain ⟨y, hy, _, rfl⟩ := mem_enum.1 h
  omega

theorem holds_enum (k : Nat) (P : Nat → Bool) : Holds k P (enum k P 0) := by
  intro x hx
  rw [eq_comm, Bool.eq_iff_iff, decide_eq_true_eq, mem_enum]
  constructor
  · rintro ⟨y, _, h, rfl⟩; simpa using h
  · intro h; exact ⟨x, hx, h, by omega⟩

/-- Trees for all the tries of a call. -/
theorem trees_any {β : Type} {k d : Nat} {P : Tr d → Nat → Bool} {rep : β → Tr d → Prop} {Ds : List (List Nat)} {Ts : List β}
    (h : List.Forall₂ (fun D n => ∃ t, rep n t ∧ D = enum k (P t) 0) Ds Ts) :
    ∃ ts, List.Forall₂ rep Ts ts ∧ List.Forall₂ (fun D t => Holds k (P t) D) Ds ts ∧ ∀ D ∈ Ds, ∀ x ∈ D, x < 2 ^ k := by
  induction h with
  | nil => exact ⟨[], .nil, .nil, by simp⟩
  | cons h1 _ ih =>
    obtain ⟨ts, h3, h4, h5⟩ := ih
    obtain ⟨t, h6, rfl⟩ := h1
    refine ⟨t :: ts, .cons h6 h3, .cons (holds_enum _ _) h4, ?_⟩
    intro D hD
    rcases List.mem_cons.1 hD with rfl | hD
    · exact fun x hx => enum_zero_lt hx
    · exact h5 D hD

end CBT
