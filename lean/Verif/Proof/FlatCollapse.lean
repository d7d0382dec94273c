import Verif.Proof.Built

/-!
# Run-encoded flat tries whose last level collapsed

`encodeRuns` moves the zeros of the deepest remaining level out of `bTrie`; the decoder then reads them past its end.
-/

namespace CBT

open Spec

theorem kids_index {d : Nat} : (f : List (Tr (d + 1))) → (j : Nat) → (s : Tr d) → (kids f)[j]? = some s →
    ∃ f1 t f2, f = f1 ++ t :: f2 ∧
      ((t.l = some s ∧ j = (kids f1).length) ∨ (t.r = some s ∧ j = (kids f1).length + t.l.toList.length))
  | [], j, s, h => by simp [kids] at h
  | t :: f, j, s, h => by
    rw [kids_cons] at h
    by_cases hj : j < (kidsOf t).length
    · rw [List.getElem?_append_left hj] at h
      refine ⟨[], t, f, rfl, ?_⟩
      revert h hj
      unfold kidsOf
      cases t.l with
      | none =>
        cases t.r with
        | none => simp
        | some s' => intro h hj; simp at hj; subst hj; right; simpa [kids] using h
      | some s1 =>
        cases t.r with
        | none => intro h hj; simp at hj; subst hj; left; simpa [kids] using h
        | some s' =>
          intro h hj
          simp at hj
          have : j = 0 ∨ j = 1 := by omega
          rcases this with rfl | rfl
          · left; simpa [kids] using h
          · right; simpa [kids] using h
    · rw [List.getElem?_append_right (by omega)] at h
      obtain ⟨f1, t1, f2, rfl, hk⟩ := kids_index f _ s h
      refine ⟨t :: f1, t1, f2, rfl, ?_⟩
      rw [kids_cons, List.length_append]
      rcases hk with ⟨h1, h2⟩ | ⟨h1, h2⟩
      · left; exact ⟨h1, by omega⟩
      · right; exact ⟨h1, by omega⟩

theorem bind_ok {α β : Type} {x : R α} {f : α → R β} {b : β} (h : (x >>= f) = .ok b) : ∃ a, x = .ok a ∧ f a = .ok b := by
  cases x with
  | error e => cases h
  | ok a => exact ⟨a, rfl, h⟩

/-- Both halves of a decoding step succeed if the step does. -/
theorem runsRecDecode_parts {n : Nav} {rem part id ℓ : Nat} {out out' : List Nat} {a b : Bool}
    (hn : n.getNode id ℓ = .ok (node2 a b)) (h : runsRecDecode n (rem + 1) out part id ℓ = .ok out') :
    (a = true → ∃ c o, n.getLeftChild id ℓ = .ok c ∧ runsRecDecode n rem out part c (ℓ + 1) = .ok o) ∧
    (b = true → ∃ c o p o', n.getRightChild id ℓ = .ok c ∧ runsRecDecode n rem o p c (ℓ + 1) = .ok o') := by
  rw [runsRecDecode, hn] at h
  constructor
  · intro ha
    subst ha
    cases b <;>
    · simp only [R_bind_ok, node2_tt, node2_tf] at h
      simp at h
      obtain ⟨c, hc, h⟩ := bind_ok h
      obtain ⟨o, ho, -⟩ := bind_ok h
      exact ⟨c, o, hc, ho⟩
  · intro hb
    subst hb
    cases a
    · simp only [R_bind_ok, node2_ft] at h
      simp at h
      obtain ⟨s, hs, h⟩ := bind_ok h
      obtain ⟨c, hc, h⟩ := bind_ok h
      exact ⟨c, _, _, out', hc, h⟩
    · simp only [R_bind_ok, node2_tt] at h
      simp at h
      obtain ⟨c, hc, h⟩ := bind_ok h
      obtain ⟨o, ho, h⟩ := bind_ok h
      obtain ⟨s, hs, h⟩ := bind_ok h
      obtain ⟨c, hc, h⟩ := bind_ok h
      exact ⟨c, o, _, out', hc, h⟩

/-- If the decoder succeeds on every node of a level, every deeper node could be read. -/
theorem decode_reads {n : Nav} {bits : BV} {D : Nat} {Q : Nat → Prop}
    (hget : ∀ id ℓ b0 b1 v, ℓ < D → bits[2 * id]? = some b0 → bits[2 * id + 1]? = some b1 → n.getNode id ℓ = .ok v →
      v = node2 b0 b1 ∧ Q (2 * id + 1))
    (hleft : ∀ id ℓ v, ℓ < D → bits[2 * id]? = some true → n.getLeftChild id ℓ = .ok v → v = (bits.take (2 * id + 1)).count true)
    (hright : ∀ id ℓ v, ℓ < D → bits[2 * id + 1]? = some true → n.getRightChild id ℓ = .ok v →
      v = (bits.take (2 * id + 2)).count true) :
    ∀ (d ℓ : Nat) (f : List (Tr d)) (P : BV) (m : Nat), ℓ + d = D → bits = P ++ flatBits d f → P.length = 2 * m →
      P.count true + 1 = m + f.length → f ≠ [] → leaves d f = [] →
      (∀ j, j < f.length → ∃ out part out', runsRecDecode n (d + 1) out part (m + j) ℓ = .ok out') → Q (bits.length - 1) := by
  intro d
  induction d with
  | zero =>
    intro ℓ f P m _ _ _ _ hf hl
    cases f with
    | nil => exact (hf rfl).elim
    | cons a f => simp [leaves] at hl
  | succ d ih =>
    intro ℓ f P m hℓ hb hP hc hf hl hdec
    have hℓD : ℓ < D := by omega
    have pos : ∀ (f1 : List (Tr (d + 1))) (t : Tr (d + 1)) (f2 : List (Tr (d + 1))), f = f1 ++ t :: f2 →
        bits[2 * (m + f1.length)]? = some t.l.isSome ∧ bits[2 * (m + f1.length) + 1]? = some t.r.isSome ∧
        (bits.take (2 * (m + f1.length) + 1)).count true = P.count true + (kids f1).length + t.l.toList.length ∧
        (bits.take (2 * (m + f1.length) + 2)).count true =
          P.count true + (kids f1).length + t.l.toList.length + t.r.toList.length := by
      intro f1 t f2 hf
      have hbits : bits = (P ++ bitsOf f1) ++ (t.l.isSome :: t.r.isSome :: (bitsOf f2 ++ flatBits d (kids f))) := by
        rw [hb, flatBits]; conv_lhs => rw [hf, bitsOf_append, bitsOf_cons]
        rw [← hf]; simp
      have hlen : (P ++ bitsOf f1).length = 2 * (m + f1.length) := by rw [List.length_append, length_bitsOf, hP]; omega
      refine ⟨?_, ?_, ?_, ?_⟩
      · rw [hbits, ← hlen, List.getElem?_append_right (Nat.le_refl _)]; simp
      · rw [hbits, ← hlen, List.getElem?_append_right (by omega)]; simp
      · rw [hbits, ← hlen, List.take_append]
        rw [List.take_of_length_le (by omega)]
        simp only [Nat.add_sub_cancel_left, List.take_succ_cons, List.take_zero, List.count_append, count_bitsOf]
        cases t.l <;> simp
      · rw [hbits, ← hlen, List.take_append]
        rw [List.take_of_length_le (by omega)]
        simp only [Nat.add_sub_cancel_left, List.take_succ_cons, List.take_zero, List.count_append, count_bitsOf]
        cases t.l <;> cases t.r <;> simp
    have node : ∀ j, j < f.length → ∃ v, n.getNode (m + j) ℓ = .ok v := by
      intro j hj
      obtain ⟨out, part, out', h⟩ := hdec j hj
      rw [runsRecDecode] at h
      obtain ⟨v, hv, -⟩ := bind_ok h
      exact ⟨v, hv⟩
    by_cases hk : kids f = []
    · have hpos : 0 < f.length := List.length_pos_iff.2 hf
      obtain ⟨f1, f2, hf', hj1⟩ := split_at (f := f) (j := f.length - 1) (t := f[f.length - 1])
        (List.getElem?_eq_getElem (by omega))
      obtain ⟨h0, h1, -, -⟩ := pos _ _ _ hf'
      obtain ⟨v, hv⟩ := node (f.length - 1) (by omega)
      rw [hj1] at h0 h1
      have := (hget _ _ _ _ _ hℓD h0 h1 hv).2
      have hfb : ∀ d, flatBits d ([] : List (Tr d)) = [] := by
        intro d; induction d with
        | zero => rfl
        | succ d ih => simpa [flatBits] using ih
      have hlen : bits.length = 2 * (m + f.length) := by
        rw [hb, flatBits, hk, hfb, List.append_nil, List.length_append, length_bitsOf, hP]; omega
      rw [hlen]
      rwa [show 2 * (m + (f.length - 1)) + 1 = 2 * (m + f.length) - 1 by omega] at this
    · refine ih (ℓ + 1) (kids f) (P ++ bitsOf f) (m + f.length) (by omega)
        (by rw [hb, flatBits, List.append_assoc]) (by rw [List.length_append, length_bitsOf, hP]; omega)
        (by rw [List.count_append, count_bitsOf]; omega) hk hl ?_
      intro j hj
      obtain ⟨f1, t, f2, hf', hs⟩ := kids_index f j _ (List.getElem?_eq_getElem hj)
      obtain ⟨h0, h1, c1, c2⟩ := pos _ _ _ hf'
      have hlt : f1.length < f.length := by rw [hf']; simp
      obtain ⟨out, part, out', h⟩ := hdec f1.length hlt
      obtain ⟨v, hv⟩ := node f1.length hlt
      obtain ⟨rfl, -⟩ := hget _ _ _ _ _ hℓD h0 h1 hv
      obtain ⟨pl, pr⟩ := runsRecDecode_parts hv h
      rcases hs with ⟨hs, hj⟩ | ⟨hs, hj⟩
      · obtain ⟨c, o, hc', ho⟩ := pl (by rw [hs]; rfl)
        have e := hleft _ _ _ hℓD (by rw [h0, hs]; rfl) hc'
        rw [c1, hs] at e
        simp only [Option.toList_some, List.length_singleton] at e
        rw [show m + f.length + j = c by omega]
        exact ⟨_, _, _, ho⟩
      · obtain ⟨c, o, p, o', hc', ho⟩ := pr (by rw [hs]; rfl)
        have e := hright _ _ _ hℓD (by rw [h1, hs]; rfl) hc'
        rw [c2, hs] at e
        simp only [Option.toList_some, List.length_singleton] at e
        rw [show m + f.length + j = c by omega]
        exact ⟨_, _, _, ho⟩

/-- A read that succeeds gives the virtual bit. -/
theorem bvGet_virtual_of_ok {pad z : Nat} {v : BV} {i : Nat} {b b' : Bool}
    (h : (v ++ List.replicate z false)[i]? = some b) (h' : bvGet pad v i = .ok b') : b' = b ∧ i < v.length + pad := by
  unfold bvGet at h'
  by_cases hi : i < v.length
  · rw [List.getElem?_append_left hi] at h
    rw [h] at h'
    simp at h'
    exact ⟨h'.symm, by omega⟩
  · rw [List.getElem?_append_right (by omega), List.getElem?_replicate] at h
    rw [List.getElem?_eq_none (by omega)] at h'
    split at h
    · simp only [Option.some.injEq] at h
      simp only at h'
      split at h'
      · rename_i hlt
        simp only [Except.ok.injEq] at h'
        exact ⟨by rw [← h', ← h], hlt⟩
      · cases h'
    · simp at h

theorem rank1_virtual_of_ok {z : Nat} {v : BV} {i r : Nat} (h : rank1 v i = .ok r) :
    r = ((v ++ List.replicate z false).take i).count true := by
  unfold rank1 at h
  split at h
  · rename_i hi
    rw [List.take_append_of_le_length hi]
    simpa using h.symm
  · cases h

/-- A run-encoded flat trie whose last level collapsed. -/
def collapsed (d k : Nat) (b : BV) (z : Nat) : FlatTrie :=
  { height := d + 1, heightWithRuns := k, runsEncoded := true, emptyTrie := false, bTrie := b
    lastLevel := List.replicate (z + 1) false }

/-- What run encoding a built flat trie gives. The trie can be read iff the zeros that `encodeRuns` moved out of `bTrie` are
readable after its end. -/
theorem flatOf_encode_cases {d pad : Nat} {T : Tr d} {hw : Nat} {runs : Bool} (hne : NE 1 d T) :
    ∃ t', (flatOf d T hw runs).encodeRuns pad = .ok t' ∧ t'.height = d + 1 ∧ t'.runsEncoded = true ∧ t'.emptyTrie = false ∧
      (leaves d [prune 1 d T] ≠ [] ∨ t'.lastLevel.length ≤ pad →
        Rep (t'.nav pad) (leafF (t'.nav pad)) d 0 (prune 1 d T) 0) ∧
      (leaves d [prune 1 d T] = [] → pad < t'.lastLevel.length → ∀ out out', t'.decode pad out ≠ .ok out') := by
  rcases flat_encodeRuns_ok (pad := pad) rfl (flatOf_rep (hw := hw) (runs := runs) hne.nz) hne with
    ⟨hl, he⟩ | ⟨hl, b, z, k, hb, hk, he⟩
  · exact ⟨_, he, rfl, rfl, rfl, fun _ => flatOf_rep hne.prune_nz, fun h => (hl h).elim⟩
  · refine ⟨_, he, rfl, rfl, rfl, ?_, ?_⟩
    · rintro (h | h)
      · exact (h hl).elim
      · exact flat_rep (z := z + 1) rfl hb (by simpa using h) (fun h => by omega) (fun _ => hl) hne.prune_nz
    · intro _ hpad out out' hdec
      rw [FlatTrie.decode] at hdec
      simp only [if_true, flatOf, Bool.false_eq_true, if_false] at hdec
      have hlast := decode_reads (bits := flatBits d [prune 1 d T]) (D := d) (Q := fun i => i < b.length + pad)
        (n := (collapsed d k b z).nav pad) ?_ ?_ ?_ d 0 [prune 1 d T] [] 0 (by omega) (by simp) rfl (by simp)
          (by simp) hl ?_
      · rw [hb] at hlast
        simp at hlast hpad
        omega
      · intro id ℓ b0 b1 v hℓ h0 h1 hv
        rw [hb] at h0 h1
        simp only [FlatTrie.nav, FlatTrie.getNode, collapsed] at hv
        rw [if_pos (by omega)] at hv
        obtain ⟨x0, hx0, hv⟩ := bind_ok hv
        obtain ⟨x1, hx1, hv⟩ := bind_ok hv
        obtain ⟨rfl, -⟩ := bvGet_virtual_of_ok h0 hx0
        obtain ⟨rfl, hlt⟩ := bvGet_virtual_of_ok h1 hx1
        exact ⟨by simpa using hv.symm, hlt⟩
      · intro id ℓ v hℓ h0 hv
        rw [hb]
        simp only [FlatTrie.nav, FlatTrie.getLeftChild, collapsed] at hv
        rw [if_neg (by omega)] at hv
        exact rank1_virtual_of_ok hv
      · intro id ℓ v hℓ h0 hv
        rw [hb]
        simp only [FlatTrie.nav, FlatTrie.getRightChild, collapsed] at hv
        rw [if_neg (by omega)] at hv
        exact rank1_virtual_of_ok hv
      · intro j hj
        have : j = 0 := by simp at hj; omega
        subst this
        exact ⟨_, _, _, hdec⟩

theorem exists_has {b : Nat} : (d : Nat) → (T : Tr d) → NE b d T → ∃ x < 2 ^ (d + b), has b d T x = true
  | 0, T, h => by
    obtain ⟨i, hi, hb⟩ : ∃ i, i < 2 ^ b ∧ Nat.testBit T.word i = true := by
      by_contra hc
      have : T.word = 0 := by
        apply Nat.eq_of_testBit_eq
        intro i
        rw [Nat.zero_testBit]
        by_cases hi : i < 2 ^ b
        · by_contra h'
          exact hc ⟨i, hi, by simpa using h'⟩
        · exact Nat.testBit_lt_two_pow (h.2.trans_le (Nat.pow_le_pow_right (by omega) (by omega)))
      have := h.1; omega
    exact ⟨i, by simpa using hi, hb⟩
  | d + 1, T, h => by
    have hp := pow_split d b
    cases hl : T.l with
    | some s =>
      obtain ⟨x, hx, hs⟩ := exists_has d s (h.2.1 s hl)
      exact ⟨x, by omega, by simp only [has]; rw [if_pos hx, hl]; exact hs⟩
    | none =>
      cases hr : T.r with
      | some s =>
        obtain ⟨x, hx, hs⟩ := exists_has d s (h.2.2 s hr)
        exact ⟨2 ^ (d + b) + x, by omega, by rw [has_hi, hr]; exact hs⟩
      | none => have := h.1; simp [Tr.bare, hl, hr] at this

theorem full_of_has {b : Nat} : (d : Nat) → (T : Tr d) → NE b d T → (∀ x < 2 ^ (d + b), has b d T x = true) → full b d T = true
  | 0, T, h, hx => by
    rw [full, decide_eq_true_iff]
    apply Nat.eq_of_testBit_eq
    intro i
    by_cases hi : i < 2 ^ b
    · rw [testBit_full hi]
      exact hx i (by simpa using hi)
    · have e : 2 ^ 2 ^ b ≤ 2 ^ i := Nat.pow_le_pow_right (by omega) (by omega)
      rw [Nat.testBit_lt_two_pow (h.2.trans_le e), Nat.testBit_lt_two_pow (by have := Nat.two_pow_pos (2 ^ b); omega)]
  | d + 1, T, h, hx => by
    have hp := pow_split d b
    have hpos := Nat.two_pow_pos (d + b)
    rw [full]
    cases hl : T.l with
    | none =>
      have := hx 0 (by omega)
      simp only [has] at this
      rw [if_pos hpos, hl] at this
      simp at this
    | some s =>
      cases hr : T.r with
      | none =>
        have := hx (2 ^ (d + b) + 0) (by omega)
        rw [has_hi, hr] at this
        simp at this
      | some s' =>
        rw [Option.any_some, Option.any_some, full_of_has d s (h.2.1 s hl), full_of_has d s' (h.2.2 s' hr)]
        · rfl
        · intro x hx'
          have := hx (2 ^ (d + b) + x) (by omega)
          rwa [has_hi, hr] at this
        · intro x hx'
          have := hx x (by omega)
          simp only [has] at this
          rwa [if_pos hx', hl] at this

theorem leaves_pair {d : Nat} (t : Tr (d + 1)) : leaves (d + 1) [t] = leaves d t.l.toList ++ leaves d t.r.toList := by
  simp [leaves, kids, kidsOf, leaves_append]

/-- Conversely to `prune_no_leaves`: if every populated aligned block of `2^(b+1)` numbers is full, no leaf is left. -/
theorem leaves_nil_of_full {b : Nat} : (d : Nat) → (T : Tr d) → NE b d T → 1 ≤ d →
    (∀ x y, x < 2 ^ (d + b) → y / 2 ^ (b + 1) = x / 2 ^ (b + 1) → has b d T x = true → has b d T y = true) →
    leaves d [prune b d T] = []
  | 0, _, _, h, _ => by omega
  | 1, T, hne, _, h => by
    refine leaves_full (full_of_has 1 T hne fun y hy => ?_)
    obtain ⟨x, hx, hT⟩ := exists_has 1 T hne
    refine h x y hx ?_ hT
    rw [Nat.add_comm] at hx hy
    rw [Nat.div_eq_of_lt hx, Nat.div_eq_of_lt hy]
  | d + 2, T, hne, _, h => by
    have hp : 2 ^ (d + 2 + b) = 2 ^ (d + 1 + b) + 2 ^ (d + 1 + b) := pow_split (d + 1) b
    cases hf : full b (d + 2) T with
    | true => exact leaves_full hf
    | false =>
      rw [prune_not_full hf]
      have hl : ∀ s, T.l = some s → leaves (d + 1) [prune b (d + 1) s] = [] := by
        intro s hs
        refine leaves_nil_of_full (d + 1) s (hne.2.1 s hs) (by omega) fun x y hx hy hT => ?_
        have hy' := sameBlock_lt hy (by omega : b + 1 ≤ d + 1 + b) hx
        have := h x y (by omega) hy (by simp only [has] at hT ⊢; rw [if_pos hx, hs]; exact hT)
        rw [has, if_pos hy', hs] at this
        exact this
      have hr : ∀ s, T.r = some s → leaves (d + 1) [prune b (d + 1) s] = [] := by
        intro s hs
        refine leaves_nil_of_full (d + 1) s (hne.2.2 s hs) (by omega) fun x y hx hy hT => ?_
        have := h (2 ^ (d + 1 + b) + x) (2 ^ (d + 1 + b) + y) (by omega) ((sameBlock_add (by omega)).2 hy)
          (by rw [has_hi, hs]; exact hT)
        rw [has_hi, hs] at this
        exact this
      rw [leaves_pair, Tr.l_mk, Tr.r_mk, List.append_eq_nil_iff]
      constructor
      · cases h1 : T.l with
        | none => exact leaves_nil _
        | some s => exact hl s h1
      · cases h1 : T.r with
        | none => exact leaves_nil _
        | some s => exact hr s h1

end CBT
