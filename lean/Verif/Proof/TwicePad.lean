import Verif.Proof.TwiceSets

/-!
# Reading a doubly run-encoded trie when zeros can be read after the end of a vector: trees

A successful decoder reads some tree `T'`. If it emits the set of the pruned tree `T`, then `T'` has every node of `T` that has a
child; if it has no more of those, the two have the same shape.
-/

namespace CBT

/-- No node with a child stands for a full block. -/
def Tight (b : Nat) : (d : Nat) → Tr d → Prop
  | 0, _ => True
  | d + 1, t => (t.bare = false → ∃ x < 2 ^ (d + 1 + b), hasR b (d + 1) t x = false) ∧
      (∀ s, t.l = some s → Tight b d s) ∧ (∀ s, t.r = some s → Tight b d s)

theorem tight_prune {b : Nat} : (d : Nat) → (T : Tr d) → NE b d T → Tight b d (prune b d T)
  | 0, _, _ => trivial
  | d + 1, T, hne => by
    cases hf : full b (d + 1) T with
    | true =>
      rw [prune_full hf]
      exact ⟨fun h => by simp [Tr.bare] at h, fun s h => by simp at h, fun s h => by simp at h⟩
    | false =>
      refine ⟨fun _ => ?_, ?_, ?_⟩
      · by_contra hc
        push Not at hc
        have := full_of_has (d + 1) T hne fun x hx => by
          have := hc x hx
          rw [hasR_prune hne x hx] at this
          simpa using this
        rw [this] at hf
        cases hf
      · intro s h
        rw [prune_not_full hf, Tr.l_mk] at h
        obtain ⟨a, ha, rfl⟩ := Option.map_eq_some_iff.1 h
        exact tight_prune d a (hne.2.1 a ha)
      · intro s h
        rw [prune_not_full hf, Tr.r_mk] at h
        obtain ⟨a, ha, rfl⟩ := Option.map_eq_some_iff.1 h
        exact tight_prune d a (hne.2.2 a ha)

theorem exists_word {b w : Nat} (h : 0 < w ∧ w < 2 ^ 2 ^ b) : ∃ i < 2 ^ b, Nat.testBit w i = true := by
  obtain ⟨x, hx, he⟩ := exists_has (b := b) 0 (Tr.ofWord w) h
  exact ⟨x, by simpa using hx, he⟩

theorem exists_hasR {b : Nat} : (d : Nat) → (T : Tr d) → NZ b d T → ∃ x < 2 ^ (d + b), hasR b d T x = true
  | 0, T, h => by
    obtain ⟨x, hx, he⟩ := exists_word h
    exact ⟨x, by simpa using hx, he⟩
  | d + 1, T, h => by
    have hp := pow_split d b
    have hpos := Nat.two_pow_pos (d + b)
    cases hb : T.bare with
    | true => exact ⟨0, by omega, hasR_bare hb⟩
    | false =>
      cases hl : T.l with
      | some s =>
        obtain ⟨x, hx, hs⟩ := exists_hasR d s (h.1 s hl)
        exact ⟨x, by omega, by rw [hasR_lo hx hb, hl]; exact hs⟩
      | none =>
        cases hr : T.r with
        | some s =>
          obtain ⟨x, hx, hs⟩ := exists_hasR d s (h.2 s hr)
          exact ⟨2 ^ (d + b) + x, by omega, by rw [hasR_hi hb, hr]; exact hs⟩
        | none => simp [Tr.bare, hl, hr] at hb

/-- `t'` has every node of `t` that has a child, and something full where `t` has a node without. -/
def Ext (b : Nat) : (d : Nat) → Tr d → Tr d → Prop
  | 0, t, t' => ∀ x < 2 ^ b, Nat.testBit t.word x = Nat.testBit t'.word x
  | d + 1, t, t' => (t.bare = true ∧ ∀ x < 2 ^ (d + 1 + b), hasR b (d + 1) t' x = true) ∨
      (t.bare = false ∧ t.l.isSome = t'.l.isSome ∧ t.r.isSome = t'.r.isSome ∧
        (∀ s s', t.l = some s → t'.l = some s' → Ext b d s s') ∧ (∀ s s', t.r = some s → t'.r = some s' → Ext b d s s'))

theorem isSome_of_any {α : Type} {o : Option α} {f : α → Bool} (h : o.any f = true) : o.isSome = true := by
  cases o with
  | none => simp at h
  | some a => rfl

theorem ext_of_hasR {b : Nat} : (d : Nat) → (T T' : Tr d) → NZ b d T → NZ b d T' → Tight b d T →
    (∀ x < 2 ^ (d + b), hasR b d T x = hasR b d T' x) → Ext b d T T'
  | 0, T, T', _, _, _, h => fun x hx => h x (by simpa using hx)
  | d + 1, T, T', hz, hz', ht, h => by
    have hp := pow_split d b
    have hpos := Nat.two_pow_pos (d + b)
    cases hb : T.bare with
    | true => exact Or.inl ⟨hb, fun x hx => by rw [← h x hx, hasR_bare hb]⟩
    | false =>
      have hb' : T'.bare = false := by
        by_contra hc
        obtain ⟨x, hx, he⟩ := ht.1 hb
        rw [h x hx, hasR_bare (by simpa using hc)] at he
        cases he
      have hlo : ∀ x < 2 ^ (d + b), T.l.any (fun t => hasR b d t x) = T'.l.any (fun t => hasR b d t x) := by
        intro x hx
        rw [← hasR_lo hx hb, ← hasR_lo hx hb', h x (by omega)]
      have hhi : ∀ x < 2 ^ (d + b), T.r.any (fun t => hasR b d t x) = T'.r.any (fun t => hasR b d t x) := by
        intro x hx
        rw [← hasR_hi hb, ← hasR_hi hb', h _ (by omega)]
      have key : ∀ o o' : Option (Tr d), (∀ s, o = some s → NZ b d s) → (∀ s, o' = some s → NZ b d s) →
          (∀ s, o = some s → Tight b d s) →
          (∀ x < 2 ^ (d + b), o.any (fun t => hasR b d t x) = o'.any (fun t => hasR b d t x)) →
          o.isSome = o'.isSome ∧ ∀ s s', o = some s → o' = some s' → Ext b d s s' := by
        intro o o' k1 k2 k3 k4
        cases o with
        | none =>
          cases o' with
          | none => simp
          | some s' =>
            obtain ⟨x, hx, he⟩ := exists_hasR d s' (k2 s' rfl)
            have := k4 x hx
            simp [he] at this
        | some s =>
          cases o' with
          | none =>
            obtain ⟨x, hx, he⟩ := exists_hasR d s (k1 s rfl)
            have := k4 x hx
            simp [he] at this
          | some s' =>
            refine ⟨rfl, fun a a' ha ha' => ?_⟩
            obtain rfl := Option.some.inj ha
            obtain rfl := Option.some.inj ha'
            exact ext_of_hasR d s s' (k1 s rfl) (k2 s' rfl) (k3 s rfl) fun x hx => by simpa using k4 x hx
      obtain ⟨l1, l2⟩ := key T.l T'.l hz.1 hz'.1 ht.2.1 hlo
      obtain ⟨r1, r2⟩ := key T.r T'.r hz.2 hz'.2 ht.2.2 hhi
      exact Or.inr ⟨hb, l1, r1, l2, r2⟩

/-- The number of nodes with a child. -/
def solidN : (d : Nat) → Tr d → Nat
  | 0, _ => 0
  | d + 1, t => (if t.bare then 0 else 1) + ((t.l.map (solidN d)).getD 0 + (t.r.map (solidN d)).getD 0)

/-- The same nodes, apart from the leaf words. -/
def Alike : (d : Nat) → Tr d → Tr d → Prop
  | 0, _, _ => True
  | d + 1, t, t' => t.l.isSome = t'.l.isSome ∧ t.r.isSome = t'.r.isSome ∧
        (∀ s s', t.l = some s → t'.l = some s' → Alike d s s') ∧ (∀ s s', t.r = some s → t'.r = some s' → Alike d s s')

theorem Ext.solidN_le {b : Nat} : {d : Nat} → {T T' : Tr d} → Ext b d T T' →
    solidN d T ≤ solidN d T' ∧ (solidN d T' ≤ solidN d T → Alike d T T')
  | 0, _, _, _ => ⟨Nat.le_refl _, fun _ => trivial⟩
  | d + 1, T, T', h => by
    rcases h with ⟨hb, -⟩ | ⟨hb, hl, hr, el, er⟩
    · obtain ⟨e1, e2⟩ := Tr.bare_eq hb
      have h0 : solidN (d + 1) T = 0 := by simp [solidN, hb, e1, e2]
      refine ⟨by omega, fun hle => ?_⟩
      have hb' : T'.bare = true := by
        by_contra hc
        rw [h0] at hle
        simp only [solidN] at hle
        rw [if_neg hc] at hle
        omega
      obtain ⟨e3, e4⟩ := Tr.bare_eq hb'
      exact ⟨by rw [e1, e3], by rw [e2, e4], fun s s' h => by simp [e1] at h, fun s s' h => by simp [e2] at h⟩
    · have hb' : T'.bare = false := by
        rw [Tr.bare] at hb ⊢
        rw [← Option.not_isSome, ← Option.not_isSome] at hb ⊢
        rwa [← hl, ← hr]
      have key : ∀ o o' : Option (Tr d), o.isSome = o'.isSome → (∀ s s', o = some s → o' = some s' → Ext b d s s') →
          (o.map (solidN d)).getD 0 ≤ (o'.map (solidN d)).getD 0 ∧
          ((o'.map (solidN d)).getD 0 ≤ (o.map (solidN d)).getD 0 → ∀ s s', o = some s → o' = some s' → Alike d s s') := by
        intro o o' h1 h2
        cases o with
        | none =>
          cases o' with
          | none => simp
          | some s' => simp at h1
        | some s =>
          cases o' with
          | none => simp at h1
          | some s' =>
            have ih := Ext.solidN_le (h2 s s' rfl rfl)
            refine ⟨by simpa using ih.1, fun hle a a' ha ha' => ?_⟩
            obtain rfl := Option.some.inj ha
            obtain rfl := Option.some.inj ha'
            exact ih.2 (by simpa using hle)
      obtain ⟨l1, l2⟩ := key _ _ hl el
      obtain ⟨r1, r2⟩ := key _ _ hr er
      simp only [solidN, hb, hb', Bool.false_eq_true, if_false]
      exact ⟨by omega, fun hle => ⟨hl, hr, l2 (by omega), r2 (by omega)⟩⟩

theorem Ext.leaves_eq {b : Nat} : {d : Nat} → {T T' : Tr d} → Ext b d T T' → NZ b d T → NZ b d T' → Alike d T T' → T = T'
  | 0, T, T', h, hz, hz', _ => by
    change T.word = T'.word
    apply Nat.eq_of_testBit_eq
    intro i
    by_cases hi : i < 2 ^ b
    · exact h i hi
    · have e : 2 ^ 2 ^ b ≤ 2 ^ i := Nat.pow_le_pow_right (by omega) (by omega)
      rw [Nat.testBit_lt_two_pow (hz.2.trans_le e), Nat.testBit_lt_two_pow (hz'.2.trans_le e)]
  | d + 1, T, T', h, hz, hz', ha => by
    obtain ⟨a1, a2, a3, a4⟩ := ha
    rw [← Tr.eta T, ← Tr.eta T']
    rcases h with ⟨hb, -⟩ | ⟨hb, hl, hr, el, er⟩
    · obtain ⟨e1, e2⟩ := Tr.bare_eq hb
      rw [e1] at a1
      rw [e2] at a2
      have e3 : T'.l = none := by simpa using a1.symm
      have e4 : T'.r = none := by simpa using a2.symm
      rw [e1, e2, e3, e4]
    · have key : ∀ o o' : Option (Tr d), o.isSome = o'.isSome → (∀ s s', o = some s → o' = some s' → Ext b d s s') →
          (∀ s, o = some s → NZ b d s) → (∀ s, o' = some s → NZ b d s) →
          (∀ s s', o = some s → o' = some s' → Alike d s s') → o = o' := by
        intro o o' h1 h2 h3 h4 h5
        cases o with
        | none =>
          cases o' with
          | none => rfl
          | some s' => simp at h1
        | some s =>
          cases o' with
          | none => simp at h1
          | some s' => rw [Ext.leaves_eq (h2 s s' rfl rfl) (h3 s rfl) (h4 s' rfl) (h5 s s' rfl rfl)]
      rw [key _ _ hl el hz.1 hz'.1 a3, key _ _ hr er hz.2 hz'.2 a4]

/-- A tree that stands for the same set and has no more nodes with a child is the same tree. -/
theorem tree_unique {b d : Nat} {T T' : Tr d} (hz : NZ b d T) (hz' : NZ b d T') (ht : Tight b d T)
    (h : ∀ x < 2 ^ (d + b), hasR b d T x = hasR b d T' x) : solidN d T ≤ solidN d T' ∧ (solidN d T' ≤ solidN d T → T = T') := by
  have he := ext_of_hasR d T T' hz hz' ht h
  exact ⟨he.solidN_le.1, fun hle => he.leaves_eq hz hz' (he.solidN_le.2 hle)⟩

/-! ## Counting nodes with a child -/

theorem solidN_forest : (d : Nat) → (f : List (Tr d)) → (nodeLevelsS d f).flatten.length = 2 * (f.map (solidN d)).sum
  | 0, f => by
    rw [nodeLevelsS]
    induction f with
    | nil => rfl
    | cons a f ih => simp [solidN]
  | d + 1, f => by
    rw [nodeLevelsS, List.flatten_cons, List.length_append, solidN_forest d (kids f), solidBits, length_bitsOf]
    induction f with
    | nil => rfl
    | cons a f ih =>
      rw [kids_cons, List.map_append, List.sum_append, List.map_cons, List.sum_cons, List.filter_cons]
      have hk : ((kidsOf a).map (solidN d)).sum = (a.l.map (solidN d)).getD 0 + (a.r.map (solidN d)).getD 0 := by
        rw [kidsOf]; cases a.l <;> cases a.r <;> simp
      rw [hk, solidN]
      cases a.bare <;> simp <;> omega

/-! ## The tree a decoder reads -/

/-- The word a last-level node of a run-encoded trie stands for: the decoder takes `00` for two members. -/
def wordZ (b0 b1 : Bool) : Nat := if b0 || b1 then b0.toNat + 2 * b1.toNat else 3

/-- A last-level node as the decoder of run-encoded tries reads it. -/
def leafZ (n : Nav) (w id level : Nat) : Prop :=
  ∃ b0 b1, n.getNode id level = .ok (node2 b0 b1) ∧ (b0 = true → ∃ c, n.getLeftChild id level = .ok c) ∧
    (b1 = true → ∃ c, n.getRightChild id level = .ok c) ∧ w = wordZ b0 b1

/-- Nodes are two bits, and the children of a node are next to each other. -/
structure Adjacent (n : Nav) (D : Nat) : Prop where
  node : ∀ id ℓ v, n.getNode id ℓ = .ok v → ∃ b0 b1, v = node2 b0 b1
  next : ∀ id ℓ c c', ℓ < D → n.getNode id ℓ = .ok (node2 true true) → n.getLeftChild id ℓ = .ok c →
    n.getRightChild id ℓ = .ok c' → c' = c + 1

theorem shl1_eq {k s : Nat} (h : shl1 k = .ok s) : s = 2 ^ k := by
  unfold shl1 at h
  split at h
  · rw [Nat.one_shiftLeft] at h
    simpa using h.symm
  · cases h

theorem decode_node {n : Nav} {rem part id ℓ : Nat} {out out' : List Nat} (h : runsRecDecode n (rem + 1) out part id ℓ = .ok out') :
    ∃ v, n.getNode id ℓ = .ok v := by
  rw [runsRecDecode] at h
  obtain ⟨v, hv, -⟩ := bind_ok h
  exact ⟨v, hv⟩

theorem fast_decode_node {lg hu : Nat} {n : FNav} {rem part id ℓ : Nat} {out out' : List Nat}
    (h : fastRunsRecDecode lg hu n (rem + 1) out part id ℓ = .ok out') : ∃ v, n.getNode id ℓ = .ok v := by
  rw [fastRunsRecDecode] at h
  obtain ⟨v, hv, -⟩ := bind_ok h
  exact ⟨v, hv⟩

theorem not_bare_mk {d : Nat} {l r : Option (Tr d)} (h : l.isSome = true ∨ r.isSome = true) : (Tr.mk l r).bare = false := by
  rw [Tr.bare, Tr.l_mk, Tr.r_mk]
  cases l <;> cases r <;> simp at h ⊢

theorem decode_tree {n : Nav} {D : Nat} (hA : Adjacent n D) (hh : n.height = D + 1) (hD : D ≤ 62) :
    ∀ (d ℓ : Nat) (out : List Nat) (part id : Nat) (out' : List Nat), ℓ + d = D → 2 ^ (d + 1) ∣ part →
      runsRecDecode n (d + 1) out part id ℓ = .ok out' →
      ∃ T : Tr d, NZ 1 d T ∧ Rep n (leafZ n) d ℓ T id ∧ out' = out ++ enum (d + 1) (hasR 1 d T) part := by
  intro d
  induction d with
  | zero =>
    intro ℓ out part id out' hℓ hp h
    obtain ⟨v, hv⟩ := decode_node h
    obtain ⟨b0, b1, rfl⟩ := hA.node _ _ _ hv
    have hor : part ||| 1 = part + 1 := or_two_pow (k := 0) hp
    by_cases hab : (b0 || b1) = true
    · obtain ⟨o, l1, l2, r1, r2⟩ := runsRecDecode_halves hab hv h
      refine ⟨Tr.ofWord (wordZ b0 b1), ?_, ⟨b0, b1, hv, fun e => ?_, fun e => ?_, rfl⟩, ?_⟩
      · change 0 < wordZ b0 b1 ∧ wordZ b0 b1 < 2 ^ 2 ^ 1
        revert hab
        cases b0 <;> cases b1 <;> decide
      · obtain ⟨c, hc, -⟩ := l1 e
        exact ⟨c, hc⟩
      · obtain ⟨c, s, -, hc, -⟩ := r1 e
        exact ⟨c, hc⟩
      · have e1 : o = out ++ if b0 then [part] else [] := by
          cases b0 with
          | false => simpa using l2 rfl
          | true =>
            obtain ⟨c, -, e⟩ := l1 rfl
            rw [runsRecDecode] at e
            simpa using e.symm
        have e2 : out' = o ++ if b1 then [part + 1] else [] := by
          cases b1 with
          | false => simpa using r2 rfl
          | true =>
            obtain ⟨c, s, hs, -, e⟩ := r1 rfl
            rw [hh, show D + 1 - ℓ - 1 = 0 by omega] at hs
            obtain rfl := shl1_eq hs
            rw [runsRecDecode, Nat.pow_zero, hor] at e
            simpa using e.symm
        rw [e2, e1, show 0 + 1 = 1 from rfl, enum_wordR, Tr.word_ofWord, List.append_assoc]
        revert hab
        cases b0 <;> cases b1 <;> simp [wordZ] <;> decide
    · have e0 : b0 = false := by revert hab; cases b0 <;> simp
      have e1 : b1 = false := by revert hab; cases b1 <;> simp
      subst e0
      subst e1
      refine ⟨Tr.ofWord 3, (by decide : 0 < 3 ∧ 3 < 2 ^ 2 ^ 1), ⟨false, false, hv, by simp, by simp, rfl⟩, ?_⟩
      have := runsRecDecode_bare (rem := 0) (k := 1) (out := out) (P := hasR 1 0 (Tr.ofWord 3)) hv (by omega) (by omega) hp (by decide)
      rw [h] at this
      simpa using this
  | succ d ih =>
    intro ℓ out part id out' hℓ hp h
    obtain ⟨v, hv⟩ := decode_node h
    obtain ⟨b0, b1, rfl⟩ := hA.node _ _ _ hv
    by_cases hab : (b0 || b1) = true
    · obtain ⟨o, l1, l2, r1, r2⟩ := runsRecDecode_halves hab hv h
      have hL : ∃ l : Option (Tr d), l.isSome = b0 ∧ (∀ s, l = some s → NZ 1 d s ∧ ∃ c, n.getLeftChild id ℓ = .ok c ∧ Rep n (leafZ n) d (ℓ + 1) s c) ∧
          o = out ++ match l with | none => [] | some s => enum (d + 1) (hasR 1 d s) part := by
        cases b0 with
        | false => exact ⟨none, rfl, by simp, by simpa using l2 rfl⟩
        | true =>
          obtain ⟨c, hc, e⟩ := l1 rfl
          obtain ⟨s, h1, h2, h3⟩ := ih (ℓ + 1) _ _ _ _ (by omega) (dvd_lo hp) e
          refine ⟨some s, rfl, fun s' hs => ?_, h3⟩
          obtain rfl := Option.some.inj hs
          exact ⟨h1, c, hc, h2⟩
      have hR : ∃ r : Option (Tr d), r.isSome = b1 ∧ (∀ s, r = some s → NZ 1 d s ∧ ∃ c, n.getRightChild id ℓ = .ok c ∧ Rep n (leafZ n) d (ℓ + 1) s c) ∧
          out' = o ++ match r with | none => [] | some s => enum (d + 1) (hasR 1 d s) (part + 2 ^ (d + 1)) := by
        cases b1 with
        | false => exact ⟨none, rfl, by simp, by simpa using r2 rfl⟩
        | true =>
          obtain ⟨c, k, hk, hc, e⟩ := r1 rfl
          rw [hh, show D + 1 - ℓ - 1 = d + 1 by omega] at hk
          obtain rfl := shl1_eq hk
          rw [or_two_pow hp] at e
          obtain ⟨s, h1, h2, h3⟩ := ih (ℓ + 1) _ _ _ _ (by omega) (dvd_hi hp) e
          refine ⟨some s, rfl, fun s' hs => ?_, h3⟩
          obtain rfl := Option.some.inj hs
          exact ⟨h1, c, hc, h2⟩
      obtain ⟨l, hl1, hl2, hl3⟩ := hL
      obtain ⟨r, hr1, hr2, hr3⟩ := hR
      have hb : (Tr.mk l r).bare = false := not_bare_mk (by
        rw [hl1, hr1]
        revert hab
        cases b0 <;> cases b1 <;> simp)
      refine ⟨Tr.mk l r, ⟨fun s hs => (hl2 s hs).1, fun s hs => (hr2 s hs).1⟩, ⟨?_, ?_, ?_⟩, ?_⟩
      · rw [Tr.l_mk, Tr.r_mk, hl1, hr1]
        exact hv
      · intro s hs
        obtain ⟨-, c, hc, hR⟩ := hl2 s hs
        refine ⟨c, hc, hR, fun s' hs' => ?_⟩
        obtain ⟨-, c', hc', hR'⟩ := hr2 s' hs'
        rw [Tr.l_mk] at hs
        rw [Tr.r_mk] at hs'
        rw [hs] at hl1
        rw [hs'] at hr1
        rw [← hl1, ← hr1] at hv
        obtain rfl := hA.next id ℓ c c' (by omega) hv hc hc'
        exact hR'
      · intro s' hs'
        obtain ⟨-, c', hc', hR'⟩ := hr2 s' hs'
        exact ⟨c', hc', hR'⟩
      · rw [enum_hasR_node _ _ hb, hr3, hl3, List.append_assoc]
        rfl
    · have e0 : b0 = false := by revert hab; cases b0 <;> simp
      have e1 : b1 = false := by revert hab; cases b1 <;> simp
      subst e0
      subst e1
      refine ⟨Tr.mk none none, ⟨by simp, by simp⟩, ⟨hv, by simp, by simp⟩, ?_⟩
      have := runsRecDecode_bare (rem := d + 1) (k := d + 1 + 1) (out := out) (P := hasR 1 (d + 1) (Tr.mk none none)) hv (by omega)
        (by omega) hp fun x _ => hasR_bare rfl
      rw [h] at this
      simpa using this

theorem fast_decode_tree {lg hu : Nat} {n : FNav} {D : Nat} (hlg : lg ≤ 6) (hA : Adjacent n.toNav D) (hh : hu = D + lg) (hD : D + lg < 64)
    (hw : ∀ id w, n.getWord id = .ok w → 0 < w ∧ w < 2 ^ 2 ^ lg) :
    ∀ (d ℓ : Nat) (out : List Nat) (part id : Nat) (out' : List Nat), ℓ + d = D → 2 ^ (d + lg) ∣ part →
      fastRunsRecDecode lg hu n d out part id ℓ = .ok out' →
      ∃ T : Tr d, NZ lg d T ∧ Rep n.toNav (leafW lg n) d ℓ T id ∧ out' = out ++ enum (d + lg) (hasR lg d T) part := by
  intro d
  induction d with
  | zero =>
    intro ℓ out part id out' hℓ hp h
    rw [fastRunsRecDecode] at h
    obtain ⟨w, hv, h⟩ := bind_ok h
    have hw' := hw id w hv
    rw [emitWord_ok hlg out hw'.2] at h
    refine ⟨Tr.ofWord w, hw', ⟨hw', hv⟩, ?_⟩
    rw [enum_zeroWR]
    simpa using h.symm
  | succ d ih =>
    intro ℓ out part id out' hℓ hp h
    rw [show d + 1 + lg = d + lg + 1 by omega] at hp
    obtain ⟨v, hv⟩ := fast_decode_node h
    obtain ⟨b0, b1, rfl⟩ := hA.node _ _ _ hv
    by_cases hab : (b0 || b1) = true
    · obtain ⟨o, l1, l2, r1, r2⟩ := fastRunsRecDecode_halves hab hv h
      have hL : ∃ l : Option (Tr d), l.isSome = b0 ∧ (∀ s, l = some s → NZ lg d s ∧ ∃ c, n.getLeftChild id ℓ = .ok c ∧
          Rep n.toNav (leafW lg n) d (ℓ + 1) s c) ∧ o = out ++ match l with | none => [] | some s => enum (d + lg) (hasR lg d s) part := by
        cases b0 with
        | false => exact ⟨none, rfl, by simp, by simpa using l2 rfl⟩
        | true =>
          obtain ⟨c, hc, e⟩ := l1 rfl
          obtain ⟨s, h1, h2, h3⟩ := ih (ℓ + 1) _ _ _ _ (by omega) (dvd_lo hp) e
          refine ⟨some s, rfl, fun s' hs => ?_, h3⟩
          obtain rfl := Option.some.inj hs
          exact ⟨h1, c, hc, h2⟩
      have hR : ∃ r : Option (Tr d), r.isSome = b1 ∧ (∀ s, r = some s → NZ lg d s ∧ ∃ c, n.getRightChild id ℓ = .ok c ∧
          Rep n.toNav (leafW lg n) d (ℓ + 1) s c) ∧
          out' = o ++ match r with | none => [] | some s => enum (d + lg) (hasR lg d s) (part + 2 ^ (d + lg)) := by
        cases b1 with
        | false => exact ⟨none, rfl, by simp, by simpa using r2 rfl⟩
        | true =>
          obtain ⟨c, k, hk, hc, e⟩ := r1 rfl
          rw [hh, show D + lg - ℓ - 1 = d + lg by omega] at hk
          obtain rfl := shl1_eq hk
          rw [or_two_pow hp] at e
          obtain ⟨s, h1, h2, h3⟩ := ih (ℓ + 1) _ _ _ _ (by omega) (dvd_hi hp) e
          refine ⟨some s, rfl, fun s' hs => ?_, h3⟩
          obtain rfl := Option.some.inj hs
          exact ⟨h1, c, hc, h2⟩
      obtain ⟨l, hl1, hl2, hl3⟩ := hL
      obtain ⟨r, hr1, hr2, hr3⟩ := hR
      have hb : (Tr.mk l r).bare = false := not_bare_mk (by
        rw [hl1, hr1]
        revert hab
        cases b0 <;> cases b1 <;> simp)
      refine ⟨Tr.mk l r, ⟨fun s hs => (hl2 s hs).1, fun s hs => (hr2 s hs).1⟩, ⟨?_, ?_, ?_⟩, ?_⟩
      · rw [Tr.l_mk, Tr.r_mk, hl1, hr1]
        exact hv
      · intro s hs
        obtain ⟨-, c, hc, hR⟩ := hl2 s hs
        refine ⟨c, hc, hR, fun s' hs' => ?_⟩
        obtain ⟨-, c', hc', hR'⟩ := hr2 s' hs'
        rw [Tr.l_mk] at hs
        rw [Tr.r_mk] at hs'
        rw [hs] at hl1
        rw [hs'] at hr1
        rw [← hl1, ← hr1] at hv
        obtain rfl := hA.next id ℓ c c' (by omega) hv hc hc'
        exact hR'
      · intro s' hs'
        obtain ⟨-, c', hc', hR'⟩ := hr2 s' hs'
        exact ⟨c', hc', hR'⟩
      · rw [enum_hasR_node _ _ hb, hr3, hl3, List.append_assoc]
        rfl
    · have e0 : b0 = false := by revert hab; cases b0 <;> simp
      have e1 : b1 = false := by revert hab; cases b1 <;> simp
      subst e0
      subst e1
      refine ⟨Tr.mk none none, ⟨by simp, by simp⟩, ⟨hv, by simp, by simp⟩, ?_⟩
      rw [fastRunsRecDecode, hv] at h
      simp only [R_bind_ok, node2_ff, if_true] at h
      rw [hh, show D + lg - ℓ = d + 1 + lg by omega, fillRange_ok out (by omega) (by rw [show d + 1 + lg = d + lg + 1 by omega]; exact hp)
        (P := hasR lg (d + 1) (Tr.mk none none)) fun x _ => hasR_bare rfl] at h
      simpa using h.symm

/-! ## A decoder that stops early -/

/-- The tree of the set `{0}`. -/
def lowT : (d : Nat) → Tr d
  | 0 => Tr.ofWord 1
  | d + 1 => Tr.mk (some (lowT d)) none

theorem lowT_nz : (d : Nat) → NZ 1 d (lowT d)
  | 0 => (by decide : 0 < 1 ∧ 1 < 2 ^ 2 ^ 1)
  | d + 1 => ⟨fun s hs => by
      obtain rfl := Option.some.inj hs
      exact lowT_nz d, fun s hs => by simp [lowT] at hs⟩

theorem lowT_hasR : (d x : Nat) → x < 2 ^ (d + 1) → hasR 1 d (lowT d) x = decide (x = 0)
  | 0, x, hx => by
    have : x = 0 ∨ x = 1 := by omega
    rcases this with rfl | rfl <;> decide
  | d + 1, x, hx => by
    have hpos := Nat.two_pow_pos (d + 1)
    by_cases h : x < 2 ^ (d + 1)
    · rw [hasR_lo h rfl]
      exact lowT_hasR d x h
    · obtain ⟨y, rfl⟩ : ∃ y, x = 2 ^ (d + 1) + y := ⟨x - 2 ^ (d + 1), by omega⟩
      rw [hasR_hi rfl]
      simp [lowT]

theorem lowT_enum (d part : Nat) : enum (d + 1) (hasR 1 d (lowT d)) part = [part] := by
  refine enum_eq_of_sorted (by simp) fun y => ?_
  constructor
  · intro h
    exact ⟨0, Nat.two_pow_pos _, by rw [lowT_hasR d 0 (Nat.two_pow_pos _)]; rfl, by simpa using h⟩
  · rintro ⟨x, hx, h, rfl⟩
    rw [lowT_hasR d x hx] at h
    have : x = 0 := by simpa using h
    simp [this]

/-- Every node at depth `k` is the tree of `{0}`. -/
def Cut : (k d : Nat) → Tr d → Prop
  | 0, d, t => t = lowT d
  | _ + 1, 0, _ => True
  | k + 1, d + 1, t => (∀ s, t.l = some s → Cut k d s) ∧ (∀ s, t.r = some s → Cut k d s)

theorem decode_cut {n : Nav} (hA : ∀ id ℓ v, n.getNode id ℓ = .ok v → ∃ b0 b1, v = node2 b0 b1) (hD : n.height ≤ 63) :
    ∀ (k d ℓ : Nat) (out : List Nat) (part id : Nat) (out' : List Nat), ℓ + d + 1 = n.height → k ≤ d → 2 ^ (d + 1) ∣ part →
      runsRecDecode n k out part id ℓ = .ok out' →
      ∃ T : Tr d, NZ 1 d T ∧ Cut k d T ∧ out' = out ++ enum (d + 1) (hasR 1 d T) part := by
  intro k
  induction k with
  | zero =>
    intro d ℓ out part id out' hℓ hk hp h
    rw [runsRecDecode] at h
    refine ⟨lowT d, lowT_nz d, rfl, ?_⟩
    rw [lowT_enum]
    simpa using h.symm
  | succ k ih =>
    intro d ℓ out part id out' hℓ hk hp h
    obtain ⟨d, rfl⟩ : ∃ e, d = e + 1 := ⟨d - 1, by omega⟩
    obtain ⟨v, hv⟩ := decode_node h
    obtain ⟨b0, b1, rfl⟩ := hA _ _ _ hv
    by_cases hab : (b0 || b1) = true
    · obtain ⟨o, l1, l2, r1, r2⟩ := runsRecDecode_halves hab hv h
      have hL : ∃ l : Option (Tr d), l.isSome = b0 ∧ (∀ s, l = some s → NZ 1 d s ∧ Cut k d s) ∧
          o = out ++ match l with | none => [] | some s => enum (d + 1) (hasR 1 d s) part := by
        cases b0 with
        | false => exact ⟨none, rfl, by simp, by simpa using l2 rfl⟩
        | true =>
          obtain ⟨c, hc, e⟩ := l1 rfl
          obtain ⟨s, h1, h2, h3⟩ := ih d (ℓ + 1) _ _ _ _ (by omega) (by omega) (dvd_lo hp) e
          refine ⟨some s, rfl, fun s' hs => ?_, h3⟩
          obtain rfl := Option.some.inj hs
          exact ⟨h1, h2⟩
      have hR : ∃ r : Option (Tr d), r.isSome = b1 ∧ (∀ s, r = some s → NZ 1 d s ∧ Cut k d s) ∧
          out' = o ++ match r with | none => [] | some s => enum (d + 1) (hasR 1 d s) (part + 2 ^ (d + 1)) := by
        cases b1 with
        | false => exact ⟨none, rfl, by simp, by simpa using r2 rfl⟩
        | true =>
          obtain ⟨c, j, hj, hc, e⟩ := r1 rfl
          rw [show n.height - ℓ - 1 = d + 1 by omega] at hj
          obtain rfl := shl1_eq hj
          rw [or_two_pow hp] at e
          obtain ⟨s, h1, h2, h3⟩ := ih d (ℓ + 1) _ _ _ _ (by omega) (by omega) (dvd_hi hp) e
          refine ⟨some s, rfl, fun s' hs => ?_, h3⟩
          obtain rfl := Option.some.inj hs
          exact ⟨h1, h2⟩
      obtain ⟨l, hl1, hl2, hl3⟩ := hL
      obtain ⟨r, hr1, hr2, hr3⟩ := hR
      have hb : (Tr.mk l r).bare = false := not_bare_mk (by
        rw [hl1, hr1]
        revert hab
        cases b0 <;> cases b1 <;> simp)
      refine ⟨Tr.mk l r, ⟨fun s hs => (hl2 s hs).1, fun s hs => (hr2 s hs).1⟩, ⟨fun s hs => (hl2 s hs).2, fun s hs => (hr2 s hs).2⟩, ?_⟩
      rw [enum_hasR_node _ _ hb, hr3, hl3, List.append_assoc]
      rfl
    · have e0 : b0 = false := by revert hab; cases b0 <;> simp
      have e1 : b1 = false := by revert hab; cases b1 <;> simp
      subst e0
      subst e1
      refine ⟨Tr.mk none none, ⟨by simp, by simp⟩, ⟨by simp, by simp⟩, ?_⟩
      have := runsRecDecode_bare (rem := k) (k := d + 1 + 1) (out := out) (P := hasR 1 (d + 1) (Tr.mk none none)) hv (by omega)
        (by omega) hp fun x _ => hasR_bare rfl
      rw [h] at this
      simpa using this

/-- A decoder that stops right below the deepest nodes with a child misses part of the set. -/
theorem cut_misses : ∀ (k d : Nat) (f : List (Tr d)), (∀ t ∈ f, ∃ t', Ext 1 d t t' ∧ Cut (k + 1) d t') →
    ∀ B, (levelsS d f)[k]? = some B → B ≠ [] → (levelsS d f)[k + 1]? = some [] → False := by
  intro k
  induction k with
  | zero =>
    intro d f hf B h0 hB h1
    cases d with
    | zero => simp [levelsS] at h1
    | succ d =>
      simp only [levelsS, List.getElem?_cons_zero, Option.some.injEq] at h0
      rw [levelsS, List.getElem?_cons_succ] at h1
      obtain ⟨t, ht, hb⟩ : ∃ t ∈ f, t.bare = false := by
        by_contra hc
        push Not at hc
        apply hB
        rw [← h0, solidBits, List.filter_eq_nil_iff.2 (by intro t ht; simpa using hc t ht)]
        rfl
      obtain ⟨t', he, hc⟩ := hf t ht
      rcases he with ⟨hb', -⟩ | ⟨-, hl, hr, el, er⟩
      · rw [hb] at hb'; cases hb'
      · have key : ∀ s s', s ∈ kids f → Ext 1 d s s' → s' = lowT d → False := by
          rintro s s' hs hE rfl
          cases d with
          | zero =>
            simp only [levelsS, List.getElem?_cons_zero, Option.some.injEq] at h1
            have := congrArg List.length h1
            rw [length_leafBits] at this
            simp at this
            rw [this] at hs
            simp at hs
          | succ d =>
            simp only [levelsS, List.getElem?_cons_zero, Option.some.injEq, solidBits] at h1
            have hsb : s.bare = true := by
              by_contra hsb
              have hm : s ∈ (kids f).filter fun t => !t.bare := List.mem_filter.2 ⟨hs, by simpa using hsb⟩
              have e := congrArg List.length h1
              rw [length_bitsOf, List.length_nil] at e
              have := List.length_pos_of_mem hm
              omega
            rcases hE with ⟨-, hE⟩ | ⟨hE, -⟩
            · have h2 : 1 < 2 ^ (d + 1 + 1) := Nat.one_lt_two_pow (by omega)
              have := hE 1 h2
              rw [lowT_hasR (d + 1) 1 h2] at this
              simp at this
            · rw [hsb] at hE; cases hE
        cases h1l : t.l with
        | some s =>
          rw [h1l] at hl
          obtain ⟨s', hs'⟩ := Option.isSome_iff_exists.1 hl.symm
          exact key s s' (List.mem_flatMap.2 ⟨t, ht, by simp [kidsOf, h1l]⟩) (el s s' h1l hs') (hc.1 s' hs')
        | none =>
          cases h1r : t.r with
          | some s =>
            rw [h1r] at hr
            obtain ⟨s', hs'⟩ := Option.isSome_iff_exists.1 hr.symm
            exact key s s' (List.mem_flatMap.2 ⟨t, ht, by simp [kidsOf, h1r]⟩) (er s s' h1r hs') (hc.2 s' hs')
          | none => simp [Tr.bare, h1l, h1r] at hb
  | succ k ih =>
    intro d f hf B h0 hB h1
    cases d with
    | zero => simp [levelsS] at h1
    | succ d =>
      rw [levelsS, List.getElem?_cons_succ] at h0 h1
      refine ih d (kids f) (fun s hs => ?_) B h0 hB h1
      obtain ⟨t, ht, hs⟩ := List.mem_flatMap.1 hs
      obtain ⟨t', he, hc⟩ := hf t ht
      rcases he with ⟨hb, -⟩ | ⟨-, hl, hr, el, er⟩
      · obtain ⟨e1, e2⟩ := Tr.bare_eq hb
        simp [kidsOf, e1, e2] at hs
      · rcases List.mem_append.1 hs with hs | hs
        · have hs : t.l = some s := by simpa using hs
          rw [hs] at hl
          obtain ⟨s', hs'⟩ := Option.isSome_iff_exists.1 hl.symm
          exact ⟨s', el s s' hs hs', hc.1 s' hs'⟩
        · have hs : t.r = some s := by simpa using hs
          rw [hs] at hr
          obtain ⟨s', hs'⟩ := Option.isSome_iff_exists.1 hr.symm
          exact ⟨s', er s s' hs hs', hc.2 s' hs'⟩

end CBT
