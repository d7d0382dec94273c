import Verif.Proof.FastRep

/-!
# Run encoding of a represented trie
-/

namespace CBT

/-- Positions of the ones. -/
def onesFrom : Nat → BV → List Nat
  | _, [] => []
  | k, true :: b => k :: onesFrom (k + 1) b
  | k, false :: b => onesFrom (k + 1) b

def onesOf (b : BV) : List Nat := onesFrom 0 b

theorem onesFrom_append : (b c : BV) → (k : Nat) → onesFrom k (b ++ c) = onesFrom k b ++ onesFrom (k + b.length) c
  | [], c, k => by simp [onesFrom]
  | true :: b, c, k => by
    simp only [List.cons_append, onesFrom, onesFrom_append b c (k + 1), List.length_cons]
    rw [show k + 1 + b.length = k + (b.length + 1) by omega]
  | false :: b, c, k => by
    simp only [List.cons_append, onesFrom, onesFrom_append b c (k + 1), List.length_cons]
    rw [show k + 1 + b.length = k + (b.length + 1) by omega]

theorem onesOf_append (b c : BV) : onesOf (b ++ c) = onesOf b ++ onesFrom b.length c := by
  rw [onesOf, onesFrom_append, Nat.zero_add]; rfl

/-- Bits of every level of a forest, leaf bits last. -/
def levelsF : (d : Nat) → List (Tr d) → List BV
  | 0, f => [(f.map Tr.word).flatMap leafBits]
  | d + 1, f => bitsOf f :: levelsF d (kids f)

theorem levelsF_eq : (d : Nat) → (f : List (Tr d)) →
    levelsF d f = nodeLevels d f ++ [(leaves d f).flatMap leafBits]
  | 0, f => rfl
  | d + 1, f => by simp [levelsF, nodeLevels, leaves, levelsF_eq d (kids f)]

theorem length_levelsF (d : Nat) (f : List (Tr d)) : (levelsF d f).length = d + 1 := by
  simp [levelsF_eq, length_nodeLevels]

/-- Level-wise concatenation. -/
def cat (x y : List BV) : List BV := List.zipWith (· ++ ·) x y

theorem length_cat {x y : List BV} (h : x.length = y.length) : (cat x y).length = x.length := by
  simp [cat, h]

theorem levelsF_append : (d : Nat) → (f g : List (Tr d)) → levelsF d (f ++ g) = cat (levelsF d f) (levelsF d g)
  | 0, f, g => by simp [levelsF, cat]
  | d + 1, f, g => by
    rw [levelsF, bitsOf_append, kids_append, levelsF_append d]; rfl

theorem levelsF_nil : (d : Nat) → levelsF d [] = List.replicate (d + 1) []
  | 0 => rfl
  | d + 1 => by rw [levelsF, kids_nil, levelsF_nil d]; rfl

theorem cat_assoc : (x y z : List BV) → cat (cat x y) z = cat x (cat y z)
  | [], _, _ => by simp [cat]
  | _ :: _, [], _ => by simp [cat]
  | _ :: _, _ :: _, [] => by simp [cat]
  | a :: x, b :: y, c :: z => by
    have := cat_assoc x y z
    simp only [cat] at this
    simp [cat, this]

theorem cat_nils : (x : List BV) → (n : Nat) → x.length = n → cat x (List.replicate n []) = x
  | [], 0, _ => rfl
  | a :: x, n + 1, h => by
    have := cat_nils x n (by simpa using h)
    simp only [cat] at this
    simp [cat, List.replicate_succ, this]
  | [], n + 1, h => by simp at h
  | _ :: _, 0, h => by simp at h

theorem nils_cat : (x : List BV) → (n : Nat) → x.length = n → cat (List.replicate n []) x = x
  | [], 0, _ => rfl
  | a :: x, n + 1, h => by
    have := nils_cat x n (by simpa using h)
    simp only [cat] at this
    simp [cat, List.replicate_succ, this]
  | [], n + 1, h => by simp at h
  | _ :: _, 0, h => by simp at h

theorem cat_cons (a b : BV) (x y : List BV) : cat (a :: x) (b :: y) = (a ++ b) :: cat x y := rfl

/-! ## The arrays -/

theorem vGet_at {α : Type} {A B : List α} {x : α} {k : Nat} (h : A.length = k) : vGet (A ++ x :: B) k = .ok x := by
  subst h; exact vGet_append

theorem set_at {α : Type} {A B : List α} {x y : α} {k : Nat} (h : A.length = k) : (A ++ x :: B).set k y = A ++ y :: B := by
  subst h; simp

variable {A O : List (List Nat)} {P Q : List Nat} {o : List Nat} {p k level : Nat}

theorem push_at (hA : A.length = level) (hP : P.length = level) :
    RunSt.push { ones := A ++ o :: O, pos := P ++ p :: Q } level k =
      .ok { ones := A ++ (o ++ [p + k]) :: O, pos := P ++ p :: Q } := by
  simp [RunSt.push, vGet_at hA, vGet_at hP, set_at hA]

theorem inc_at (hP : P.length = level) {ones : List (List Nat)} :
    RunSt.inc { ones := ones, pos := P ++ p :: Q } level k = .ok { ones := ones, pos := P ++ (p + k) :: Q } := by
  simp [RunSt.inc, vGet_at hP, set_at hP]

theorem dec4_at (hP : P.length = level) {ones : List (List Nat)} :
    RunSt.dec4 { ones := ones, pos := P ++ p :: Q } level =
      .ok { ones := ones, pos := P ++ (if 4 ≤ p then p - 4 else p + 2 ^ 64 - 4) :: Q } := by
  simp [RunSt.dec4, vGet_at hP, set_at hP]

theorem pop4_at (hA : A.length = level) {pos o' : List Nat} (h : o = o' ++ [p, p + 1, p + 2, p + 3]) :
    RunSt.pop4 { ones := A ++ o :: O, pos := pos } level = .ok { ones := A ++ o' :: O, pos := pos } := by
  subst h
  simp [RunSt.pop4, vGet_at hA, set_at hA]

/-- The arrays that describe the levels `Bs` behind a prefix. -/
def stAt (A : List (List Nat)) (P : List Nat) (Bs : List BV) : RunSt :=
  { ones := A ++ Bs.map onesOf, pos := P ++ Bs.map List.length }

theorem stAt_cons (A : List (List Nat)) (P : List Nat) (B : BV) (Bs : List BV) :
    stAt A P (B :: Bs) = { ones := A ++ onesOf B :: Bs.map onesOf, pos := P ++ B.length :: Bs.map List.length } := rfl

theorem full_children {b d : Nat} {t : Tr (d + 1)} (h : full b (d + 1) t = true) :
    ∃ s s', t.l = some s ∧ t.r = some s' ∧ full b d s = true ∧ full b d s' = true := by
  simp only [full, Bool.and_eq_true] at h
  cases hl : t.l with
  | none => rw [hl] at h; simp at h
  | some s =>
    cases hr : t.r with
    | none => rw [hr] at h; simp at h
    | some s' =>
      rw [hl, hr] at h
      exact ⟨s, s', rfl, rfl, h.1, h.2⟩

/-- A full trie, once pruned, contributes two equal bits at its level and nothing below. -/
theorem levelsF_full {d : Nat} {t : Tr d} (h : full 1 d t = true) :
    levelsF d [prune 1 d t] = (if d = 0 then [true, true] else [false, false]) :: List.replicate d [] := by
  cases d with
  | zero =>
    have : t.word = 3 := by simpa [full] using h
    simp [levelsF, prune, this, leafBits]; decide
  | succ d =>
    rw [prune_full h]
    simp [levelsF, bitsOf, nodeBits, kids, kidsOf, levelsF_nil]

theorem stAt_shift (A : List (List Nat)) (P : List Nat) (o : List Nat) (p : Nat) (Bs : List BV) :
    ({ ones := A ++ o :: Bs.map onesOf, pos := P ++ p :: Bs.map List.length } : RunSt) = stAt (A ++ [o]) (P ++ [p]) Bs := by
  simp [stAt]

theorem full_one {b d : Nat} {t : Tr (d + 1)} (h : t.l = none ∨ t.r = none) : full b (d + 1) t = false := by
  rw [full]
  rcases h with h | h <;> rw [h] <;> simp

theorem writeCompress_ok {n : Nav} : ∀ (d level : Nat) (T : Tr d) (id : Nat) (A : List (List Nat)) (P : List Nat) (Bs : List BV),
    Rep n (leafF n) d level T id → NE 1 d T → A.length = level → P.length = level → Bs.length = d + 1 →
    writeCompress n d (stAt A P Bs) level id =
      .ok (stAt A P (cat Bs (levelsF d [prune 1 d T])), full 1 d T) := by
  intro d
  induction d with
  | zero =>
    intro level T id A P Bs hr hne hA hP hB
    obtain ⟨B, rfl⟩ : ∃ B, Bs = [B] := by
      match Bs, hB with
      | [B], _ => exact ⟨B, rfl⟩
    obtain ⟨hw, hn, _, _⟩ := hr
    have hw' : T.word = 1 ∨ T.word = 2 ∨ T.word = 3 := by omega
    rw [writeCompress, hn, stAt_cons]
    simp only [full]
    rcases hw' with h | h | h
    · rw [h]
      have : Nat.testBit 1 1 = false := rfl
      simp [node2, push_at hA hP, inc_at hP, stAt, cat, levelsF, prune, h, leafBits, onesOf_append, onesFrom, this]
    · rw [h]
      have : Nat.testBit 2 1 = true := rfl
      simp [node2, push_at hA hP, inc_at hP, stAt, cat, levelsF, prune, h, leafBits, onesOf_append, onesFrom, this]
    · rw [h]
      have : Nat.testBit 3 1 = true := rfl
      simp [node2, push_at hA hP, inc_at hP, stAt, cat, levelsF, prune, h, leafBits, onesOf_append, onesFrom, this]
  | succ d ih =>
    intro level T id A P Bs hr hne hA hP hB
    obtain ⟨B, Bs, rfl⟩ : ∃ B Bs', Bs = B :: Bs' := by
      match Bs, hB with
      | B :: Bs, _ => exact ⟨B, Bs, rfl⟩
    have hB' : Bs.length = d + 1 := by simpa using hB
    obtain ⟨hn, hl, hr⟩ := hr
    rw [writeCompress, hn]
    cases h1 : T.l with
    | none =>
      cases h2 : T.r with
      | none => have := hne.1; simp [Tr.bare, h1, h2] at this
      | some s' =>
        obtain ⟨c', hc', hR'⟩ := hr s' h2
        have e := ih (level + 1) s' c' (A ++ [onesOf B ++ [B.length + 1]]) (P ++ [B.length + 1]) Bs hR' (hne.2.2 s' h2)
          (by simp [hA]) (by simp [hP]) hB'
        have hf : full 1 (d + 1) T = false := full_one (Or.inl h1)
        simp only [Option.isSome, node2_ft, R_bind_ok, hc', stAt_cons, inc_at hP, push_at hA hP, Nat.add_zero, Nat.reduceEqDiff, if_false, if_true]
        rw [stAt_shift, e]
        simp only [← stAt_shift, inc_at hP, R_bind_ok, hf, prune_not_full hf, h1, h2, Option.map_none, Option.map_some]
        simp [levelsF, bitsOf, nodeBits, kids, kidsOf, cat_cons, stAt_cons, onesOf_append, onesFrom]
    | some s =>
      obtain ⟨c, hc, hR, hRs⟩ := hl s h1
      cases h2 : T.r with
      | none =>
        have e := ih (level + 1) s c (A ++ [onesOf B ++ [B.length]]) (P ++ [B.length]) Bs hR (hne.2.1 s h1)
          (by simp [hA]) (by simp [hP]) hB'
        have hf : full 1 (d + 1) T = false := full_one (Or.inr h2)
        simp only [Option.isSome, node2_tf, R_bind_ok, hc, stAt_cons, push_at hA hP, Nat.add_zero, Nat.reduceEqDiff, if_false, if_true]
        rw [stAt_shift, e]
        simp only [← stAt_shift, inc_at hP, R_bind_ok, hf, prune_not_full hf, h1, h2, Option.map_none, Option.map_some]
        simp [levelsF, bitsOf, nodeBits, kids, kidsOf, cat_cons, stAt_cons, onesOf_append, onesFrom]
      | some s' =>
        have hR' := hRs s' h2
        have e := ih (level + 1) s c (A ++ [onesOf B]) (P ++ [B.length]) Bs hR (hne.2.1 s h1)
          (by simp [hA]) (by simp [hP]) hB'
        have hlen : (cat Bs (levelsF d [prune 1 d s])).length = d + 1 := by
          rw [length_cat (by rw [hB', length_levelsF])]; exact hB'
        have e' := ih (level + 1) s' (c + 1) (A ++ [onesOf B]) (P ++ [B.length]) (cat Bs (levelsF d [prune 1 d s])) hR'
          (hne.2.2 s' h2) (by simp [hA]) (by simp [hP]) hlen
        simp only [Option.isSome, node2_tt, R_bind_ok, hc, stAt_cons, stAt_shift, e, e', if_true]
        have hfe : full 1 (d + 1) T = (full 1 d s && full 1 d s') := by rw [full, h1, h2]; rfl
        cases hff : full 1 d s && full 1 d s' with
        | true =>
          rw [hff] at hfe
          obtain ⟨f1, f2⟩ := Bool.and_eq_true_iff.1 hff
          obtain ⟨B1, Bs2, rfl⟩ : ∃ B Bs', Bs = B :: Bs' := by
            match Bs, hB' with
            | B :: Bs, _ => exact ⟨B, Bs, rfl⟩
          have hB2 : Bs2.length = d := by simpa using hB'
          rw [hfe, prune_full hfe, levelsF_full f1, levelsF_full f2]
          have hPl : (P ++ [B.length]).length = level + 1 := by simp [hP]
          have hAl : (A ++ [onesOf B]).length = level + 1 := by simp [hA]
          simp only [cat_cons, cat_nils Bs2 d hB2]
          have hfin : levelsF (d + 1) [Tr.mk none none] = [false, false] :: List.replicate (d + 1) [] := by
            simp [levelsF, bitsOf, nodeBits, kids, kidsOf, levelsF_nil]
          rw [hfin, cat_cons, cat_nils _ _ hB']
          by_cases hd0 : d = 0
          · subst hd0
            simp only [if_true, stAt_cons, dec4_at hPl, R_bind_ok]
            rw [pop4_at (p := B1.length) (o' := onesOf B1) hAl (by
              rw [onesOf_append, onesOf_append]; simp [onesFrom])]
            have := hP
            simp [inc_at hP, onesOf_append, onesFrom]
          · simp only [hd0, if_false, if_true, stAt_cons, dec4_at hPl, R_bind_ok, R_pure]
            simp [inc_at hP, onesOf_append, onesFrom]
        | false =>
          rw [hff] at hfe
          simp only [Bool.false_eq_true, if_false, ← stAt_shift, push_at hA hP, inc_at hP, R_bind_ok, hfe, prune_not_full hfe,
            h1, h2, Option.map_some]
          simp [levelsF, bitsOf, nodeBits, kids, kidsOf, cat_cons, stAt_cons, onesOf_append, onesFrom, cat_assoc, ← levelsF_append]

end CBT
