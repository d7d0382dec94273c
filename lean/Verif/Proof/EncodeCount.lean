import Verif.Proof.EncodeCost
import Verif.Proof.Reach

/-!
# What the counters of `encodeRuns` count
-/

namespace CBT

open Spec

/-- One read of the node, one move if it has children, one position for every child unless both are full. -/
def encCost (leaf : Nat → EncCost) (b : Nat) : (d : Nat) → Tr d → EncCost
  | 0, t => leaf t.word
  | d + 1, t => match t.l, t.r with
    | none, none => ⟨1, 0, 0, 0⟩
    | some s, none => EncCost.add ⟨1, 1, 0, 1⟩ (encCost leaf b d s)
    | none, some s => EncCost.add ⟨1, 1, 0, 1⟩ (encCost leaf b d s)
    | some s, some s' => EncCost.add ⟨1, 1, 0, if full b d s && full b d s' then 0 else 2⟩
        ((encCost leaf b d s).add (encCost leaf b d s'))

def pairEnc (w : Nat) : EncCost := ⟨1, 0, 0, (if w.testBit 0 then 1 else 0) + (if w.testBit 1 then 1 else 0)⟩
def wordEnc (_ : Nat) : EncCost := ⟨0, 0, 1, 1⟩

theorem full_word {t : Tr 0} (h : 0 < t.word ∧ t.word < 4) :
    full 1 0 t = decide (node2 (t.word.testBit 0) (t.word.testBit 1) = 3) := by
  obtain ⟨h1, h2⟩ := h
  have : t.word = 1 ∨ t.word = 2 ∨ t.word = 3 := by omega
  rw [full]
  rcases this with h | h | h <;> rw [h] <;> rfl

theorem full_node {b d : Nat} (t : Tr (d + 1)) : full b (d + 1) t = (t.l.any (full b d) && t.r.any (full b d)) := rfl

theorem writeCompressC_cost {n : Nav} : (d : Nat) → (s : RunSt) → (level : Nat) → (T : Tr d) → (id : Nat) → Rep n (leafF n) d level T id →
    Post (writeCompressC n d s level id) fun r => r.1.2 = full 1 d T ∧ r.2 = encCost pairEnc 1 d T
  | 0, s, level, T, id, hr => by
    obtain ⟨hw, hn, -, -⟩ := hr
    rw [writeCompressC, hn, R_bind_ok, encCost, pairEnc, full_word hw]
    cases Nat.testBit T.word 0 <;> cases Nat.testBit T.word 1 <;>
      simp only [node2, Bool.false_eq_true, if_true, if_false, pure_bind, Nat.reduceAdd]
    · exact (Post.any _).bind fun s _ => (Post.any _).bind fun s _ => Post.ok ⟨rfl, rfl⟩
    · exact (Post.any _).bind fun s _ => (Post.any _).bind fun s _ => (Post.any _).bind fun s _ => Post.ok ⟨rfl, rfl⟩
    · exact (Post.any _).bind fun s _ => (Post.any _).bind fun s _ => (Post.any _).bind fun s _ => Post.ok ⟨rfl, rfl⟩
    · exact (Post.any _).bind fun s _ => (Post.any _).bind fun s _ => (Post.any _).bind fun s _ => (Post.any _).bind fun s _ => Post.ok ⟨rfl, rfl⟩
  | d + 1, s, level, T, id, hr => by
    obtain ⟨hn, hl, hr⟩ := hr
    rw [writeCompressC, hn, R_bind_ok, encCost, full_node]
    cases h1 : T.l with
    | none =>
      cases h2 : T.r with
      | none =>
        simp only [Option.isSome, node2_ff, if_false, OfNat.zero_ne_ofNat, zero_ne_one]
        exact Post.ok ⟨rfl, rfl⟩
      | some s' =>
        obtain ⟨c', hc', hR'⟩ := hr s' h2
        simp only [Option.isSome, node2_ft, if_false, if_true, OfNat.one_ne_ofNat, hc', R_bind_ok]
        refine (Post.any _).bind fun s _ => (Post.any _).bind fun s _ => (writeCompressC_cost d s _ _ _ hR').bind fun ⟨⟨s, f⟩, k⟩ h => ?_
        refine (Post.any _).bind fun s _ => Post.ok ⟨rfl, ?_⟩
        rw [← h.2]
    | some l =>
      obtain ⟨c, hc, hR, hRs⟩ := hl l h1
      cases h2 : T.r with
      | none =>
        simp only [Option.isSome, node2_tf, Nat.reduceEqDiff, if_false, if_true, hc, R_bind_ok]
        refine (Post.any _).bind fun s _ => (writeCompressC_cost d s _ _ _ hR).bind fun ⟨⟨s, f⟩, k⟩ h => ?_
        refine (Post.any _).bind fun s _ => (Post.any _).bind fun s _ => Post.ok ⟨?_, ?_⟩
        · rw [Option.any_none, Bool.and_false]
        · rw [← h.2]
      | some s' =>
        simp only [Option.isSome, node2_tt, if_true, hc, R_bind_ok]
        refine (writeCompressC_cost d s _ _ _ hR).bind fun ⟨⟨s, f⟩, k⟩ h => ?_
        refine (writeCompressC_cost d s _ _ _ (hRs s' h2)).bind fun ⟨⟨s, f'⟩, k'⟩ h' => ?_
        obtain ⟨rfl, rfl⟩ := h
        obtain ⟨rfl, rfl⟩ := h'
        simp only [Option.any_some]
        cases hf : full 1 d l && full 1 d s' with
        | true =>
          simp only [if_true]
          refine (Post.any _).bind fun s _ => ?_
          by_cases h0 : d = 0
          · simp only [h0, if_true, pure_bind]
            exact (Post.any _).bind fun s _ => (Post.any _).bind fun s _ => Post.ok ⟨rfl, rfl⟩
          · simp only [h0, if_false, pure_bind]
            exact (Post.any _).bind fun s _ => Post.ok ⟨rfl, rfl⟩
        | false =>
          simp only [Bool.false_eq_true, if_false, pure_bind]
          exact (Post.any _).bind fun s _ => (Post.any _).bind fun s _ => (Post.any _).bind fun s _ => Post.ok ⟨rfl, rfl⟩

theorem fastWriteCompressC_cost {lg : Nat} {n : FNav} : (d : Nat) → (s : RunSt) → (nl : List Nat) → (level : Nat) → (T : Tr d) → (id : Nat) →
    Rep n.toNav (leafW lg n) d level T id →
    Post (fastWriteCompressC lg n d s nl level id) fun r => r.1.2.2 = full lg d T ∧ r.2 = encCost wordEnc lg d T
  | 0, s, nl, level, T, id, hr => by
    rw [fastWriteCompressC, hr.2, R_bind_ok]
    exact (Post.any _).bind fun s _ => Post.ok ⟨rfl, rfl⟩
  | d + 1, s, nl, level, T, id, hr => by
    obtain ⟨hn, hl, hr⟩ := hr
    rw [fastWriteCompressC, hn, R_bind_ok, encCost, full_node]
    cases h1 : T.l with
    | none =>
      cases h2 : T.r with
      | none =>
        simp only [Option.isSome, node2_ff, if_false, OfNat.zero_ne_ofNat, zero_ne_one]
        exact Post.ok ⟨rfl, rfl⟩
      | some s' =>
        obtain ⟨c', hc', hR'⟩ := hr s' h2
        simp only [Option.isSome, node2_ft, if_false, if_true, OfNat.one_ne_ofNat, hc', R_bind_ok]
        refine (Post.any _).bind fun s _ => (Post.any _).bind fun s _ => (fastWriteCompressC_cost d s nl _ _ _ hR').bind
          fun ⟨⟨s, nl, f⟩, k⟩ h => ?_
        refine (Post.any _).bind fun s _ => Post.ok ⟨rfl, ?_⟩
        rw [← h.2]
    | some l =>
      obtain ⟨c, hc, hR, hRs⟩ := hl l h1
      cases h2 : T.r with
      | none =>
        simp only [Option.isSome, node2_tf, Nat.reduceEqDiff, if_false, if_true, hc, R_bind_ok]
        refine (Post.any _).bind fun s _ => (fastWriteCompressC_cost d s nl _ _ _ hR).bind fun ⟨⟨s, nl, f⟩, k⟩ h => ?_
        refine (Post.any _).bind fun s _ => (Post.any _).bind fun s _ => Post.ok ⟨?_, ?_⟩
        · rw [Option.any_none, Bool.and_false]
        · rw [← h.2]
      | some s' =>
        simp only [Option.isSome, node2_tt, if_true, hc, R_bind_ok]
        refine (fastWriteCompressC_cost d s nl _ _ _ hR).bind fun ⟨⟨s, nl, f⟩, k⟩ h => ?_
        refine (fastWriteCompressC_cost d s nl _ _ _ (hRs s' h2)).bind fun ⟨⟨s, nl, f'⟩, k'⟩ h' => ?_
        obtain ⟨rfl, rfl⟩ := h
        obtain ⟨rfl, rfl⟩ := h'
        simp only [Option.any_some]
        cases hf : full lg d l && full lg d s' with
        | true =>
          simp only [if_true]
          by_cases h0 : d = 0
          · by_cases h3 : nl.length < 2
            · simp only [h0, h3, if_true]
              exact Post.error
            · simp only [h0, h3, if_true, if_false, pure_bind]
              exact (Post.any _).bind fun s _ => (Post.any _).bind fun s _ => Post.ok ⟨rfl, rfl⟩
          · simp only [h0, if_false, pure_bind]
            exact (Post.any _).bind fun s _ => (Post.any _).bind fun s _ => Post.ok ⟨rfl, rfl⟩
        | false =>
          simp only [Bool.false_eq_true, if_false, pure_bind]
          exact (Post.any _).bind fun s _ => (Post.any _).bind fun s _ => (Post.any _).bind fun s _ => Post.ok ⟨rfl, rfl⟩

/-! ## In terms of the tree -/

/-- The elements in full blocks of four. -/
def inFours : (d : Nat) → Tr d → Nat
  | 0, _ => 0
  | 1, t => if full 1 1 t then 4 else 0
  | d + 2, t => t.l.elim 0 (inFours (d + 1)) + t.r.elim 0 (inFours (d + 1))

theorem edges_prune_full {d : Nat} {t : Tr (d + 1)} (h : full 1 (d + 1) t = true) : edges (d + 1) (prune 1 (d + 1) t) = 0 := by
  rw [prune_full h]; rfl

theorem edges_prune_node {d : Nat} {t : Tr (d + 1)} (h : full 1 (d + 1) t = false) :
    edges (d + 1) (prune 1 (d + 1) t) = (t.l.elim 0 fun s => 1 + edges d (prune 1 d s)) + (t.r.elim 0 fun s => 1 + edges d (prune 1 d s)) := by
  rw [prune_not_full h, edges]
  cases t.l <;> cases t.r <;> rfl

theorem edges_full_word {t : Tr 0} (h : full 1 0 t = true) : edges 0 t = 2 := by
  have : t.word = 3 := by simpa [full] using h
  rw [edges, this]; rfl

theorem encCost_pair : (d : Nat) → (t : Tr d) → NE 1 d t →
    encCost pairEnc 1 d t = ⟨nodesOf d t + (leaves d [t]).length, nodesOf d t, 0, edges d (prune 1 d t) + inFours d t⟩
  | 0, t, h => by
    rw [encCost, pairEnc, nodesOf, prune, edges, inFours]
    simp [leaves]
  | d + 1, t, h => by
    have key : (encCost pairEnc 1 (d + 1) t).pushes = edges (d + 1) (prune 1 (d + 1) t) + inFours (d + 1) t := by
      rw [encCost]
      cases h1 : t.l with
      | none =>
        cases h2 : t.r with
        | none => have := h.1; simp [Tr.bare, h1, h2] at this
        | some s' =>
          have hf : full 1 (d + 1) t = false := full_one (Or.inl h1)
          have e' := encCost_pair d s' (h.2.2 s' h2)
          rw [edges_prune_node hf, h1, h2]
          cases d with
          | zero => rw [inFours, hf]; simp [e', EncCost.add, inFours]
          | succ d => rw [inFours, h1, h2]; simp [e', EncCost.add]; omega
      | some s =>
        have e := encCost_pair d s (h.2.1 s h1)
        cases h2 : t.r with
        | none =>
          have hf : full 1 (d + 1) t = false := full_one (Or.inr h2)
          rw [edges_prune_node hf, h1, h2]
          cases d with
          | zero => rw [inFours, hf]; simp [e, EncCost.add, inFours]
          | succ d => rw [inFours, h1, h2]; simp [e, EncCost.add]; omega
        | some s' =>
          have e' := encCost_pair d s' (h.2.2 s' h2)
          have hfe : full 1 (d + 1) t = (full 1 d s && full 1 d s') := by rw [full, h1, h2]; rfl
          simp only [EncCost.add, e, e']
          cases hff : full 1 d s && full 1 d s' with
          | true =>
            obtain ⟨f1, f2⟩ := Bool.and_eq_true_iff.1 hff
            rw [hff] at hfe
            rw [edges_prune_full hfe]
            cases d with
            | zero => simp [inFours, hfe, prune, edges_full_word f1, edges_full_word f2]
            | succ d => rw [inFours, h1, h2]; simp [edges_prune_full f1, edges_prune_full f2]
          | false =>
            rw [hff] at hfe
            rw [edges_prune_node hfe, h1, h2]
            cases d with
            | zero => simp [inFours, hfe]; omega
            | succ d => rw [inFours, h1, h2]; simp; omega
    have hrest : (encCost pairEnc 1 (d + 1) t).nodes = nodesOf (d + 1) t + (leaves (d + 1) [t]).length ∧
        (encCost pairEnc 1 (d + 1) t).moves = nodesOf (d + 1) t ∧ (encCost pairEnc 1 (d + 1) t).words = 0 := by
      rw [encCost, nodesOf, leaves_single]
      cases h1 : t.l with
      | none =>
        cases h2 : t.r with
        | none => have := h.1; simp [Tr.bare, h1, h2] at this
        | some s' =>
          simp [encCost_pair d s' (h.2.2 s' h2), EncCost.add]; omega
      | some s =>
        cases h2 : t.r with
        | none => simp [encCost_pair d s (h.2.1 s h1), EncCost.add]; omega
        | some s' => simp [encCost_pair d s (h.2.1 s h1), encCost_pair d s' (h.2.2 s' h2), EncCost.add]; omega
    rw [← hrest.1, ← key]
    conv_rhs => rw [← hrest.2.1, ← hrest.2.2]

theorem encCost_word {lg : Nat} : (d : Nat) → (t : Tr d) → NE lg d t →
    (encCost wordEnc lg d t).nodes = nodesOf d t ∧ (encCost wordEnc lg d t).moves = nodesOf d t ∧
    (encCost wordEnc lg d t).words = (leaves d [t]).length ∧
    (encCost wordEnc lg d t).pushes + 1 = nodesOf d (prune lg d t) + (leaves d [prune lg d t]).length + (leaves d [t]).length
  | 0, t, _ => ⟨rfl, rfl, rfl, rfl⟩
  | d + 1, t, h => by
    cases h1 : t.l with
    | none =>
      cases h2 : t.r with
      | none => have := h.1; simp [Tr.bare, h1, h2] at this
      | some s' =>
        obtain ⟨i1, i2, i3, i4⟩ := encCost_word d s' (h.2.2 s' h2)
        have hf : full lg (d + 1) t = false := full_one (Or.inl h1)
        rw [prune_not_full hf, nodesOf, nodesOf, leaves_single, leaves_single, encCost, h1, h2]
        simp [EncCost.add]
        omega
    | some s =>
      obtain ⟨i1, i2, i3, i4⟩ := encCost_word d s (h.2.1 s h1)
      cases h2 : t.r with
      | none =>
        have hf : full lg (d + 1) t = false := full_one (Or.inr h2)
        rw [prune_not_full hf, nodesOf, nodesOf, leaves_single, leaves_single, encCost, h1, h2]
        simp [EncCost.add]
        omega
      | some s' =>
        obtain ⟨j1, j2, j3, j4⟩ := encCost_word d s' (h.2.2 s' h2)
        have hfe : full lg (d + 1) t = (full lg d s && full lg d s') := by rw [full, h1, h2]; rfl
        cases hff : full lg d s && full lg d s' with
        | true =>
          obtain ⟨f1, f2⟩ := Bool.and_eq_true_iff.1 hff
          rw [hff] at hfe
          have hb : ∀ {t : Tr d}, full lg d t = true → nodesOf d (prune lg d t) + (leaves d [prune lg d t]).length = 1 := by
            intro t hf
            cases d with
            | zero => rfl
            | succ d => rw [prune_full hf]; simp [nodesOf, leaves_single]
          have b1 := hb f1
          have b2 := hb f2
          rw [prune_full hfe, nodesOf, nodesOf, leaves_single, leaves_single, encCost, h1, h2]
          simp [EncCost.add, hff]
          omega
        | false =>
          rw [hff] at hfe
          rw [prune_not_full hfe, nodesOf, nodesOf, leaves_single, leaves_single, encCost, h1, h2]
          simp [EncCost.add, hff]
          omega

/-! ## In terms of the set -/

theorem fullBlock_half {S S' : List Nat} {k p x i : Nat} (hi : i ≤ k) (hp : 2 ^ k ∣ p) (hx : p ≤ x ∧ x < p + 2 ^ k)
    (hS : ∀ y, p ≤ y ∧ y < p + 2 ^ k → (y ∈ S ↔ y ∈ S')) : fullBlock S i x = fullBlock S' i x := by
  rw [Bool.eq_iff_iff, fullBlock_iff, fullBlock_iff]
  constructor
  · intro h y hy; exact (hS y (sameBlock_bounds hi hp hx hy)).1 (h y hy)
  · intro h y hy; exact (hS y (sameBlock_bounds hi hp hx hy)).2 (h y hy)

theorem inFours_eq : (d : Nat) → (T : Tr d) → (p : Nat) → NE 1 d T → 2 ^ (d + 1) ∣ p →
    inFours d T = ((enum (d + 1) (has 1 d T) p).filter (fullBlock (enum (d + 1) (has 1 d T) p) 2)).length
  | 0, T, p, h, hp => by
    rw [inFours, eq_comm, List.length_eq_zero_iff, List.filter_eq_nil_iff]
    intro x hx hf
    rw [fullBlock_iff] at hf
    have h1 := enum_bounds x hx
    have h2 := enum_bounds _ (hf (x / 4 * 4) (by omega))
    have h3 := enum_bounds _ (hf (x / 4 * 4 + 3) (by omega))
    omega
  | 1, T, p, h, hp => by
    rw [inFours]
    cases hf : full 1 1 T with
    | true =>
      rw [List.filter_eq_self.2 fun x hx => by rw [fullBlock_whole h hp (enum_bounds x hx), hf]]
      rw [enum, List.length_map, List.filter_eq_self.2 fun x hx => full_has hf x (List.mem_range.1 hx), List.length_range]
      rfl
    | false =>
      rw [eq_comm, if_neg (by simp), List.length_eq_zero_iff, List.filter_eq_nil_iff]
      intro x hx
      rw [fullBlock_whole h hp (enum_bounds x hx), hf]
      simp
  | d + 2, T, p, h, hp => by
    have hm1 : ∀ y, p ≤ y ∧ y < p + 2 ^ (d + 1 + 1) → (y ∈ loE (d + 1) T p ++ hiE (d + 1) T p ↔ y ∈ loE (d + 1) T p) := by
      intro y hy
      rw [List.mem_append]
      exact ⟨fun h => h.elim id fun h => by have := hiE_bounds y h; omega, Or.inl⟩
    have hm2 : ∀ y, p + 2 ^ (d + 1 + 1) ≤ y ∧ y < p + 2 ^ (d + 1 + 1) + 2 ^ (d + 1 + 1) →
        (y ∈ loE (d + 1) T p ++ hiE (d + 1) T p ↔ y ∈ hiE (d + 1) T p) := by
      intro y hy
      rw [List.mem_append]
      exact ⟨fun h => h.elim (fun h => by have := loE_bounds y h; omega) id, Or.inr⟩
    rw [enum_split, List.filter_append, List.length_append, inFours,
      List.filter_congr (fun x hx => fullBlock_half (by omega) (dvd_lo hp) (loE_bounds x hx) hm1),
      List.filter_congr (fun x hx => fullBlock_half (by omega) (dvd_hi hp) (hiE_bounds x hx) hm2)]
    congr 1
    · rw [loE]
      cases h1 : T.l with
      | none => rfl
      | some s => exact inFours_eq (d + 1) s p (h.2.1 s h1) (dvd_lo hp)
    · rw [hiE]
      cases h1 : T.r with
      | none => rfl
      | some s => exact inFours_eq (d + 1) s _ (h.2.2 s h1) (dvd_hi hp)

end CBT
