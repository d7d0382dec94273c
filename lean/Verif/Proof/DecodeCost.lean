import Verif.Model.DecodeCost
import Verif.Proof.Space
import Verif.Proof.Edges
import Verif.Proof.Word

/-!
# The counters of `decode`
-/

namespace CBT

open Spec

/-! ## They change nothing -/

theorem map_bind_fst {A B C : Type} {x : R (A × B)} {f : A × B → R (C × B)} {g : A → R C}
    (h : ∀ a b, (f (a, b)).map Prod.fst = g a) : (x >>= f).map Prod.fst = (x.map Prod.fst >>= g) := by
  cases x with
  | error e => rfl
  | ok p => exact h p.1 p.2

theorem map_bind_same {A B C : Type} {x : R A} {f : A → R (C × B)} {g : A → R C} (h : ∀ a, (f a).map Prod.fst = g a) :
    (x >>= f).map Prod.fst = (x >>= g) := by
  cases x with
  | error e => rfl
  | ok a => exact h a

theorem map_bind_pair {A B : Type} {x : R (A × B)} {f : A × B → B} {g : R A} (h : x.map Prod.fst = g) :
    (x >>= fun p => (pure (p.1, f p) : R (A × B))).map Prod.fst = g := by
  subst h
  cases x <;> rfl

theorem recDecodeC_fst (n : Nav) : (rem : Nat) → (out : List Nat) → (part id level : Nat) →
    (recDecodeC n rem out part id level).map Prod.fst = recDecode n rem out part id level
  | 0, _, _, _, _ => rfl
  | rem + 1, out, part, id, level => by
    rw [recDecodeC, recDecode]
    refine map_bind_same fun node => ?_
    have h1 : ∀ (out : List Nat) (k : Cost), (if node = 1 ∨ node = 3 then do
        let s ← shl1 (n.height - level - 1)
        let c ← n.getRightChild id level
        let (out, k') ← recDecodeC n rem out (part ||| s) c (level + 1)
        pure (out, (Cost.node.add k).add (Cost.move.add k'))
        else pure (out, Cost.node.add k) : R (List Nat × Cost)).map Prod.fst = if node = 1 ∨ node = 3 then do
          let s ← shl1 (n.height - level - 1)
          let c ← n.getRightChild id level
          recDecode n rem out (part ||| s) c (level + 1)
        else pure out := by
      intro out k
      split
      · refine map_bind_same fun s => map_bind_same fun c => ?_
        exact map_bind_pair (f := fun p => (Cost.node.add k).add (Cost.move.add p.2)) (recDecodeC_fst n rem out _ c (level + 1))
      · rfl
    by_cases h2 : node = 2 ∨ node = 3
    · simp only [h2, if_true, pure_bind]
      refine map_bind_same fun c => ?_
      rw [← recDecodeC_fst n rem out part c (level + 1)]
      exact map_bind_fst fun out k => h1 out _
    · simp only [h2, if_false, pure_bind]
      exact h1 out _

theorem runsRecDecodeC_fst (n : Nav) : (rem : Nat) → (out : List Nat) → (part id level : Nat) →
    (runsRecDecodeC n rem out part id level).map Prod.fst = runsRecDecode n rem out part id level
  | 0, _, _, _, _ => rfl
  | rem + 1, out, part, id, level => by
    rw [runsRecDecodeC, runsRecDecode]
    refine map_bind_same fun node => ?_
    by_cases h0 : node = 0
    · simp only [h0, if_true]
      cases fillRange part (n.height - level) out <;> rfl
    simp only [h0, if_false]
    have h1 : ∀ (out : List Nat) (k : Cost), (if node = 1 ∨ node = 3 then do
        let s ← shl1 (n.height - level - 1)
        let c ← n.getRightChild id level
        let (out, k') ← runsRecDecodeC n rem out (part ||| s) c (level + 1)
        pure (out, (Cost.node.add k).add (Cost.move.add k'))
        else pure (out, Cost.node.add k) : R (List Nat × Cost)).map Prod.fst = if node = 1 ∨ node = 3 then do
          let s ← shl1 (n.height - level - 1)
          let c ← n.getRightChild id level
          runsRecDecode n rem out (part ||| s) c (level + 1)
        else pure out := by
      intro out k
      split
      · refine map_bind_same fun s => map_bind_same fun c => ?_
        exact map_bind_pair (f := fun p => (Cost.node.add k).add (Cost.move.add p.2)) (runsRecDecodeC_fst n rem out _ c (level + 1))
      · rfl
    by_cases h2 : node = 2 ∨ node = 3
    · simp only [h2, if_true, pure_bind]
      refine map_bind_same fun c => ?_
      rw [← runsRecDecodeC_fst n rem out part c (level + 1)]
      exact map_bind_fst fun out k => h1 out _
    · simp only [h2, if_false, pure_bind]
      exact h1 out _

theorem map_word {A : Type} {x : R A} {f : A → R (List Nat)} {k : Cost} :
    (x >>= fun w => f w >>= fun out => (.ok (out, k) : R (List Nat × Cost))).map Prod.fst = (x >>= f) := by
  refine map_bind_same fun w => ?_
  cases f w <;> rfl

theorem fastRecDecodeC_fst (lg hu : Nat) (n : FNav) : (rem : Nat) → (out : List Nat) → (part id level : Nat) →
    (fastRecDecodeC lg hu n rem out part id level).map Prod.fst = fastRecDecode lg hu n rem out part id level
  | 0, _, _, _, _ => map_word
  | rem + 1, out, part, id, level => by
    rw [fastRecDecodeC, fastRecDecode]
    refine map_bind_same fun node => ?_
    have h1 : ∀ (out : List Nat) (k : Cost), (if node = 1 ∨ node = 3 then do
        let s ← shl1 (hu - level - 1)
        let c ← n.getRightChild id level
        let (out, k') ← fastRecDecodeC lg hu n rem out (part ||| s) c (level + 1)
        pure (out, (Cost.node.add k).add (Cost.move.add k'))
        else pure (out, Cost.node.add k) : R (List Nat × Cost)).map Prod.fst = if node = 1 ∨ node = 3 then do
          let s ← shl1 (hu - level - 1)
          let c ← n.getRightChild id level
          fastRecDecode lg hu n rem out (part ||| s) c (level + 1)
        else pure out := by
      intro out k
      split
      · refine map_bind_same fun s => map_bind_same fun c => ?_
        exact map_bind_pair (f := fun p => (Cost.node.add k).add (Cost.move.add p.2)) (fastRecDecodeC_fst lg hu n rem out _ c (level + 1))
      · rfl
    by_cases h2 : node = 2 ∨ node = 3
    · simp only [h2, if_true, pure_bind]
      refine map_bind_same fun c => ?_
      rw [← fastRecDecodeC_fst lg hu n rem out part c (level + 1)]
      exact map_bind_fst fun out k => h1 out _
    · simp only [h2, if_false, pure_bind]
      exact h1 out _

theorem fastRunsRecDecodeC_fst (lg hu : Nat) (n : FNav) : (rem : Nat) → (out : List Nat) → (part id level : Nat) →
    (fastRunsRecDecodeC lg hu n rem out part id level).map Prod.fst = fastRunsRecDecode lg hu n rem out part id level
  | 0, _, _, _, _ => map_word
  | rem + 1, out, part, id, level => by
    rw [fastRunsRecDecodeC, fastRunsRecDecode]
    refine map_bind_same fun node => ?_
    by_cases h0 : node = 0
    · simp only [h0, if_true]
      cases fillRange part (hu - level) out <;> rfl
    simp only [h0, if_false]
    have h1 : ∀ (out : List Nat) (k : Cost), (if node = 1 ∨ node = 3 then do
        let s ← shl1 (hu - level - 1)
        let c ← n.getRightChild id level
        let (out, k') ← fastRunsRecDecodeC lg hu n rem out (part ||| s) c (level + 1)
        pure (out, (Cost.node.add k).add (Cost.move.add k'))
        else pure (out, Cost.node.add k) : R (List Nat × Cost)).map Prod.fst = if node = 1 ∨ node = 3 then do
          let s ← shl1 (hu - level - 1)
          let c ← n.getRightChild id level
          fastRunsRecDecode lg hu n rem out (part ||| s) c (level + 1)
        else pure out := by
      intro out k
      split
      · refine map_bind_same fun s => map_bind_same fun c => ?_
        exact map_bind_pair (f := fun p => (Cost.node.add k).add (Cost.move.add p.2)) (fastRunsRecDecodeC_fst lg hu n rem out _ c (level + 1))
      · rfl
    by_cases h2 : node = 2 ∨ node = 3
    · simp only [h2, if_true, pure_bind]
      refine map_bind_same fun c => ?_
      rw [← fastRunsRecDecodeC_fst lg hu n rem out part c (level + 1)]
      exact map_bind_fst fun out k => h1 out _
    · simp only [h2, if_false, pure_bind]
      exact h1 out _

theorem FlatTrie.decodeC_fst (t : FlatTrie) (pad : Nat) (out : List Nat) : (t.decodeC pad out).map Prod.fst = t.decode pad out := by
  rw [decodeC, decode]
  split
  · split
    · rfl
    · exact runsRecDecodeC_fst _ _ _ _ _ _
  · exact recDecodeC_fst _ _ _ _ _ _

theorem LevelTrie.decodeC_fst (t : LevelTrie) (il : Bool) (pad : Nat) (out : List Nat) :
    (t.decodeC il pad out).map Prod.fst = t.decode il pad out := by
  rw [decodeC, decode]
  split
  · split
    · rfl
    · exact runsRecDecodeC_fst _ _ _ _ _ _
  · exact recDecodeC_fst _ _ _ _ _ _

theorem FastTrie.decodeC_fst (lg : Nat) (t : FastTrie) (pad : Nat) (out : List Nat) :
    (t.decodeC lg pad out).map Prod.fst = t.decode lg pad out := by
  rw [decodeC, decode]
  split
  · rfl
  · split
    · split
      · rfl
      · exact fastRunsRecDecodeC_fst _ _ _ _ _ _ _ _
    · exact fastRecDecodeC_fst _ _ _ _ _ _ _ _

/-! ## What they count -/

/-- Every node is read once and reached by one move; a leaf costs `leaf w`. -/
def decCost (leaf : Nat → Cost) : (d : Nat) → Tr d → Cost
  | 0, t => leaf t.word
  | d + 1, t => (Cost.node.add (t.l.elim .zero fun s => Cost.move.add (decCost leaf d s))).add
      (t.r.elim .zero fun s => Cost.move.add (decCost leaf d s))

/-- A last-level node: its bits are children. -/
def pairLeaf (w : Nat) : Cost := ⟨1, (if w.testBit 0 then 1 else 0) + (if w.testBit 1 then 1 else 0), 0⟩
def wordLeaf (_ : Nat) : Cost := .word

theorem decCost_pair : (d : Nat) → (t : Tr d) →
    decCost pairLeaf d t = ⟨nodesOf d t + (leaves d [t]).length, edges d t, 0⟩
  | 0, t => by
    rw [decCost, pairLeaf, edges, nodesOf]
    simp [leaves]
  | d + 1, t => by
    rw [decCost, nodesOf, edges, leaves_single]
    cases t.l with
    | none =>
      cases t.r with
      | none => rfl
      | some r => simp [decCost_pair d r, Cost.add, Cost.zero, Cost.node, Cost.move]; omega
    | some l =>
      cases t.r with
      | none => simp [decCost_pair d l, Cost.add, Cost.zero, Cost.node, Cost.move]; omega
      | some r => simp [decCost_pair d l, decCost_pair d r, Cost.add, Cost.node, Cost.move]; omega

theorem decCost_word : (d : Nat) → (t : Tr d) →
    (decCost wordLeaf d t).nodes = nodesOf d t ∧ (decCost wordLeaf d t).words = (leaves d [t]).length ∧
      (decCost wordLeaf d t).moves + 1 = nodesOf d t + (leaves d [t]).length
  | 0, t => ⟨rfl, rfl, rfl⟩
  | d + 1, t => by
    rw [decCost, nodesOf, leaves_single]
    cases t.l with
    | none =>
      cases t.r with
      | none => exact ⟨rfl, rfl, rfl⟩
      | some r =>
        obtain ⟨h1, h2, h3⟩ := decCost_word d r
        simp [h1, h2, Cost.add, Cost.zero, Cost.node, Cost.move]; omega
    | some l =>
      obtain ⟨h1, h2, h3⟩ := decCost_word d l
      cases t.r with
      | none => simp [h1, h2, Cost.add, Cost.zero, Cost.node, Cost.move]; omega
      | some r =>
        obtain ⟨h4, h5, h6⟩ := decCost_word d r
        simp [h1, h2, h4, h5, Cost.add, Cost.node, Cost.move]; omega

theorem recDecodeC_step {n : Nav} {rem part id ℓ s : Nat} {out : List Nat} {a b : Bool} (hn : n.getNode id ℓ = .ok (node2 a b))
    (hs : shl1 (n.height - ℓ - 1) = .ok s) :
    recDecodeC n (rem + 1) out part id ℓ =
      (if a then (n.getLeftChild id ℓ >>= fun c => recDecodeC n rem out part c (ℓ + 1) >>= fun p => .ok (p.1, Cost.move.add p.2))
        else .ok (out, .zero)) >>= fun p =>
      (if b then (n.getRightChild id ℓ >>= fun c => recDecodeC n rem p.1 (part ||| s) c (ℓ + 1) >>= fun q =>
          .ok (q.1, (Cost.node.add p.2).add (Cost.move.add q.2)))
        else .ok (p.1, (Cost.node.add p.2).add .zero)) := by
  rw [recDecodeC, hn, hs]
  cases a <;> cases b <;> simp [node2, Cost.add, Cost.zero]

theorem runsRecDecodeC_step {n : Nav} {rem part id ℓ s : Nat} {out : List Nat} {a b : Bool} (hn : n.getNode id ℓ = .ok (node2 a b))
    (hab : (a || b) = true) (hs : shl1 (n.height - ℓ - 1) = .ok s) :
    runsRecDecodeC n (rem + 1) out part id ℓ =
      (if a then (n.getLeftChild id ℓ >>= fun c => runsRecDecodeC n rem out part c (ℓ + 1) >>= fun p => .ok (p.1, Cost.move.add p.2))
        else .ok (out, .zero)) >>= fun p =>
      (if b then (n.getRightChild id ℓ >>= fun c => runsRecDecodeC n rem p.1 (part ||| s) c (ℓ + 1) >>= fun q =>
          .ok (q.1, (Cost.node.add p.2).add (Cost.move.add q.2)))
        else .ok (p.1, (Cost.node.add p.2).add .zero)) := by
  rw [runsRecDecodeC, hn, hs]
  cases a <;> cases b <;> simp [node2, Cost.add, Cost.zero] at hab ⊢

theorem fastRecDecodeC_step {lg hu : Nat} {n : FNav} {rem part id ℓ s : Nat} {out : List Nat} {a b : Bool}
    (hn : n.getNode id ℓ = .ok (node2 a b)) (hs : shl1 (hu - ℓ - 1) = .ok s) :
    fastRecDecodeC lg hu n (rem + 1) out part id ℓ =
      (if a then (n.getLeftChild id ℓ >>= fun c => fastRecDecodeC lg hu n rem out part c (ℓ + 1) >>= fun p => .ok (p.1, Cost.move.add p.2))
        else .ok (out, .zero)) >>= fun p =>
      (if b then (n.getRightChild id ℓ >>= fun c => fastRecDecodeC lg hu n rem p.1 (part ||| s) c (ℓ + 1) >>= fun q =>
          .ok (q.1, (Cost.node.add p.2).add (Cost.move.add q.2)))
        else .ok (p.1, (Cost.node.add p.2).add .zero)) := by
  rw [fastRecDecodeC, hn, hs]
  cases a <;> cases b <;> simp [node2, Cost.add, Cost.zero]

theorem fastRunsRecDecodeC_step {lg hu : Nat} {n : FNav} {rem part id ℓ s : Nat} {out : List Nat} {a b : Bool}
    (hn : n.getNode id ℓ = .ok (node2 a b)) (hab : (a || b) = true) (hs : shl1 (hu - ℓ - 1) = .ok s) :
    fastRunsRecDecodeC lg hu n (rem + 1) out part id ℓ =
      (if a then (n.getLeftChild id ℓ >>= fun c => fastRunsRecDecodeC lg hu n rem out part c (ℓ + 1) >>= fun p => .ok (p.1, Cost.move.add p.2))
        else .ok (out, .zero)) >>= fun p =>
      (if b then (n.getRightChild id ℓ >>= fun c => fastRunsRecDecodeC lg hu n rem p.1 (part ||| s) c (ℓ + 1) >>= fun q =>
          .ok (q.1, (Cost.node.add p.2).add (Cost.move.add q.2)))
        else .ok (p.1, (Cost.node.add p.2).add .zero)) := by
  rw [fastRunsRecDecodeC, hn, hs]
  cases a <;> cases b <;> simp [node2, Cost.add, Cost.zero] at hab ⊢

theorem recDecodeC_rep {n : Nav} (hh : n.height ≤ 64) : ∀ (d ℓ : Nat) (t : Tr d) (id part : Nat) (out : List Nat),
    Rep n (leafF n) d ℓ t id → n.height = ℓ + d + 1 → 2 ^ (d + 1) ∣ part →
    recDecodeC n (d + 1) out part id ℓ = .ok (out ++ enum (d + 1) (has 1 d t) part, decCost pairLeaf d t) := by
  intro d
  induction d with
  | zero =>
    intro ℓ t id part out hr hℓ hd
    obtain ⟨hw, hn, ⟨c, hc⟩, ⟨c', hc'⟩⟩ := hr
    have hs : shl1 (n.height - ℓ - 1) = .ok 1 := by rw [hℓ]; simp [shl1]
    have ho : part ||| 1 = part + 1 := or_two_pow (k := 0) hd
    rw [show 0 + 1 = 1 from rfl, enum_word, recDecodeC_step hn hs, decCost, pairLeaf]
    simp only [hc, hc', R_bind_ok, recDecodeC, ho]
    cases Nat.testBit t.word 0 <;> cases Nat.testBit t.word 1 <;> simp [Cost.add, Cost.zero, Cost.node, Cost.move]
  | succ d ih =>
    intro ℓ t id part out hr hℓ hd
    obtain ⟨hn, hl, hr⟩ := hr
    have hs : shl1 (n.height - ℓ - 1) = .ok (2 ^ (d + 1)) := by
      rw [hℓ, show ℓ + (d + 1) + 1 - ℓ - 1 = d + 1 by omega]; exact shl1_ok (by omega)
    have ho : part ||| 2 ^ (d + 1) = part + 2 ^ (d + 1) := or_two_pow hd
    rw [enum_has_node, recDecodeC_step hn hs, ho, decCost]
    cases h1 : t.l with
    | none =>
      cases h2 : t.r with
      | none => simp
      | some s' =>
        obtain ⟨c', hc', hR'⟩ := hr s' h2
        simp [hc', ih (ℓ + 1) s' c' (part + 2 ^ (d + 1)) out hR' (by omega) (dvd_hi hd)]
    | some s =>
      obtain ⟨c, hc, hR, _⟩ := hl s h1
      have e1 := ih (ℓ + 1) s c part out hR (by omega) (dvd_lo hd)
      cases h2 : t.r with
      | none => simp [hc, e1]
      | some s' =>
        obtain ⟨c', hc', hR'⟩ := hr s' h2
        simp [hc, hc', e1, ih (ℓ + 1) s' c' (part + 2 ^ (d + 1)) _ hR' (by omega) (dvd_hi hd)]

theorem runsRecDecodeC_rep {n : Nav} (hh : n.height < 64) : ∀ (k d ℓ : Nat) (t : Tr d) (id part : Nat) (out : List Nat),
    Rep n (leafF n) d ℓ t id → n.height = ℓ + d + 1 → 2 ^ (d + 1) ∣ part → Stops k d t →
    runsRecDecodeC n (k + 1) out part id ℓ = .ok (out ++ enum (d + 1) (hasR 1 d t) part, decCost pairLeaf d t) := by
  intro k d
  induction d generalizing k with
  | zero =>
    intro ℓ t id part out hr hℓ hd hst
    obtain ⟨hw, hn, ⟨c, hc⟩, ⟨c', hc'⟩⟩ := hr
    have hs : shl1 (n.height - ℓ - 1) = .ok 1 := by rw [hℓ]; simp [shl1]
    have ho : part ||| 1 = part + 1 := or_two_pow (k := 0) hd
    cases k with
    | succ k => exact hst.elim
    | zero =>
      rw [show 0 + 1 = 1 from rfl, enum_wordR, runsRecDecodeC_step hn (word_bits hw) hs, decCost, pairLeaf]
      simp only [hc, hc', R_bind_ok, runsRecDecodeC, ho]
      cases Nat.testBit t.word 0 <;> cases Nat.testBit t.word 1 <;> simp [Cost.add, Cost.zero, Cost.node, Cost.move]
  | succ d ih =>
    intro ℓ t id part out hr hℓ hd hst
    obtain ⟨hn, hl, hr⟩ := hr
    cases hb : t.bare with
    | true =>
      obtain ⟨e1, e2⟩ := Tr.bare_eq hb
      rw [e1, e2] at hn
      rw [runsRecDecodeC, hn, hℓ, decCost, e1, e2]
      simp only [R_bind_ok, Option.isSome, node2_ff, if_true, show ℓ + (d + 1) + 1 - ℓ = d + 1 + 1 by omega]
      rw [fillRange_ok out (by omega) hd (fun x _ => hasR_bare hb)]
      rfl
    | false =>
    have hs : shl1 (n.height - ℓ - 1) = .ok (2 ^ (d + 1)) := by
      rw [hℓ, show ℓ + (d + 1) + 1 - ℓ - 1 = d + 1 by omega]; exact shl1_ok (by omega)
    have ho : part ||| 2 ^ (d + 1) = part + 2 ^ (d + 1) := or_two_pow hd
    have hab : (t.l.isSome || t.r.isSome) = true := by
      revert hb; unfold Tr.bare; cases t.l <;> cases t.r <;> simp
    rw [enum_hasR_node _ _ hb, runsRecDecodeC_step hn hab hs, ho, decCost]
    cases k with
    | zero => rw [Stops, hb] at hst; simp at hst
    | succ k =>
    obtain ⟨hst1, hst2⟩ := hst
    cases h1 : t.l with
    | none =>
      cases h2 : t.r with
      | none => simp
      | some s' =>
        obtain ⟨c', hc', hR'⟩ := hr s' h2
        simp [hc', ih k (ℓ + 1) s' c' (part + 2 ^ (d + 1)) out hR' (by omega) (dvd_hi hd) (hst2 s' h2)]
    | some s =>
      obtain ⟨c, hc, hR, _⟩ := hl s h1
      have e1 := ih k (ℓ + 1) s c part out hR (by omega) (dvd_lo hd) (hst1 s h1)
      cases h2 : t.r with
      | none => simp [hc, e1]
      | some s' =>
        obtain ⟨c', hc', hR'⟩ := hr s' h2
        simp [hc, hc', e1, ih k (ℓ + 1) s' c' (part + 2 ^ (d + 1)) _ hR' (by omega) (dvd_hi hd) (hst2 s' h2)]

theorem fastRecDecodeC_rep {lg hu : Nat} {n : FNav} (hlg : lg ≤ 6) (hh : hu ≤ 64) :
    ∀ (d ℓ : Nat) (t : Tr d) (id part : Nat) (out : List Nat),
    Rep n.toNav (leafW lg n) d ℓ t id → hu = ℓ + d + lg → 2 ^ (d + lg) ∣ part →
    fastRecDecodeC lg hu n d out part id ℓ = .ok (out ++ enum (d + lg) (has lg d t) part, decCost wordLeaf d t) := by
  intro d
  induction d with
  | zero =>
    intro ℓ t id part out hr hℓ hd
    obtain ⟨hw, hn⟩ := hr
    rw [fastRecDecodeC, hn, enum_zeroW, R_bind_ok, emitWord_ok hlg out hw.2]
    rfl
  | succ d ih =>
    intro ℓ t id part out hr hℓ hd
    rw [show d + 1 + lg = d + lg + 1 by omega] at hd
    obtain ⟨hn, hl, hr⟩ := hr
    have hs : shl1 (hu - ℓ - 1) = .ok (2 ^ (d + lg)) := by
      rw [hℓ, show ℓ + (d + 1) + lg - ℓ - 1 = d + lg by omega]; exact shl1_ok (by omega)
    have ho : part ||| 2 ^ (d + lg) = part + 2 ^ (d + lg) := or_two_pow hd
    rw [enum_has_node, fastRecDecodeC_step hn hs, ho, decCost]
    cases h1 : t.l with
    | none =>
      cases h2 : t.r with
      | none => simp
      | some s' =>
        obtain ⟨c', hc', hR'⟩ := hr s' h2
        simp [hc', ih (ℓ + 1) s' c' (part + 2 ^ (d + lg)) out hR' (by omega) (dvd_hi hd)]
    | some s =>
      obtain ⟨c, hc, hR, _⟩ := hl s h1
      have e1 := ih (ℓ + 1) s c part out hR (by omega) (dvd_lo hd)
      cases h2 : t.r with
      | none => simp [hc, e1]
      | some s' =>
        obtain ⟨c', hc', hR'⟩ := hr s' h2
        simp [hc, hc', e1, ih (ℓ + 1) s' c' (part + 2 ^ (d + lg)) _ hR' (by omega) (dvd_hi hd)]

theorem fastRunsRecDecodeC_rep {lg hu : Nat} {n : FNav} (hlg : lg ≤ 6) (hh : hu < 64) :
    ∀ (d ℓ : Nat) (t : Tr d) (id part : Nat) (out : List Nat),
    Rep n.toNav (leafW lg n) d ℓ t id → hu = ℓ + d + lg → 2 ^ (d + lg) ∣ part →
    fastRunsRecDecodeC lg hu n d out part id ℓ = .ok (out ++ enum (d + lg) (hasR lg d t) part, decCost wordLeaf d t) := by
  intro d
  induction d with
  | zero =>
    intro ℓ t id part out hr hℓ hd
    obtain ⟨hw, hn⟩ := hr
    rw [fastRunsRecDecodeC, hn, enum_zeroWR, R_bind_ok, emitWord_ok hlg out hw.2]
    rfl
  | succ d ih =>
    intro ℓ t id part out hr hℓ hd
    obtain ⟨hn, hl, hr⟩ := hr
    cases hb : t.bare with
    | true =>
      obtain ⟨e1, e2⟩ := Tr.bare_eq hb
      rw [e1, e2] at hn
      rw [fastRunsRecDecodeC, hn, hℓ, decCost, e1, e2]
      simp only [R_bind_ok, Option.isSome, node2_ff, if_true, show ℓ + (d + 1) + lg - ℓ = d + 1 + lg by omega]
      rw [fillRange_ok out (by omega) hd (fun x _ => hasR_bare hb)]
      rfl
    | false =>
    rw [show d + 1 + lg = d + lg + 1 by omega] at hd
    have hs : shl1 (hu - ℓ - 1) = .ok (2 ^ (d + lg)) := by
      rw [hℓ, show ℓ + (d + 1) + lg - ℓ - 1 = d + lg by omega]; exact shl1_ok (by omega)
    have ho : part ||| 2 ^ (d + lg) = part + 2 ^ (d + lg) := or_two_pow hd
    have hab : (t.l.isSome || t.r.isSome) = true := by
      revert hb; unfold Tr.bare; cases t.l <;> cases t.r <;> simp
    rw [enum_hasR_node _ _ hb, fastRunsRecDecodeC_step hn hab hs, ho, decCost]
    cases h1 : t.l with
    | none =>
      cases h2 : t.r with
      | none => simp
      | some s' =>
        obtain ⟨c', hc', hR'⟩ := hr s' h2
        simp [hc', ih (ℓ + 1) s' c' (part + 2 ^ (d + lg)) out hR' (by omega) (dvd_hi hd)]
    | some s =>
      obtain ⟨c, hc, hR, _⟩ := hl s h1
      have e1 := ih (ℓ + 1) s c part out hR (by omega) (dvd_lo hd)
      cases h2 : t.r with
      | none => simp [hc, e1]
      | some s' =>
        obtain ⟨c', hc', hR'⟩ := hr s' h2
        simp [hc, hc', e1, ih (ℓ + 1) s' c' (part + 2 ^ (d + lg)) _ hR' (by omega) (dvd_hi hd)]

end CBT
