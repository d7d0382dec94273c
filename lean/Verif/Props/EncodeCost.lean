import Verif.Proof.EncodeCount
import Verif.Proof.Arrays
import Verif.Proof.FlatCollapse
import Verif.Props.DecodeCost

/-!
# C72: what `encodeRuns` reads and how much it collects
-/

namespace CBT

open Spec

/-- C72. The counters change nothing: same trie, same undefined behaviour, for every trie in whatever state. -/
theorem C72_counters_change_nothing :
    (∀ (t : FlatTrie) (pad : Nat), (t.encodeRunsC pad).map Prod.fst = t.encodeRuns pad) ∧
    (∀ (t : LevelTrie) (il : Bool) (pad : Nat), (t.encodeRunsC il pad).map Prod.fst = t.encodeRuns il pad) ∧
    (∀ (lg : Nat) (t : FastTrie) (pad : Nat), (t.encodeRunsC lg pad).map Prod.fst = t.encodeRuns lg pad) :=
  ⟨FlatTrie.encodeRunsC_fst, LevelTrie.encodeRunsC_fst, FastTrie.encodeRunsC_fst⟩

theorem encoded_with_cost {A B : Type} {x : R (A × B)} {a : A} {P : A × B → Prop} (h : x.map Prod.fst = .ok a) (hp : Post x P) :
    ∃ b, x = .ok (a, b) ∧ P (a, b) := by
  cases x with
  | error e => cases h
  | ok p =>
    obtain ⟨a', b⟩ := p
    injection h with h
    simp only at h
    subst h
    exact ⟨b, rfl, hp _ rfl⟩

theorem FlatTrie.encodeRunsC_cost {t : FlatTrie} {pad d : Nat} {T : Tr d} (hh : t.height = d + 1)
    (hr : Rep (t.nav pad) (leafF (t.nav pad)) _ 0 T 0) :
    Post (t.encodeRunsC pad) fun r => r.2 = encCost pairEnc 1 _ T := by
  rw [encodeRunsC, hh, Nat.add_sub_cancel]
  refine Post.ite (fun _ => Post.error) fun _ => (writeCompressC_cost _ _ 0 T 0 hr).bind fun ⟨⟨s, f⟩, k⟩ h => ?_
  exact (Post.any _).bind fun p _ => (Post.any _).bind fun ⟨b, l⟩ _ => Post.ok h.2

theorem LevelTrie.encodeRunsC_cost {t : LevelTrie} {il : Bool} {pad d : Nat} {T : Tr d} (hh : t.height = d + 1)
    (hr : Rep (t.nav il pad) (leafF (t.nav il pad)) _ 0 T 0) : Post (t.encodeRunsC il pad) fun r => r.2 = encCost pairEnc 1 _ T := by
  rw [encodeRunsC, hh, Nat.add_sub_cancel]
  refine Post.ite (fun _ => Post.error) fun _ => (writeCompressC_cost _ _ 0 T 0 hr).bind fun ⟨⟨s, f⟩, k⟩ h => ?_
  exact (Post.any _).bind fun p _ => Post.ok h.2

theorem FastTrie.encodeRunsC_cost {lg : Nat} {t : FastTrie} {pad d : Nat} {T : Tr d} (hh : t.height = d + 1)
    (hr : Rep (t.nav pad).toNav (leafW lg (t.nav pad)) _ 0 T 0) : Post (t.encodeRunsC lg pad) fun r => r.2 = encCost wordEnc lg _ T := by
  rw [encodeRunsC, hh, Nat.add_sub_cancel]
  refine Post.ite (fun _ => Post.error) fun _ => (fastWriteCompressC_cost _ _ _ 0 T 0 hr).bind fun ⟨⟨s, nl, f⟩, k⟩ h => ?_
  exact (Post.any _).bind fun p _ => Post.ok h.2

theorem encCost_set {d : Nat} {T : Tr d} {S : List Nat} (hne : NE 1 d T) (hT : Holds (d + 1) (has 1 d T) S) (hS : S.Pairwise (· < ·))
    (hb : ∀ x ∈ S, x < 2 ^ (d + 1)) :
    encCost pairEnc 1 d T = ⟨storedAbove false S (d + 1) 0, storedAbove false S (d + 1) 1, 0,
      survivingPrefixes S (d + 1) + (S.filter (fullBlock S 2)).length⟩ := by
  have c1 := ctree_cost (ctree_plain hne hT hb)
  have c2 := (ctree_plain hne hT hb).size.1
  rw [length_flatBits_nodesOf] at c2
  simp only [List.map_cons, List.map_nil, List.sum_cons, List.sum_nil] at c2
  have e2 := edges_prune _ T 0 hne (dvd_zero _)
  have e3 := inFours_eq _ T 0 hne (dvd_zero _)
  rw [hT.enum hS hb] at e2 e3
  rw [encCost_pair _ _ hne, c1, e2, e3, show nodesOf d T = storedAbove false S (d + 1) 1 by omega]

/-- C72, flat tries: `encodeRuns` reads every node once, that is one node for every block of at least two numbers with an element, and
calls a child function once for every node with children (every such block of more than two numbers). The positions of ones that it
collects on the way, one 64-bit number each, are the distinct prefixes not inside a larger full block, which is what stays in the
encoded trie, and the elements in full blocks of four numbers, which are taken back. -/
theorem C72_flat {S : List Nat} {u : Nat} (hS : ValidSet S u) (hlen : S.length < 2 ^ 32) (hu : 3 ≤ u) (hu' : u ≤ 2 ^ 62) (pad : Nat) :
    ∃ t t', flatCtor S u = .ok t ∧ t.encodeRuns pad = .ok t' ∧ t.height = Nat.log2 (u - 1) + 1 ∧
      t.encodeRunsC pad = .ok (t', ⟨storedAbove false S t.height 0, storedAbove false S t.height 1, 0,
        survivingPrefixes S t.height + (S.filter (fullBlock S 2)).length⟩) := by
  obtain ⟨T, hc, hne, hT⟩ := flat_built hS hlen hu hu'
  have hb : ∀ x ∈ S, x < 2 ^ (Nat.log2 (u - 1) + 1) := fun x hx => lt_height (hS.below x hx)
  obtain ⟨t', he, -⟩ := flatOf_encode_cases (pad := pad) (hw := 0) (runs := false) hne
  obtain ⟨k, hk, rfl⟩ := encoded_with_cost ((FlatTrie.encodeRunsC_fst _ _).trans he) (FlatTrie.encodeRunsC_cost rfl (flatOf_rep hne.nz))
  refine ⟨_, t', hc, he, rfl, ?_⟩
  rw [hk]
  exact congrArg _ (congrArg _ (encCost_set hne hT hS.increasing hb))

/-- C72, level-wise tries. -/
theorem C72_level {S : List Nat} {u : Nat} (hS : ValidSet S u) (hlen : S.length < 2 ^ 64) (hu : 2 ≤ u) (hu' : u ≤ 2 ^ 63) (il : Bool)
    (pad : Nat) :
    ∃ t t', levelCtor S u = .ok t ∧ t.encodeRuns il pad = .ok t' ∧ t.height = Nat.log2 (u - 1) + 1 ∧
      t.encodeRunsC il pad = .ok (t', ⟨storedAbove false S t.height 0, storedAbove false S t.height 1, 0,
        survivingPrefixes S t.height + (S.filter (fullBlock S 2)).length⟩) := by
  have h0 : u - 1 ≠ 0 := by omega
  have h2 : Nat.log2 (u - 1) < 63 := (Nat.log2_lt h0).2 (by omega)
  obtain ⟨T, hc, hne, hT⟩ := level_built hS hlen hu (by omega)
  have hb : ∀ x ∈ S, x < 2 ^ (Nat.log2 (u - 1) + 1) := fun x hx => lt_height (hS.below x hx)
  obtain ⟨k, -, -, he⟩ := levelOf_encode (pad := pad) (il := il) (hw := 0) (runs := false) (by omega) hne
  obtain ⟨k, hk, rfl⟩ := encoded_with_cost ((LevelTrie.encodeRunsC_fst _ _ _).trans he)
    (LevelTrie.encodeRunsC_cost levelOf_height (levelOf_rep (by omega) hne.nz))
  refine ⟨_, _, hc, he, levelOf_height, ?_⟩
  rw [hk, levelOf_height]
  exact congrArg _ (congrArg _ (encCost_set hne hT hS.increasing hb))

/-- C72, fast tries: every stored block larger than a word is read once, every word once. Collected are one position for every word,
which is not used, and one for every node and word of the encoded trie but the root. -/
theorem C72_fast {lg : Nat} (hlg : 3 ≤ lg ∧ lg ≤ 6) {S : List Nat} {u : Nat} (hS : ValidSet S u) (hlen : S.length < 2 ^ 32)
    (hu : 2 ^ (lg - 1) < u) (hu' : u ≤ 2 ^ 62) (junk : FastJunk) (pad : Nat) :
    ∃ t t', fastCtor lg junk S u = .ok t ∧ t.encodeRuns lg pad = .ok t' ∧
      (let h := t.height - 1 + lg
       t.encodeRunsC lg pad = .ok (t', ⟨storedAbove false S h lg, storedAbove false S h lg, storedAt false S h lg,
         storedAbove true S h lg + storedAt true S h lg - 1 + storedAt false S h lg⟩)) := by
  obtain ⟨h0, hh, h2⟩ := fast_depth hlg hu hu'
  obtain ⟨T, hc, hne, hT⟩ := fast_built hlg hS hlen hu hu' junk
  have hb : ∀ x ∈ S, x < 2 ^ (Nat.log2 (u - 1) + 1 - lg + lg) := fun x hx => hh ▸ lt_height (hS.below x hx)
  obtain ⟨k, he⟩ := fastOf_encode (pad := pad) (hw := junk.heightWithRuns) (runs := false) (empty := junk.emptyTrie) hne
  obtain ⟨c, hk, rfl⟩ := encoded_with_cost ((FastTrie.encodeRunsC_fst _ _ _).trans he) (FastTrie.encodeRunsC_cost rfl (fastOf_rep hne.nz))
  refine ⟨_, _, hc, he, ?_⟩
  rw [hk]
  obtain ⟨i1, i2, i3, i4⟩ := encCost_word _ T hne
  obtain ⟨p1, p2⟩ := (ctree_plain hne hT hb).size
  obtain ⟨r1, r2⟩ := (ctree_runs hne hT hb).size
  rw [length_flatBits_nodesOf] at p1 r1
  simp only [List.map_cons, List.map_nil, List.sum_cons, List.sum_nil] at p1 r1
  have hpos := (decCost_word _ (prune lg _ T)).2.2
  have key : ∀ (c : EncCost) (a b e f : Nat), c.nodes = a → c.moves = b → c.words = e → c.pushes = f → c = ⟨a, b, e, f⟩ := by
    rintro c a b e f rfl rfl rfl rfl; rfl
  refine congrArg _ (congrArg _ (key _ _ _ _ _ ?_ ?_ ?_ ?_)) <;> simp only [fastOf, Nat.add_sub_cancel] <;> omega

example : ValidSet [0, 1, 2, 3, 5, 12] 16 ∧
    (flatCtor [0, 1, 2, 3, 5, 12] 16 >>= fun t => t.encodeRunsC 0 >>= fun p => .ok p.2) = .ok ⟨10, 6, 0, 13⟩ ∧
    (levelCtor [0, 1, 2, 3, 5, 12] 16 >>= fun t => t.encodeRunsC true 0 >>= fun p => .ok p.2) = .ok ⟨10, 6, 0, 13⟩ := by decide +kernel

example : ValidSet (List.range' 1 61) 64 ∧ (fastCtor 3 ⟨0, 0, 0, false, false⟩ (List.range' 1 61) 64 >>= fun t =>
    t.encodeRunsC 3 0 >>= fun p => .ok p.2) = .ok ⟨7, 7, 8, 18⟩ := by decide +kernel

theorem encCost_pushes_le : (d : Nat) → (t : Tr d) → (encCost pairEnc 1 d t).pushes ≤ edges d t
  | 0, t => Nat.le_refl _
  | d + 1, t => by
    rw [encCost, edges]
    cases t.l with
    | none =>
      cases t.r with
      | none => exact Nat.zero_le _
      | some s' => have := encCost_pushes_le d s'; simp [EncCost.add]; omega
    | some s =>
      have := encCost_pushes_le d s
      cases t.r with
      | none => simp [EncCost.add]; omega
      | some s' =>
        have := encCost_pushes_le d s'
        simp only [EncCost.add, Option.elim_some]
        split <;> omega

theorem allPrefixes_le (S : List Nat) (h : Nat) : allPrefixes S h ≤ S.length * h := by
  rw [allPrefixes, Nat.mul_comm]
  have hle : ∀ (l : List Nat), (l.map (prefixes S)).sum ≤ l.length * S.length := by
    intro l
    induction l with
    | nil => simp
    | cons j l ih =>
      have : prefixes S j ≤ S.length := by
        rw [prefixes]
        exact (List.toFinset_card_le _).trans (by simp)
      rw [List.map_cons, List.sum_cons, List.length_cons, Nat.succ_mul]
      omega
  simpa using hle (List.range h)

/-- C72, how much that is: the positions collected are at most the bits that are 1 in the plain trie, one for every distinct prefix of
an element; so at most the number of elements times the height. The reads are bounded as those of C66. -/
theorem C72_level_bound {S : List Nat} {u : Nat} (hS : ValidSet S u) (hlen : S.length < 2 ^ 64) (hu : 2 ≤ u) (hu' : u ≤ 2 ^ 63)
    (il : Bool) (pad : Nat) :
    ∃ t t' k, levelCtor S u = .ok t ∧ t.encodeRunsC il pad = .ok (t', k) ∧ t.height = Nat.log2 (u - 1) + 1 ∧
      k.nodes ≤ treePart S.length t.height ∧ k.moves ≤ k.nodes ∧ k.words = 0 ∧ k.pushes ≤ allPrefixes S t.height ∧
      allPrefixes S t.height ≤ S.length * t.height := by
  obtain ⟨t, t', h1, h2, h3, h4⟩ := C72_level hS hlen hu hu' il pad
  obtain ⟨T, hc, hne, hT⟩ := level_built hS hlen hu (by omega)
  have hb : ∀ x ∈ S, x < 2 ^ (Nat.log2 (u - 1) + 1) := fun x hx => lt_height (hS.below x hx)
  refine ⟨t, t', _, h1, h4, h3, storedAbove_le hS.ne false _ 0, ?_, rfl, ?_, allPrefixes_le _ _⟩
  · rw [h3]
    simp only [storedAbove_zero]
    omega
  · have e := encCost_pushes_le _ T
    rw [encCost_set hne hT hS.increasing hb, allPrefixes_root hne hT hS.increasing hb] at e
    rw [h3]
    exact e

/-- C72, flat tries. -/
theorem C72_flat_bound {S : List Nat} {u : Nat} (hS : ValidSet S u) (hlen : S.length < 2 ^ 32) (hu : 3 ≤ u) (hu' : u ≤ 2 ^ 62) (pad : Nat) :
    ∃ t t' k, flatCtor S u = .ok t ∧ t.encodeRunsC pad = .ok (t', k) ∧ t.height = Nat.log2 (u - 1) + 1 ∧
      k.nodes ≤ treePart S.length t.height ∧ k.moves ≤ k.nodes ∧ k.words = 0 ∧ k.pushes ≤ allPrefixes S t.height ∧
      allPrefixes S t.height ≤ S.length * t.height := by
  obtain ⟨t, t', h1, h2, h3, h4⟩ := C72_flat hS hlen hu hu' pad
  obtain ⟨T, hc, hne, hT⟩ := flat_built hS hlen hu hu'
  have hb : ∀ x ∈ S, x < 2 ^ (Nat.log2 (u - 1) + 1) := fun x hx => lt_height (hS.below x hx)
  refine ⟨t, t', _, h1, h4, h3, storedAbove_le hS.ne false _ 0, ?_, rfl, ?_, allPrefixes_le _ _⟩
  · rw [h3]
    simp only [storedAbove_zero]
    omega
  · have e := encCost_pushes_le _ T
    rw [encCost_set hne hT hS.increasing hb, allPrefixes_root hne hT hS.increasing hb] at e
    rw [h3]
    exact e

/-- C72, fast tries: fewer positions than nodes and twice the words of the plain trie, whose words are at most the elements. -/
theorem C72_fast_bound {lg : Nat} (hlg : 3 ≤ lg ∧ lg ≤ 6) {S : List Nat} {u : Nat} (hS : ValidSet S u) (hlen : S.length < 2 ^ 32)
    (hu : 2 ^ (lg - 1) < u) (hu' : u ≤ 2 ^ 62) (junk : FastJunk) (pad : Nat) :
    ∃ t t' k, fastCtor lg junk S u = .ok t ∧ t.encodeRunsC lg pad = .ok (t', k) ∧ k.nodes ≤ treePart S.length (t.height - 1) ∧
      k.moves = k.nodes ∧ k.words ≤ S.length ∧ k.pushes < k.nodes + 2 * k.words := by
  obtain ⟨t, t', h1, h2, h3⟩ := C72_fast hlg hS hlen hu hu' junk pad
  have hmono : ∀ j, storedAt true S (t.height - 1 + lg) j ≤ storedAt false S (t.height - 1 + lg) j := by
    intro j
    rw [storedAt, storedAt]
    refine List.Sublist.length_le (List.monotone_filter_right _ fun k hk => ?_)
    simp only [Bool.and_eq_true] at hk
    simp [hk.1]
  have e1 : storedAbove true S (t.height - 1 + lg) lg ≤ storedAbove false S (t.height - 1 + lg) lg := sum_le_sum fun i _ => hmono _
  have e2 := hmono lg
  have e3 := (storedAt_le false S (t.height - 1 + lg) lg).1
  refine ⟨t, t', _, h1, h3, ?_, rfl, e3, ?_⟩
  · have := storedAbove_le hS.ne false (t.height - 1 + lg) lg
    rwa [Nat.add_sub_cancel] at this
  · have hpos : 0 < storedAt false S (t.height - 1 + lg) lg := by
      obtain ⟨-, hh, -⟩ := fast_depth hlg hu hu'
      obtain ⟨T, hc, hne, hT⟩ := fast_built hlg hS hlen hu hu' junk
      have hb : ∀ x ∈ S, x < 2 ^ (Nat.log2 (u - 1) + 1 - lg + lg) := fun x hx => hh ▸ lt_height (hS.below x hx)
      rw [hc] at h1
      injection h1 with h1
      rw [← h1]
      exact (ctree_plain hne hT hb).size.2 ▸ List.length_pos_of_ne_nil (leaves_ne _ [T] (by simp) (by simpa using hne))
    simp only
    omega

end CBT
