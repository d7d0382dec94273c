import Verif.Proof.UnreadableFlat
import Verif.Proof.Inter

/-!
# Sequential run-aware intersection of tries that cannot be read everywhere
-/

namespace CBT

open Spec

theorem blockFull_iff {S : List Nat} {j k : Nat} : blockFull S j k = true ↔ ∀ y, y / 2 ^ j = k → y ∈ S := by
  have hpos := Nat.two_pow_pos j
  simp only [blockFull, List.all_eq_true, List.mem_range, decide_eq_true_iff]
  constructor
  · intro h y hy
    have := h (y % 2 ^ j) (Nat.mod_lt _ hpos)
    rw [← hy, Nat.div_add_mod'] at this
    exact this
  · intro h i hi
    apply h
    rw [Nat.mul_comm, Nat.mul_add_div hpos, Nat.div_eq_of_lt hi, Nat.add_zero]

theorem runBlock_iff {S : List Nat} {t j k : Nat} : runBlock S t j k = true ↔
    blockFull S j k = true ∧ (j < t → ¬ blockFull S (j + 1) (k / 2) = true) := by
  rw [runBlock, Bool.and_eq_true, Bool.or_eq_true, decide_eq_true_iff, Bool.not_eq_true', Bool.not_eq_true]
  constructor
  · rintro ⟨h1, h2 | h2⟩
    · exact ⟨h1, fun h => by omega⟩
    · exact ⟨h1, fun _ => h2⟩
  · rintro ⟨h1, h2⟩
    refine ⟨h1, ?_⟩
    by_cases h : t ≤ j
    · exact Or.inl h
    · exact Or.inr (h2 (by omega))

theorem fullAt_iff {t j k : Nat} {P : Nat → Bool} {S : List Nat} (hT : Holds t P S) (hj : j ≤ t) (hk : k < 2 ^ (t - j)) :
    FullAt P j k ↔ blockFull S j k = true := by
  rw [blockFull_iff]
  constructor
  · intro h y hy
    have := h y hy
    rw [hT y (inBlock_lt hj hk hy)] at this
    simpa using this
  · intro h y hy
    rw [hT y (inBlock_lt hj hk hy)]
    simpa using h y hy

theorem half_lt {t j k : Nat} (hj : j < t) (hk : k < 2 ^ (t - j)) : k / 2 < 2 ^ (t - (j + 1)) := by
  rw [show t - j = (t - (j + 1)) + 1 by omega, Nat.pow_succ] at hk
  omega

/-- The nodes without children of a pruned trie are the full blocks in no larger one. -/
theorem bareAt_runBlock {d : Nat} {T : Tr d} {S : List Nat} (hne : NE 1 d T) (hT : Holds (d + 1) (has 1 d T) S) (j k : Nat) :
    BareAt 1 d (prune 1 d T) j k ↔ 1 < j ∧ j ≤ d + 1 ∧ k < 2 ^ (d + 1 - j) ∧ runBlock S (d + 1) j k = true := by
  rw [bareAt_prune d T hne, runBlock_iff]
  constructor
  · rintro ⟨h1, h2, h3, h4, h5⟩
    refine ⟨h1, h2, h3, (fullAt_iff hT h2 h3).1 h4, fun h => ?_⟩
    rw [← fullAt_iff hT (by omega) (half_lt h h3)]
    exact h5 h
  · rintro ⟨h1, h2, h3, h4, h5⟩
    refine ⟨h1, h2, h3, (fullAt_iff hT h2 h3).2 h4, fun h => ?_⟩
    rw [fullAt_iff hT (by omega) (half_lt h h3)]
    exact h5 h

theorem mem_runBlocks {S : List Nat} {t j k : Nat} : k ∈ runBlocks S t j ↔ k < 2 ^ (t - j) ∧ runBlock S t j k = true := by
  simp [runBlocks]

theorem onlyFours_iff {S : List Nat} : onlyFours S = true ↔ ∀ x ∈ S, ∀ y, y / 4 = x / 4 → y ∈ S := by
  simp only [onlyFours, List.all_eq_true]
  constructor
  · intro h x hx y hy
    exact blockFull_iff.1 (h x hx) y (by simpa using hy)
  · intro h x hx
    rw [blockFull_iff]
    intro y hy
    exact h x hx y (by simpa using hy)

theorem leaves_nil_iff {d : Nat} {T : Tr d} {S : List Nat} (hd : 1 ≤ d) (hne : NE 1 d T) (hT : Holds (d + 1) (has 1 d T) S)
    (hb : ∀ x ∈ S, x < 2 ^ (d + 1)) : leaves d [prune 1 d T] = [] ↔ onlyFours S = true := by
  rw [onlyFours_iff]
  constructor
  · intro hl x hx y hy
    have hy' := sameBlock_lt (k := 2) hy (by omega : 2 ≤ d + 1) (hb x hx)
    have := prune_no_leaves d T hl x y (hb x hx) hy (by rw [hT x (hb x hx)]; simpa using hx)
    rw [hT y hy'] at this
    simpa using this
  · intro h
    refine leaves_nil_of_full d T hne hd fun x y hx hy hT' => ?_
    have hy' := sameBlock_lt (k := 2) hy (by omega : 2 ≤ d + 1) hx
    rw [hT x hx] at hT'
    rw [hT y hy']
    simpa using h x (by simpa using hT') y hy

/-- In a set of full blocks of four no run block is smaller than four. -/
theorem runBlocks_small {S : List Nat} {t j : Nat} (h : onlyFours S = true) (ht : 2 ≤ t) (hj : j < 2) : runBlocks S t j = [] := by
  rw [List.eq_nil_iff_forall_not_mem]
  intro k hk
  obtain ⟨-, hk⟩ := mem_runBlocks.1 hk
  obtain ⟨h1, h2⟩ := runBlock_iff.1 hk
  refine h2 (by omega) (blockFull_iff.2 fun y hy => ?_)
  have hx : k * 2 ^ j ∈ S := blockFull_iff.1 h1 _ (Nat.mul_div_cancel _ (Nat.two_pow_pos j))
  refine onlyFours_iff.1 h _ hx y ?_
  have : j = 0 ∨ j = 1 := by omega
  rcases this with rfl | rfl <;> simp at hy ⊢ <;> omega

theorem unreadable_iff {d pad : Nat} {T : Tr d} {S : List Nat} (hd : 1 ≤ d) (hne : NE 1 d T) (hT : Holds (d + 1) (has 1 d T) S)
    (hb : ∀ x ∈ S, x < 2 ^ (d + 1)) (hl : leaves d [prune 1 d T] = []) (j x : Nat) :
    (∃ k, x = k * 2 ^ j ∧ unreadable pad (d + 1) S j k) ↔
      j = (lastLv 1 d [(prune 1 d T, 0)]).1 ∧ x ∈ (lastLv 1 d [(prune 1 d T, 0)]).2.drop (pad / 2) := by
  obtain ⟨h1, h2, h3⟩ := lastLv_spec 1 d [(prune 1 d T, 0)] (by simp) hl (by simp [Apart])
  obtain ⟨_, _, _, _, _, h4⟩ := levels_last 1 d [(prune 1 d T, 0)] (by simp) hl
  have hle := lastLv_le 1 d [(prune 1 d T, 0)]
  have hof := (leaves_nil_iff hd hne hT hb).1 hl
  generalize hj0 : (lastLv 1 d [(prune 1 d T, 0)]).1 = j0 at *
  generalize (lastLv 1 d [(prune 1 d T, 0)]).2 = L at *
  have h1' : ∀ x, x ∈ L ↔ ∃ k, BareAt 1 d (prune 1 d T) j0 k ∧ x = k * 2 ^ j0 := by
    intro x
    rw [h1]
    constructor
    · rintro ⟨t, p, k, hm, hB, rfl⟩
      rw [List.mem_singleton, Prod.mk.injEq] at hm
      obtain ⟨rfl, rfl⟩ := hm
      exact ⟨k, hB, by simp⟩
    · rintro ⟨k, hB, rfl⟩
      exact ⟨_, 0, k, by simp, hB, by simp⟩
  have h2' : ∀ j k, BareAt 1 d (prune 1 d T) j k → j0 ≤ j := fun j k h => h2 _ 0 j k (by simp) h
  have hL : L = (runBlocks S (d + 1) j0).map (· * 2 ^ j0) := by
    have hs : ((runBlocks S (d + 1) j0).map (· * 2 ^ j0)).Pairwise (· < ·) := by
      rw [List.pairwise_map]
      exact (List.pairwise_lt_range.filter _).imp fun h => Nat.mul_lt_mul_of_pos_right h (Nat.two_pow_pos j0)
    refine List.Perm.eq_of_pairwise (le := (· < ·)) (fun a b _ _ h h' => absurd h (Nat.lt_asymm h')) h3 hs
      ((List.perm_ext_iff_of_nodup (h3.imp Nat.ne_of_lt) (hs.imp Nat.ne_of_lt)).2 fun x => ?_)
    rw [h1', List.mem_map]
    constructor
    · rintro ⟨k, hB, rfl⟩
      obtain ⟨-, -, hk, hr⟩ := (bareAt_runBlock hne hT _ _).1 hB
      exact ⟨k, mem_runBlocks.2 ⟨hk, hr⟩, rfl⟩
    · rintro ⟨k, hk, rfl⟩
      obtain ⟨hk, hr⟩ := mem_runBlocks.1 hk
      obtain ⟨y, hy⟩ := List.exists_mem_of_ne_nil L h4
      obtain ⟨k', hB, -⟩ := (h1' y).1 hy
      exact ⟨k, (bareAt_runBlock hne hT _ _).2 ⟨hB.bounds.1, hle, hk, hr⟩, rfl⟩
  have hne0 : runBlocks S (d + 1) j0 ≠ [] := by
    intro h
    rw [hL, h] at h4
    exact h4 rfl
  have hsmall : ∀ i < j0, runBlocks S (d + 1) i = [] := by
    intro i hi
    by_cases h : i < 2
    · exact runBlocks_small hof (by omega) h
    · rw [List.eq_nil_iff_forall_not_mem]
      intro k hk
      obtain ⟨hk, hr⟩ := mem_runBlocks.1 hk
      have := h2' i k ((bareAt_runBlock hne hT _ _).2 ⟨by omega, by omega, hk, hr⟩)
      omega
  constructor
  · rintro ⟨k, rfl, -, hu1, hu2⟩
    have hj : j = j0 := by
      rcases Nat.lt_trichotomy j j0 with h | h | h
      · rw [hsmall j h] at hu2; simp at hu2
      · exact h
      · exact (hne0 (hu1 j0 h)).elim
    subst hj
    refine ⟨rfl, ?_⟩
    rw [hL, ← List.map_drop]
    exact List.mem_map.2 ⟨k, hu2, rfl⟩
  · rintro ⟨rfl, hx⟩
    rw [hL, ← List.map_drop, List.mem_map] at hx
    obtain ⟨k, hk, rfl⟩ := hx
    exact ⟨k, rfl, hof, hsmall, hk⟩

/-- The trie holds `S`, and cannot read exactly the nodes of the blocks in `bad`. -/
structure HoldsB (d : Nat) (S : List Nat) (bad : Nat → Nat → Prop) (n : Nav) : Prop where
  height : n.height = d + 1
  depth : d ≤ 62
  below : ∀ x ∈ S, x < 2 ^ (d + 1)
  tree : ∃ T, RepB n bad (leafF n) 1 d 0 T 0 0 ∧ NZ 1 d T ∧ Holds (d + 1) (hasR 1 d T) S ∧
    ∀ j x, bad j x → ∃ k, x = k * 2 ^ j ∧ BareAt 1 d T j k

theorem forall2_zip {A B : Type} {r : A → B → Prop} {l : List A} {m : List B} (h : List.Forall₂ r l m) :
    ∀ a ∈ l, ∃ b, (a, b) ∈ l.zip m ∧ r a b := by
  induction h with
  | nil => simp
  | cons h1 _ ih =>
    intro a ha
    rcases List.mem_cons.1 ha with rfl | ha
    · exact ⟨_, List.mem_cons_self, h1⟩
    · obtain ⟨b, hb, h⟩ := ih a ha
      exact ⟨b, List.mem_cons_of_mem _ hb, h⟩

theorem forall2_zip_right {A B : Type} {r : A → B → Prop} {l : List A} {m : List B} (h : List.Forall₂ r l m) :
    ∀ b ∈ m, ∃ a, (a, b) ∈ l.zip m ∧ r a b := by
  induction h with
  | nil => simp
  | cons h1 _ ih =>
    intro b hb
    rcases List.mem_cons.1 hb with rfl | hb
    · exact ⟨_, List.mem_cons_self, h1⟩
    · obtain ⟨a, ha, h⟩ := ih b hb
      exact ⟨a, List.mem_cons_of_mem _ ha, h⟩

theorem HoldsB.trees {d : Nat} {as : List (Nav × (Nat → Nat → Prop))} {sets : List (List Nat)}
    (h : List.Forall₂ (fun S (a : Nav × (Nat → Nat → Prop)) => HoldsB d S a.2 a.1) sets as) :
    ∃ ts : List (Tr d), List.Forall₂ (fun (a : Nav × (Nat → Nat → Prop)) t => RepB a.1 a.2 (leafF a.1) 1 d 0 t 0 0 ∧
        ∀ j x, a.2 j x → ∃ k, x = k * 2 ^ j ∧ BareAt 1 d t j k) as ts ∧
      List.Forall₂ (fun S t => Holds (d + 1) (hasR 1 d t) S) sets ts ∧ ∀ t ∈ ts, NZ 1 d t := by
  induction h with
  | nil => exact ⟨[], .nil, .nil, by simp⟩
  | cons h1 _ ih =>
    obtain ⟨ts, h2, h3, h4⟩ := ih
    obtain ⟨T, h5, h6, h7, h8⟩ := h1.tree
    exact ⟨T :: ts, .cons ⟨h5, h8⟩ h2, .cons h7 h3, by simpa using ⟨h6, h4⟩⟩

theorem RepsA.of_fst {β : Type} {d ℓ : Nat} : ∀ (as : List (Nav × β)) (ts : List (Option (Tr d))) (os : List (Option Nat)) (bs : List Bool),
    RepsA Prod.fst (fun a => leafF a.1) d ℓ as ts os bs → RepsA id leafF d ℓ (as.map Prod.fst) ts os bs := by
  apply RepsA.rec'
  · intro os bs; trivial
  · intro a as t ts id os bs h _ ih; exact ⟨h, ih⟩
  · intro a as ts o os bs _ ih; simpa [RepsA] using ih

theorem flat_leafOKR_fst {β : Type} (as : List (Nav × β)) (height : Nat) :
    LeafOKR Prod.fst (fun a => leafF a.1) as (flatCfg height) 1 1 := by
  have h := flat_leafOKR (as.map Prod.fst) height
  refine ⟨h.skip, fun ℓ ts os bs pref r hr ht hd => ?_⟩
  have := h.leafAnd ℓ ts os bs pref r (RepsA.of_fst _ _ _ _ hr) ht hd
  rwa [List.map_id] at this

theorem RepsB.root {d : Nat} : (m : Nat) → (as : List (Nav × (Nat → Nat → Prop))) → (ts : List (Tr d)) → as.length ≤ m →
    List.Forall₂ (fun (a : Nav × (Nat → Nat → Prop)) t => RepB a.1 a.2 (leafF a.1) 1 d 0 t 0 0 ∧
        ∀ j x, a.2 j x → ∃ k, x = k * 2 ^ j ∧ BareAt 1 d t j k) as ts →
    RepsB Prod.fst Prod.snd (fun a => leafF a.1) 1 d 0 0 as (ts.map some) (List.replicate m (some 0)) (List.replicate m true)
  | _, [], [], _, _ => by simp [RepsB]
  | 0, _ :: _, _, h, _ => by simp at h
  | m + 1, a :: as, t :: ts, h, .cons h1 h2 =>
    ⟨h1.1, RepsB.root m as ts (by simpa using h) h2⟩

open Classical in
/-- Sequential run-aware `Intersect`. -/
theorem intersect_seq_hits {d : Nat} {sets : List (List Nat)} {as : List (Nav × (Nat → Nat → Prop))}
    (h : List.Forall₂ (fun S (a : Nav × (Nat → Nat → Prop)) => HoldsB d S a.2 a.1) sets as)
    (hne : as ≠ []) (hlen : as.length ≤ 16) {env : Env} (hw : env.hw ≠ 0) :
    ∃ R, IsIntersection sets R ∧ intersect (as.map Prod.fst) true false env =
      if ∃ a ∈ as, ∃ j k, a.2 j (k * 2 ^ j) ∧ ∀ S ∈ sets, ∃ y ∈ S, y / 2 ^ j = k then .error .oob else .ok R := by
  obtain ⟨ts, h1, h3, h4⟩ := HoldsB.trees h
  have hd : d ≤ 62 := by
    cases h with
    | nil => exact (hne rfl).elim
    | cons h _ => exact h.depth
  have hbelow : ∀ S ∈ sets, ∀ x ∈ S, x < 2 ^ (d + 1) := forall2_imp_left h fun _ _ h => h.below
  refine ⟨_, isIntersection_enum (by rintro rfl; cases h; exact hne rfl) hbelow h3, ?_⟩
  rw [intersect_unfold (d := d) (by simpa using hne) (by
    intro n hn
    obtain ⟨a, ha, rfl⟩ := List.mem_map.1 hn
    exact forall2_imp_right h (fun _ _ h => h.height) a ha)]
  rw [intersectBody]
  simp only [hw, if_false, Bool.false_eq_true, false_and, if_true]
  have hstop : (flatCfg (d + 1)).stop = d + 1 := rfl
  rw [hstop, runsAND_hits Prod.fst Prod.snd (fun a => leafF a.1) 1 (flat_leafOKR_fst as (d + 1)) (show d + 1 < 64 by omega) d 0
    (ts.map some) _ _ 0 [] (RepsB.root 16 as ts hlen h1) (by simp [flatCfg]) (dvd_zero _)]
  have hiff : Hits Prod.snd 1 d 0 as (ts.map some) ↔
      ∃ a ∈ as, ∃ j k, a.2 j (k * 2 ^ j) ∧ ∀ S ∈ sets, ∃ y ∈ S, y / 2 ^ j = k := by
    rw [hits_iff Prod.snd 1 d 0 as (ts.map some) (fun t ht => h4 t (by simpa using ht))]
    have hmeet : ∀ j k, j ≤ d + 1 → k < 2 ^ (d + 1 - j) →
        ((∀ t', some t' ∈ ts.map some → ∃ y, y / 2 ^ j = k ∧ hasR 1 d t' y = true) ↔ ∀ S ∈ sets, ∃ y ∈ S, y / 2 ^ j = k) := by
      intro j k hj hk
      constructor
      · intro h S hS
        obtain ⟨t, hm, hT⟩ := forall2_zip h3 S hS
        have hm := (List.of_mem_zip hm).2
        obtain ⟨y, hy, hR⟩ := h t (by simpa using hm)
        rw [hT y (inBlock_lt hj hk hy)] at hR
        exact ⟨y, by simpa using hR, hy⟩
      · intro h t' ht'
        revert t'
        simp only [List.mem_map, Option.some.injEq, exists_eq_right]
        intro t ht
        obtain ⟨S, hm, hT⟩ := forall2_zip_right h3 t ht
        have hm := (List.of_mem_zip hm).1
        obtain ⟨y, hy, e⟩ := h S hm
        exact ⟨y, e, by rw [hT y (hbelow S hm y hy)]; simpa using hy⟩
    constructor
    · rintro ⟨a, t, j, k, hm, hB, hbad, hmet⟩
      rw [Nat.zero_add] at hbad
      exact ⟨a, (List.of_mem_zip hm).1, j, k, hbad, (hmeet j k hB.bounds.2.1 hB.bounds.2.2).1 hmet⟩
    · rintro ⟨a, ha, j, k, hbad, hmet⟩
      obtain ⟨t, hm, h5⟩ := forall2_zip h1 a ha
      obtain ⟨k', e, hB⟩ := h5.2 j _ hbad
      have hk : k = k' := Nat.eq_of_mul_eq_mul_right (Nat.two_pow_pos j) e
      subst hk
      refine ⟨a, t, j, k, ?_, hB, by rwa [Nat.zero_add], (hmeet j k hB.bounds.2.1 hB.bounds.2.2).2 hmet⟩
      rw [List.zip_map_right, List.mem_map]
      exact ⟨(a, t), hm, rfl⟩
  rw [allO_some]
  by_cases hc : Hits Prod.snd 1 d 0 as (ts.map some)
  · rw [if_pos hc, if_pos (hiff.1 hc)]
  · rw [if_neg hc, if_neg (fun h => hc (hiff.2 h))]
    rfl

end CBT
