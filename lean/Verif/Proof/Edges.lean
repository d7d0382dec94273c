import Verif.SpecCount
import Verif.Proof.Count

/-!
# Counting the ones of a trie
-/

namespace CBT

open Spec

/-- The number of edges below a node; a last-level node is a word of two bits. -/
def edges : (d : Nat) → Tr d → Nat
  | 0, t => (if t.word.testBit 0 then 1 else 0) + (if t.word.testBit 1 then 1 else 0)
  | d + 1, t => (t.l.elim 0 fun s => 1 + edges d s) + (t.r.elim 0 fun s => 1 + edges d s)

theorem kids_edges {d : Nat} : (f : List (Tr (d + 1))) →
    (kids f).length + ((kids f).map (edges d)).sum = (f.map (edges (d + 1))).sum
  | [] => rfl
  | t :: f => by
    have ih := kids_edges f
    rw [kids_cons, List.length_append, List.map_append, List.sum_append, List.map_cons, List.sum_cons, ← ih]
    rw [edges, kidsOf]
    cases t.l <;> cases t.r <;> simp <;> omega

theorem count_leafBits (w : Nat) : (leafBits w).count true = (if w.testBit 0 then 1 else 0) + (if w.testBit 1 then 1 else 0) := by
  unfold leafBits
  cases w.testBit 0 <;> cases w.testBit 1 <;> rfl

theorem count_edges : (d : Nat) → (f : List (Tr d)) →
    (flatBits d f).count true + ((leaves d f).flatMap leafBits).count true = (f.map (edges d)).sum
  | 0, f => by
    induction f with
    | nil => rfl
    | cons t f ih =>
      simp only [flatBits, leaves, List.count_nil, List.map_cons, List.flatMap_cons, List.count_append, List.sum_cons] at ih ⊢
      rw [edges, count_leafBits]
      omega
  | d + 1, f => by
    rw [flatBits, leaves, List.count_append, count_bitsOf, Nat.add_assoc, count_edges d (kids f), kids_edges]

/-! ## Distinct prefixes -/

theorem prefixes_nil (j : Nat) : prefixes [] j = 0 := rfl

theorem prefixes_append {S1 S2 : List Nat} {j k p : Nat} (hj : j ≤ k) (hp : 2 ^ k ∣ p) (h1 : ∀ x ∈ S1, x < p)
    (h2 : ∀ x ∈ S2, p ≤ x) : prefixes (S1 ++ S2) j = prefixes S1 j + prefixes S2 j := by
  rw [prefixes, List.map_append, List.toFinset_append, Finset.card_union_of_disjoint]
  · rfl
  · rw [Finset.disjoint_left]
    intro a ha hb
    rw [List.mem_toFinset, List.mem_map] at ha hb
    obtain ⟨x, hx, rfl⟩ := ha
    obtain ⟨y, hy, he⟩ := hb
    have hx' := h1 x hx
    have hy' := h2 y hy
    obtain ⟨c, rfl⟩ : 2 ^ j ∣ p := (Nat.pow_dvd_pow 2 hj).trans hp
    have hpos := Nat.two_pow_pos j
    have e1 : x / 2 ^ j < c := Nat.div_lt_of_lt_mul hx'
    have e2 : c ≤ y / 2 ^ j := (Nat.le_div_iff_mul_le hpos).2 (by rw [Nat.mul_comm]; exact hy')
    omega

theorem prefixes_block {S : List Nat} {k p : Nat} (hp : 2 ^ k ∣ p) (h : ∀ x ∈ S, p ≤ x ∧ x < p + 2 ^ k) :
    prefixes S k = if S = [] then 0 else 1 := by
  split
  · rename_i e; subst e; rfl
  · rename_i hne
    obtain ⟨c, rfl⟩ := hp
    have hpos := Nat.two_pow_pos k
    rw [prefixes, Finset.card_eq_one]
    refine ⟨c, ?_⟩
    ext a
    rw [List.mem_toFinset, List.mem_map, Finset.mem_singleton]
    have key : ∀ x ∈ S, x / 2 ^ k = c := by
      intro x hx
      obtain ⟨h1, h2⟩ := h x hx
      exact Nat.div_eq_of_lt_le (by rw [Nat.mul_comm]; exact h1) (by rw [Nat.succ_mul, Nat.mul_comm]; exact h2)
    constructor
    · rintro ⟨x, hx, rfl⟩; exact key x hx
    · rintro rfl
      obtain ⟨x, hx⟩ := List.exists_mem_of_ne_nil _ hne
      exact ⟨x, hx, key x hx⟩

theorem prefixes_zero {S : List Nat} (h : S.Nodup) : prefixes S 0 = S.length := by
  rw [prefixes, List.toFinset_card_of_nodup]
  · simp
  · simpa using h

theorem prefixes_mono {S S' : List Nat} (h : ∀ x ∈ S', x ∈ S) (j : Nat) : prefixes S' j ≤ prefixes S j := by
  apply Finset.card_le_card
  intro a ha
  rw [List.mem_toFinset, List.mem_map] at ha ⊢
  obtain ⟨x, hx, rfl⟩ := ha
  exact ⟨x, h x hx, rfl⟩

theorem sum_le_sum {l : List Nat} {f g : Nat → Nat} (h : ∀ x ∈ l, f x ≤ g x) : (l.map f).sum ≤ (l.map g).sum := by
  induction l with
  | nil => simp
  | cons a l ih =>
    rw [List.map_cons, List.map_cons, List.sum_cons, List.sum_cons]
    have := h a (by simp)
    have := ih (fun x hx => h x (List.mem_cons_of_mem _ hx))
    omega

theorem sum_zero {l : List Nat} (h : ∀ n ∈ l, n = 0) : l.sum = 0 := by
  induction l with
  | nil => rfl
  | cons a l ih =>
    rw [List.sum_cons, h a (by simp), ih fun n hn => h n (List.mem_cons_of_mem _ hn)]

theorem sum_congr {l : List Nat} {f g : Nat → Nat} (h : ∀ x ∈ l, f x = g x) : (l.map f).sum = (l.map g).sum := by
  rw [List.map_congr_left h]

theorem sum_add {l : List Nat} {f g : Nat → Nat} : (l.map fun x => f x + g x).sum = (l.map f).sum + (l.map g).sum := by
  induction l with
  | nil => rfl
  | cons a l ih => simp only [List.map_cons, List.sum_cons, ih]; omega

theorem enum_bounds {k p : Nat} {P : Nat → Bool} : ∀ x ∈ enum k P p, p ≤ x ∧ x < p + 2 ^ k := by
  intro x hx
  obtain ⟨y, hy, -, rfl⟩ := mem_enum.1 hx
  omega

/-- The elements below the two children of a node. -/
def loE (d : Nat) (T : Tr (d + 1)) (p : Nat) : List Nat := match T.l with | none => [] | some s => enum (d + 1) (has 1 d s) p
def hiE (d : Nat) (T : Tr (d + 1)) (p : Nat) : List Nat :=
  match T.r with | none => [] | some s => enum (d + 1) (has 1 d s) (p + 2 ^ (d + 1))

theorem enum_split (d : Nat) (T : Tr (d + 1)) (p : Nat) : enum (d + 1 + 1) (has 1 (d + 1) T) p = loE d T p ++ hiE d T p :=
  enum_has_node T p

theorem loE_bounds {d : Nat} {T : Tr (d + 1)} {p : Nat} : ∀ x ∈ loE d T p, p ≤ x ∧ x < p + 2 ^ (d + 1) := by
  unfold loE
  cases T.l with
  | none => simp
  | some s => exact enum_bounds

theorem hiE_bounds {d : Nat} {T : Tr (d + 1)} {p : Nat} : ∀ x ∈ hiE d T p, p + 2 ^ (d + 1) ≤ x ∧ x < p + 2 ^ (d + 1) + 2 ^ (d + 1) := by
  unfold hiE
  cases T.r with
  | none => simp
  | some s => exact enum_bounds

theorem enum_ne_nil {d p : Nat} {s : Tr d} (h : NE 1 d s) : enum (d + 1) (has 1 d s) p ≠ [] := by
  obtain ⟨x, hx, hs⟩ := exists_has d s h
  exact List.ne_nil_of_mem (mem_enum.2 ⟨x, hx, hs, rfl⟩)

theorem loE_nil {d p : Nat} {T : Tr (d + 1)} (h : NE 1 (d + 1) T) : loE d T p = [] ↔ T.l = none := by
  unfold loE
  cases hl : T.l with
  | none => simp
  | some s => simp [enum_ne_nil (h.2.1 s hl)]

theorem hiE_nil {d p : Nat} {T : Tr (d + 1)} (h : NE 1 (d + 1) T) : hiE d T p = [] ↔ T.r = none := by
  unfold hiE
  cases hl : T.r with
  | none => simp
  | some s => simp [enum_ne_nil (h.2.2 s hl)]

/-- The root has one edge for every half with elements. -/
theorem prefixes_top {d p : Nat} {T : Tr (d + 1)} (h : NE 1 (d + 1) T) (hp : 2 ^ (d + 1 + 1) ∣ p) :
    prefixes (loE d T p ++ hiE d T p) (d + 1) = T.l.toList.length + T.r.toList.length := by
  rw [prefixes_append (Nat.le_refl _) (dvd_hi hp) (fun x hx => (loE_bounds x hx).2) (fun x hx => (hiE_bounds x hx).1),
    prefixes_block (dvd_lo hp) loE_bounds, prefixes_block (dvd_hi hp) hiE_bounds, if_congr (loE_nil h) rfl rfl,
    if_congr (hiE_nil h) rfl rfl]
  cases T.l <;> cases T.r <;> simp

theorem prefixes_word (t : Tr 0) (p : Nat) : prefixes (enum 1 (has 1 0 t) p) 0 = edges 0 t := by
  rw [prefixes_zero ((enum_sorted _ _ _).imp fun h => Nat.ne_of_lt h), enum_word, edges]
  cases Nat.testBit t.word 0 <;> cases Nat.testBit t.word 1 <;> rfl

/-- The edges of a trie are the distinct prefixes of its elements. -/
theorem edges_eq : (d : Nat) → (T : Tr d) → (p : Nat) → NE 1 d T → 2 ^ (d + 1) ∣ p →
    edges d T = allPrefixes (enum (d + 1) (has 1 d T) p) (d + 1)
  | 0, T, p, _, _ => by
    have := prefixes_word T p
    simpa [allPrefixes] using this.symm
  | d + 1, T, p, h, hp => by
    have hlo : ∀ s, T.l = some s → edges d s = allPrefixes (loE d T p) (d + 1) := by
      intro s hs
      rw [edges_eq d s p (h.2.1 s hs) (dvd_lo hp), loE, hs]
    have hhi : ∀ s, T.r = some s → edges d s = allPrefixes (hiE d T p) (d + 1) := by
      intro s hs
      rw [edges_eq d s _ (h.2.2 s hs) (dvd_hi hp), hiE, hs]
    have e0 : allPrefixes [] (d + 1) = 0 := by
      unfold allPrefixes
      apply sum_zero
      simp [prefixes_nil]
    rw [enum_split, allPrefixes, List.range_succ, List.map_append, List.sum_append, List.map_singleton, List.sum_singleton,
      prefixes_top h hp]
    rw [sum_congr (g := fun j => prefixes (loE d T p) j + prefixes (hiE d T p) j), sum_add]
    · change _ = allPrefixes (loE d T p) (d + 1) + allPrefixes (hiE d T p) (d + 1) + _
      rw [edges]
      cases h1 : T.l with
      | none =>
        rw [(loE_nil h).2 h1, e0]
        cases h2 : T.r with
        | none => rw [(hiE_nil h).2 h2, e0]; rfl
        | some s' => simp [hhi s' h2]; omega
      | some s =>
        cases h2 : T.r with
        | none => rw [(hiE_nil h).2 h2, e0]; simp [hlo s h1]; omega
        | some s' => simp [hlo s h1, hhi s' h2]; omega
    · intro j hj
      rw [List.mem_range] at hj
      exact prefixes_append (by omega : j ≤ d + 1) (dvd_hi hp) (fun x hx => (loE_bounds x hx).2)
        (fun x hx => (hiE_bounds x hx).1)

/-! ## After pruning -/

theorem fullBlock_iff {S : List Nat} {i x : Nat} : fullBlock S i x = true ↔ ∀ y, y / 2 ^ i = x / 2 ^ i → y ∈ S := by
  rw [fullBlock, List.all_eq_true]
  have hpos := Nat.two_pow_pos i
  constructor
  · intro h y hy
    have := h (y % 2 ^ i) (List.mem_range.2 (Nat.mod_lt _ hpos))
    rw [decide_eq_true_iff, ← hy, Nat.mul_comm, Nat.div_add_mod] at this
    exact this
  · intro h r hr
    rw [List.mem_range] at hr
    rw [decide_eq_true_iff]
    apply h
    rw [Nat.mul_comm, Nat.mul_add_div hpos, Nat.div_eq_of_lt hr, Nat.add_zero]

theorem survives_iff {S : List Nat} {h j x : Nat} :
    survives S h j x = true ↔ ∀ i, j < i → 2 ≤ i → i ≤ h → fullBlock S i x = false := by
  rw [survives, List.all_eq_true]
  constructor
  · intro H i h1 h2 h3
    have := H i (List.mem_range.2 (by omega))
    rw [Bool.or_eq_true, decide_eq_true_iff] at this
    rcases this with h | h
    · omega
    · simpa using h
  · intro H i hi
    rw [List.mem_range] at hi
    rw [Bool.or_eq_true, decide_eq_true_iff]
    by_cases hc : i ≤ j ∨ i < 2
    · exact .inl hc
    · right
      rw [H i (by omega) (by omega) (by omega)]; rfl

theorem sameBlock_bounds {i k p x y : Nat} (hik : i ≤ k) (hp : 2 ^ k ∣ p) (hx : p ≤ x ∧ x < p + 2 ^ k) (h : y / 2 ^ i = x / 2 ^ i) :
    p ≤ y ∧ y < p + 2 ^ k := by
  obtain ⟨c, rfl⟩ := hp
  obtain ⟨j, rfl⟩ : ∃ j, k = i + j := ⟨k - i, by omega⟩
  have h' : y / 2 ^ (i + j) = x / 2 ^ (i + j) := by rw [Nat.pow_add, ← Nat.div_div_eq_div_mul, ← Nat.div_div_eq_div_mul, h]
  have hpos := Nat.two_pow_pos (i + j)
  have hx' : x / 2 ^ (i + j) = c :=
    Nat.div_eq_of_lt_le (by rw [Nat.mul_comm]; exact hx.1) (by rw [Nat.succ_mul, Nat.mul_comm]; exact hx.2)
  rw [hx'] at h'
  have e := Nat.div_add_mod y (2 ^ (i + j))
  have e2 := Nat.mod_lt y hpos
  rw [h'] at e
  omega

/-- The full blocks around an element of one half are those of the half. -/
theorem survives_half {S S' : List Nat} {k p j x : Nat} (hp : 2 ^ k ∣ p) (hx : p ≤ x ∧ x < p + 2 ^ k)
    (hS : ∀ y, p ≤ y ∧ y < p + 2 ^ k → (y ∈ S ↔ y ∈ S')) (hn : fullBlock S (k + 1) x = false ∨ k + 1 < 2) :
    survives S (k + 1) j x = survives S' k j x := by
  have hb : ∀ i ≤ k, fullBlock S i x = fullBlock S' i x := by
    intro i hi
    rw [Bool.eq_iff_iff, fullBlock_iff, fullBlock_iff]
    constructor
    · intro h y hy; exact (hS y (sameBlock_bounds hi hp hx hy)).1 (h y hy)
    · intro h y hy; exact (hS y (sameBlock_bounds hi hp hx hy)).2 (h y hy)
  rw [Bool.eq_iff_iff, survives_iff, survives_iff]
  constructor
  · intro h i h1 h2 h3; rw [← hb i h3]; exact h i h1 h2 (by omega)
  · intro h i h1 h2 h3
    by_cases hi : i = k + 1
    · subst hi
      rcases hn with hn | hn
      · exact hn
      · omega
    · rw [hb i (by omega)]; exact h i h1 h2 (by omega)

theorem fullBlock_whole {d : Nat} {T : Tr d} {p x : Nat} (h : NE 1 d T) (hp : 2 ^ (d + 1) ∣ p) (hx : p ≤ x ∧ x < p + 2 ^ (d + 1)) :
    fullBlock (enum (d + 1) (has 1 d T) p) (d + 1) x = full 1 d T := by
  rw [Bool.eq_iff_iff, fullBlock_iff]
  constructor
  · intro H
    refine full_of_has d T h fun y hy => ?_
    have hmem := H (p + y) ?_
    · obtain ⟨z, -, hz, e⟩ := mem_enum.1 hmem
      have : z = y := by omega
      rw [← this]; exact hz
    · obtain ⟨c, rfl⟩ := hp
      rw [Nat.mul_add_div (Nat.two_pow_pos _), Nat.div_eq_of_lt hy]
      exact (Nat.div_eq_of_lt_le (by rw [Nat.mul_comm]; exact hx.1) (by rw [Nat.succ_mul, Nat.mul_comm]; exact hx.2)).symm
  · intro hf y hy
    obtain ⟨h1, h2⟩ := sameBlock_bounds (Nat.le_refl _) hp hx hy
    exact mem_enum.2 ⟨y - p, by omega, full_has hf _ (by omega), by omega⟩

/-- The edges of a pruned trie are the prefixes that are not inside a larger full block. -/
theorem edges_prune : (d : Nat) → (T : Tr d) → (p : Nat) → NE 1 d T → 2 ^ (d + 1) ∣ p →
    edges d (prune 1 d T) = survivingPrefixes (enum (d + 1) (has 1 d T) p) (d + 1)
  | 0, T, p, _, _ => by
    have hall : ∀ S x, survives S (0 + 1) 0 x = true := by
      intro S x
      rw [survives_iff]; intro i h1 h2 h3; omega
    have := prefixes_word T p
    simp only [survivingPrefixes, List.range_one, Nat.zero_add, List.map_singleton, List.sum_singleton, prune]
    rw [List.filter_eq_self.2 (fun x _ => hall _ x), this]
  | d + 1, T, p, h, hp => by
    have hin : ∀ x ∈ enum (d + 1 + 1) (has 1 (d + 1) T) p, p ≤ x ∧ x < p + 2 ^ (d + 1 + 1) := enum_bounds
    cases hf : full 1 (d + 1) T with
    | true =>
      rw [prune_full hf]
      have : survivingPrefixes (enum (d + 1 + 1) (has 1 (d + 1) T) p) (d + 1 + 1) = 0 := by
        unfold survivingPrefixes
        apply sum_zero
        intro n hn
        obtain ⟨j, hj, rfl⟩ := List.mem_map.1 hn
        rw [List.mem_range] at hj
        rw [List.filter_eq_nil_iff.2]
        · rfl
        · intro x hx hs
          have := survives_iff.1 hs (d + 1 + 1) hj (by omega) (Nat.le_refl _)
          rw [fullBlock_whole h hp (hin x hx), hf] at this
          simp at this
      rw [this]
      rfl
    | false =>
      have hlo : ∀ s, T.l = some s → edges d (prune 1 d s) = survivingPrefixes (loE d T p) (d + 1) := by
        intro s hs
        rw [edges_prune d s p (h.2.1 s hs) (dvd_lo hp), loE, hs]
      have hhi : ∀ s, T.r = some s → edges d (prune 1 d s) = survivingPrefixes (hiE d T p) (d + 1) := by
        intro s hs
        rw [edges_prune d s _ (h.2.2 s hs) (dvd_hi hp), hiE, hs]
      have e0 : survivingPrefixes [] (d + 1) = 0 := by
        unfold survivingPrefixes
        apply sum_zero
        simp [prefixes_nil]
      have hnf : ∀ x ∈ enum (d + 1 + 1) (has 1 (d + 1) T) p,
          fullBlock (enum (d + 1 + 1) (has 1 (d + 1) T) p) (d + 1 + 1) x = false :=
        fun x hx => by rw [fullBlock_whole h hp (hin x hx), hf]
      rw [enum_split] at hnf
      rw [enum_split, survivingPrefixes, List.range_succ, List.map_append, List.sum_append, List.map_singleton, List.sum_singleton]
      have etop : List.filter (survives (loE d T p ++ hiE d T p) (d + 1 + 1) (d + 1)) (loE d T p ++ hiE d T p) =
          loE d T p ++ hiE d T p := by
        rw [List.filter_eq_self]
        intro x hx
        rw [survives_iff]
        intro i h1 h2 h3
        rw [show i = d + 1 + 1 by omega]
        exact hnf x hx
      rw [etop, prefixes_top h hp]
      rw [sum_congr (g := fun j => prefixes ((loE d T p).filter (survives (loE d T p) (d + 1) j)) j +
        prefixes ((hiE d T p).filter (survives (hiE d T p) (d + 1) j)) j), sum_add]
      · change _ = survivingPrefixes (loE d T p) (d + 1) + survivingPrefixes (hiE d T p) (d + 1) + _
        rw [prune_not_full hf, edges, Tr.l_mk, Tr.r_mk]
        cases h1 : T.l with
        | none =>
          rw [(loE_nil h).2 h1, e0]
          cases h2 : T.r with
          | none => rw [(hiE_nil h).2 h2, e0]; rfl
          | some s' => simp [hhi s' h2]; omega
        | some s =>
          cases h2 : T.r with
          | none => rw [(hiE_nil h).2 h2, e0]; simp [hlo s h1]; omega
          | some s' => simp [hlo s h1, hhi s' h2]; omega
      · intro j hj
        rw [List.mem_range] at hj
        have e1 : List.filter (survives (loE d T p ++ hiE d T p) (d + 1 + 1) j) (loE d T p) =
            (loE d T p).filter (survives (loE d T p) (d + 1) j) := by
          apply List.filter_congr
          intro x hx
          refine survives_half (dvd_lo hp) (loE_bounds x hx) ?_ (.inl (hnf x (List.mem_append_left _ hx)))
          intro y hy
          rw [List.mem_append]
          refine ⟨fun h => h.elim id fun h => ?_, .inl⟩
          have := hiE_bounds y h
          omega
        have e2 : List.filter (survives (loE d T p ++ hiE d T p) (d + 1 + 1) j) (hiE d T p) =
            (hiE d T p).filter (survives (hiE d T p) (d + 1) j) := by
          apply List.filter_congr
          intro x hx
          refine survives_half (dvd_hi hp) (hiE_bounds x hx) ?_ (.inl (hnf x (List.mem_append_right _ hx)))
          intro y hy
          rw [List.mem_append]
          refine ⟨fun h => h.elim (fun h => ?_) id, .inr⟩
          have := loE_bounds y h
          omega
        rw [List.filter_append, e1, e2]
        exact prefixes_append (by omega : j ≤ d + 1) (dvd_hi hp) (fun x hx => (loE_bounds x (List.mem_filter.1 hx).1).2)
          (fun x hx => (hiE_bounds x (List.mem_filter.1 hx).1).1)

theorem surviving_le (S : List Nat) (h : Nat) : survivingPrefixes S h ≤ allPrefixes S h :=
  sum_le_sum fun j _ => prefixes_mono (fun _ hx => (List.mem_filter.1 hx).1) j

/-! ## The elements of the last level -/

/-- The number of ones in the leaves. -/
def bottom : (d : Nat) → Tr d → Nat
  | 0, t => (if t.word.testBit 0 then 1 else 0) + (if t.word.testBit 1 then 1 else 0)
  | d + 1, t => (t.l.elim 0 (bottom d)) + (t.r.elim 0 (bottom d))

theorem kids_bottom {d : Nat} : (f : List (Tr (d + 1))) → ((kids f).map (bottom d)).sum = (f.map (bottom (d + 1))).sum
  | [] => rfl
  | t :: f => by
    have ih := kids_bottom f
    rw [kids_cons, List.map_append, List.sum_append, List.map_cons, List.sum_cons, ← ih, bottom, kidsOf]
    cases t.l <;> cases t.r <;> simp

theorem count_bottom : (d : Nat) → (f : List (Tr d)) → ((leaves d f).flatMap leafBits).count true = (f.map (bottom d)).sum
  | 0, f => by
    induction f with
    | nil => rfl
    | cons t f ih =>
      simp only [leaves, List.map_cons, List.flatMap_cons, List.count_append, List.sum_cons] at ih ⊢
      rw [bottom, count_leafBits, ih]
  | d + 1, f => by rw [leaves, count_bottom d (kids f), kids_bottom]

theorem bottom_word (t : Tr 0) (p : Nat) : (enum 1 (has 1 0 t) p).length = bottom 0 t := by
  rw [enum_word, bottom]
  cases Nat.testBit t.word 0 <;> cases Nat.testBit t.word 1 <;> rfl

theorem bottom_eq : (d : Nat) → (T : Tr d) → (p : Nat) → bottom d T = (enum (d + 1) (has 1 d T) p).length
  | 0, T, p => (bottom_word T p).symm
  | d + 1, T, p => by
    rw [enum_split, List.length_append, bottom, loE, hiE]
    cases T.l with
    | none =>
      cases T.r with
      | none => rfl
      | some s' => simp [bottom_eq d s' (p + 2 ^ (d + 1))]
    | some s =>
      cases T.r with
      | none => simp [bottom_eq d s p]
      | some s' => simp [bottom_eq d s p, bottom_eq d s' (p + 2 ^ (d + 1))]

theorem bottom_prune : (d : Nat) → (T : Tr d) → (p : Nat) → NE 1 d T → 2 ^ (d + 1) ∣ p →
    bottom d (prune 1 d T) =
      ((enum (d + 1) (has 1 d T) p).filter (survives (enum (d + 1) (has 1 d T) p) (d + 1) 0)).length
  | 0, T, p, _, _ => by
    have hall : ∀ S x, survives S (0 + 1) 0 x = true := by
      intro S x
      rw [survives_iff]; intro i h1 h2 h3; omega
    rw [List.filter_eq_self.2 (fun x _ => hall _ x), bottom_word, prune]
  | d + 1, T, p, h, hp => by
    have hin : ∀ x ∈ enum (d + 1 + 1) (has 1 (d + 1) T) p, p ≤ x ∧ x < p + 2 ^ (d + 1 + 1) := enum_bounds
    cases hf : full 1 (d + 1) T with
    | true =>
      rw [prune_full hf, List.filter_eq_nil_iff.2]
      · rfl
      · intro x hx hs
        have := survives_iff.1 hs (d + 1 + 1) (by omega) (by omega) (Nat.le_refl _)
        rw [fullBlock_whole h hp (hin x hx), hf] at this
        simp at this
    | false =>
      have hnf : ∀ x ∈ enum (d + 1 + 1) (has 1 (d + 1) T) p,
          fullBlock (enum (d + 1 + 1) (has 1 (d + 1) T) p) (d + 1 + 1) x = false :=
        fun x hx => by rw [fullBlock_whole h hp (hin x hx), hf]
      rw [enum_split] at hnf
      have e1 : List.filter (survives (loE d T p ++ hiE d T p) (d + 1 + 1) 0) (loE d T p) =
          (loE d T p).filter (survives (loE d T p) (d + 1) 0) := by
        apply List.filter_congr
        intro x hx
        refine survives_half (dvd_lo hp) (loE_bounds x hx) ?_ (.inl (hnf x (List.mem_append_left _ hx)))
        intro y hy
        rw [List.mem_append]
        refine ⟨fun h => h.elim id fun h => ?_, .inl⟩
        have := hiE_bounds y h
        omega
      have e2 : List.filter (survives (loE d T p ++ hiE d T p) (d + 1 + 1) 0) (hiE d T p) =
          (hiE d T p).filter (survives (hiE d T p) (d + 1) 0) := by
        apply List.filter_congr
        intro x hx
        refine survives_half (dvd_hi hp) (hiE_bounds x hx) ?_ (.inl (hnf x (List.mem_append_right _ hx)))
        intro y hy
        rw [List.mem_append]
        refine ⟨fun h => h.elim (fun h => ?_) id, .inr⟩
        have := loE_bounds y h
        omega
      rw [enum_split, List.filter_append, e1, e2, List.length_append, prune_not_full hf, bottom, Tr.l_mk, Tr.r_mk, loE, hiE]
      cases h1 : T.l with
      | none =>
        cases h2 : T.r with
        | none => rfl
        | some s' => simp [bottom_prune d s' (p + 2 ^ (d + 1)) (h.2.2 s' h2) (dvd_hi hp)]
      | some s =>
        cases h2 : T.r with
        | none => simp [bottom_prune d s p (h.2.1 s h1) (dvd_lo hp)]
        | some s' =>
          simp [bottom_prune d s p (h.2.1 s h1) (dvd_lo hp), bottom_prune d s' (p + 2 ^ (d + 1)) (h.2.2 s' h2) (dvd_hi hp)]

/-! ## The bits of a run-encoded flat trie -/

theorem foldl_count (l : List Bool) (e : Nat) : l.foldl (fun n b => if b = true then n + 1 else n) e = e + l.count true := by
  induction l generalizing e with
  | nil => rfl
  | cons b l ih => rw [List.foldl_cons, ih]; cases b <;> simp; omega

theorem trieMeasure_eq (t : FlatTrie) : t.trieMeasure = .ok ((t.bTrie ++ t.lastLevel).count true) := by
  rw [FlatTrie.trieMeasure, rank1, if_pos (Nat.le_refl _), List.take_length, R_bind_ok, foldl_count, List.count_append]

theorem elementsCoded_eq (t : FlatTrie) : t.elementsCoded = t.lastLevel.count true := by
  rw [FlatTrie.elementsCoded, foldl_count, Nat.zero_add]

theorem flatOf_encode_bits {d pad : Nat} {T : Tr d} {hw : Nat} {runs : Bool} (hne : NE 1 d T) :
    ∃ t', (flatOf d T hw runs).encodeRuns pad = .ok t' ∧
      t'.bTrie ++ t'.lastLevel = flatBits d [prune 1 d T] ++ (leaves d [prune 1 d T]).flatMap leafBits ∧
      t'.lastLevel.count true = ((leaves d [prune 1 d T]).flatMap leafBits).count true := by
  rcases flat_encodeRuns_ok (pad := pad) rfl (flatOf_rep (hw := hw) (runs := runs) hne.nz) hne with
    ⟨hl, he⟩ | ⟨hl, b, z, k, hb, hk, he⟩
  · exact ⟨_, he, rfl, rfl⟩
  · refine ⟨_, he, ?_, ?_⟩
    · rw [hl, List.flatMap_nil, List.append_nil, hb]
    · rw [hl]; simp [List.count_replicate]

theorem allPrefixes_root {d : Nat} {T : Tr d} {S : List Nat} (hne : NE 1 d T) (hT : Holds (d + 1) (has 1 d T) S)
    (hs : S.Pairwise (· < ·)) (hb : ∀ x ∈ S, x < 2 ^ (d + 1)) : edges d T = allPrefixes S (d + 1) := by
  rw [edges_eq d T 0 hne (dvd_zero _), hT.enum hs hb]

end CBT
