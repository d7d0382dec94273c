import Verif.Proof.Stats

/-!
# C48, C49: what the statistics tools count
-/

namespace CBT

open Spec

/-- C48 (partial). On every collection over a universe of at least 3, `measures` counts the kept lists and their elements, sums the
number of trie edges before and after encoding runs, and sums what `Rle` gives (see C39). To the gap codes of the lists it adds a number
for every list, the first included. Missing: the gap total alone, see `C48_negation`. All totals are in 64 bits. -/
theorem C48_totals_partial {one u m : Nat} {lists : List (List Nat)} (h1 : one < 2 ^ 32) (hu : 3 ≤ u) (hu' : u < 2 ^ 32)
    (hl : ∀ l ∈ lists, l.length < 2 ^ 30) (hv : ∀ l ∈ longer m lists, ValidSet l u) (pad : Nat) :
    ∃ t rle, measures pad m (collectionBytes one u lists) = .ok t ∧
      t.nSets = (longer m lists).length % 2 ^ 64 ∧ t.nElements = total List.length (longer m lists) ∧
      t.trie = total (fun l => allPrefixes l (Nat.log2 (u - 1) + 1)) (longer m lists) ∧
      t.trieRun = total (fun l => survivingPrefixes l (Nat.log2 (u - 1) + 1)) (longer m lists) ∧
      (∀ l ∈ longer m lists, rleMeasure l = .ok (rle l)) ∧ t.rle = total rle (longer m lists) ∧
      t.gap = (((longer m lists).map gapCost).sum + ((joints u 0 (longer m lists)).map bits).sum) % 2 ^ 64 := by
  have hf := length_le_flatMap lists
  have e := measuresLoop_lists (pad := pad) hu hu' lists ((lists.flatMap listBytes).length + 1) 0 hl hv (by omega) (by omega) 0 0 0 0 0 0
  simp only [Nat.zero_add, Nat.zero_mod] at e
  refine ⟨⟨_, _, _, _, _, _⟩, rleVal, ?_, rfl, rfl, rfl, rfl, fun l h => rleVal_eq (hv l h).ne, rfl, rfl⟩
  rw [measures, collectionBytes, readLE_leBytes 4 _ _ (by omega), R_bind_ok]
  dsimp only
  rw [readLE_leBytes 4 _ _ (by omega), R_bind_ok]
  exact e

example : (∀ l ∈ longer 1 [[0, 1, 2, 3, 7], [4], [2, 5]], ValidSet l 8) ∧
    measures 0 1 (collectionBytes 1 8 [[0, 1, 2, 3, 7], [4], [2, 5]]) = .ok ⟨44, 8, 16, 10, 7, 2⟩ ∧
    ([[0, 1, 2, 3, 7], [2, 5]].map gapCost).sum = 10 ∧ (joints 8 0 [[0, 1, 2, 3, 7], [2, 5]]).map bits = [32, 2] := by decide +kernel

/-- C48 is false of the code for the gap total: for every collection with something kept, `measures` prints at least 32 bits more than
the sum of the gap codes (as long as the totals fit in 64 bits). -/
theorem C48_negation {one u m : Nat} {lists : List (List Nat)} (h1 : one < 2 ^ 32) (hu : 3 ≤ u) (hu' : u < 2 ^ 32)
    (hl : ∀ l ∈ lists, l.length < 2 ^ 30) (hv : ∀ l ∈ longer m lists, ValidSet l u) (pad : Nat) (hne : longer m lists ≠ [])
    (hfit : ((longer m lists).map gapCost).sum + ((joints u 0 (longer m lists)).map bits).sum < 2 ^ 64) :
    ∃ t, measures pad m (collectionBytes one u lists) = .ok t ∧ ((longer m lists).map gapCost).sum + 32 ≤ t.gap := by
  obtain ⟨t, rle, e, -, -, -, -, -, -, hg⟩ := C48_totals_partial h1 hu hu' hl hv pad
  refine ⟨t, e, ?_⟩
  rw [hg, Nat.mod_eq_of_lt hfit]
  have : 32 ≤ ((joints u 0 (longer m lists)).map bits).sum := by
    cases hk : longer m lists with
    | nil => exact absurd hk hne
    | cons l ls =>
      rw [joints, List.map_cons, List.sum_cons, show joint u 0 (l.headD 0) = 2 ^ 32 - 1 from rfl,
        show bits (2 ^ 32 - 1) = 32 by decide +kernel]
      omega
  omega

example : longer 0 [[1]] ≠ [] ∧ ([[1]].map gapCost).sum = 1 ∧ measures 0 0 (collectionBytes 1 8 [[1]]) = .ok ⟨33, 0, 3, 3, 1, 1⟩ := by
  decide +kernel

/-! ## C49 -/

/-- What a tool that processes the `lists` prints: the number of elements, of lists, and the sum of the sizes, in 64 bits. -/
def countsOf (coder : List Nat → Nat) (lists : List (List Nat)) : Counts :=
  ⟨total List.length lists, lists.length % 2 ^ 64, total coder lists⟩

/-- C49 is false of the code: when the last list is long enough, `classic_coders` processes every kept list once and then another list,
as long as the last one and made of copies of its last element. -/
theorem C49_classic_twice {one u m : Nat} {ls : List (List Nat)} {l : List Nat} (h1 : one < 2 ^ 32) (hu : u < 2 ^ 32)
    (hl : ∀ k ∈ ls ++ [l], k.length < 2 ^ 30) (hx : ∀ k ∈ longer m (ls ++ [l]), ∀ x ∈ k, x < 2 ^ 32) (hm : m < l.length)
    (coder : List Nat → Nat) (fuel : Nat) (hf : ls.length + 3 ≤ fuel) :
    coders false m coder fuel (collectionBytes one u (ls ++ [l])) =
      .ok (countsOf coder (longer m (ls ++ [l]) ++ [List.replicate l.length (l.getLastD 0)])) := by
  have hne : l ≠ [] := by rintro rfl; simp at hm
  have hk : longer m (ls ++ [l]) = longer m ls ++ [l] := by
    rw [longer, List.filter_append]
    congr 1
    exact longer_pos (ls := []) hm
  have e := statsLoop_lists (m := m) (step := coderStep false coder) (stop := false) (ls ++ [l]) (fuel - (ls.length + 3) + 2) none none ⟨0, 0, 0⟩
    hl hx (by simp) []
  have e1 : lastLen none (ls ++ [l]) = some l.length := by simp [lastLen]
  have e2 : lastVal none (longer m (ls ++ [l])) = some (l.getLastD 0) := by
    rw [lastVal, hk, List.flatten_append, List.getLast?_append]
    simp [List.getLast?_eq_getLast_of_ne_nil hne, List.getLastD_eq_getLast?]
  rw [List.append_nil, e1, e2, show fuel - (ls.length + 3) + 2 + (ls ++ [l]).length = fuel by simp; omega] at e
  have hll : l.length < 2 ^ 30 := hl l (by simp)
  have e3 := coderStep_fold (stop := false) (coder := coder) (longer m (ls ++ [l])) (fun _ _ h => by cases h) 0 0 0
  simp only [Nat.zero_add, Nat.zero_mod] at e3
  rw [coders_start _ _ _ _ h1 hu, e, e3, R_bind_ok, statsLoop_end_long _ _ _ _ hm (by omega), coderStep_ok (fun h => by cases h), countStep, countsOf]
  simp only [total, List.map_append, List.sum_append, List.length_append, List.map_cons, List.map_nil, List.sum_cons, List.sum_nil,
    List.length_cons, List.length_nil, List.length_replicate]
  congr 2 <;> omega

example : (∀ k ∈ longer 1 ([[1, 2, 3], [9]] ++ [[4, 6]]), ∀ x ∈ k, x < 2 ^ 32) ∧
    coders false 1 List.sum 5 (collectionBytes 1 16 ([[1, 2, 3], [9]] ++ [[4, 6]])) = .ok ⟨3 + 2 + 2, 3, 6 + 10 + 12⟩ := by decide +kernel

/-- C49 is false of the code: when the last list is too short, `classic_coders` does not end, however long it runs. -/
theorem C49_classic_hangs {one u m : Nat} {ls : List (List Nat)} {l : List Nat} (h1 : one < 2 ^ 32) (hu : u < 2 ^ 32)
    (hl : ∀ k ∈ ls ++ [l], k.length < 2 ^ 30) (hx : ∀ k ∈ longer m (ls ++ [l]), ∀ x ∈ k, x < 2 ^ 32) (hm : l.length ≤ m)
    (coder : List Nat → Nat) (fuel : Nat) : (∀ c, coders false m coder fuel (collectionBytes one u (ls ++ [l])) ≠ .ok c) ∧
      (ls.length < fuel → coders false m coder fuel (collectionBytes one u (ls ++ [l])) = .error .fuel) := by
  have main : ∀ f, coders false m coder (f + (ls ++ [l]).length) (collectionBytes one u (ls ++ [l])) = .error .fuel := by
    intro f
    have e := statsLoop_lists (m := m) (step := coderStep false coder) (stop := false) (ls ++ [l]) f none none ⟨0, 0, 0⟩ hl hx (by simp) []
    have e1 : lastLen none (ls ++ [l]) = some l.length := by simp [lastLen]
    have hll : l.length < 2 ^ 30 := hl l (by simp)
    have e3 := coderStep_fold (stop := false) (coder := coder) (longer m (ls ++ [l])) (fun _ _ h => by cases h) 0 0 0
    simp only [Nat.zero_add, Nat.zero_mod] at e3
    rw [List.append_nil, e1, e3, R_bind_ok] at e
    rw [coders_start _ _ _ _ h1 hu, e, statsLoop_end_short _ _ _ _ (by omega) (by omega)]
  constructor
  · intro c hc
    rw [coders_start _ _ _ _ h1 hu] at hc
    have := statsLoop_mono _ _ _ _ _ hc (ls ++ [l]).length
    have h2 := main fuel
    rw [coders_start _ _ _ _ h1 hu, this] at h2
    exact absurd h2 (by simp)
  · intro hf
    have := main (fuel - (ls.length + 1))
    rwa [show fuel - (ls.length + 1) + (ls ++ [l]).length = fuel by simp; omega] at this

example : [4].length ≤ 1 ∧ coders false 1 List.sum 1000 (collectionBytes 1 16 ([[1, 2, 3], [9, 10]] ++ [[4]])) = .error .fuel := by
  decide +kernel

/-- C49 is false of the code: `classic_coders` and `cbv_coding` use an indeterminate length on a collection without lists. -/
theorem C49_empty {one u m : Nat} (h1 : one < 2 ^ 32) (hu : u < 2 ^ 32) (stop : Bool) (coder : List Nat → Nat) (fuel : Nat) :
    coders stop m coder (fuel + 1) (collectionBytes one u []) = .error .uninit := by
  rw [coders_start _ _ _ _ h1 hu]
  exact statsLoop_end_none _ _ _

example : coders false 0 List.sum 7 (collectionBytes 1 16 []) = .error .uninit := by decide +kernel

/-- C49 is false of the code: `cbv_coding` processes the lists before the first one that is too short, and nothing after it. -/
theorem C49_cbv_prefix {one u m : Nat} {ls rest : List (List Nat)} {l : List Nat} (h1 : one < 2 ^ 32) (hu : u < 2 ^ 32)
    (hl : ∀ k ∈ ls ++ [l], k.length < 2 ^ 30) (hx : ∀ k ∈ ls, k.Pairwise (· < ·) ∧ ∀ x ∈ k, x < 2 ^ 32) (hm : ∀ k ∈ ls, m < k.length)
    (hm' : l.length ≤ m) (coder : List Nat → Nat) (fuel : Nat) (hf : ls.length < fuel) :
    coders true m coder fuel (collectionBytes one u (ls ++ l :: rest)) = .ok (countsOf coder ls) := by
  have hk : longer m ls = ls := List.filter_eq_self.mpr fun k h => by simpa using hm k h
  have e := statsLoop_lists (m := m) (step := coderStep true coder) (stop := true) ls (fuel - ls.length) none none ⟨0, 0, 0⟩
    (fun k h => hl k (by simp [h])) (by rw [hk]; exact fun k h => (hx k h).2) (fun _ => hm) ((l :: rest).flatMap listBytes)
  have e3 := coderStep_fold (stop := true) (coder := coder) ls (fun k h _ => le_last k (hx k h).1) 0 0 0
  simp only [Nat.zero_add, Nat.zero_mod] at e3
  obtain ⟨f, hf'⟩ : ∃ f, fuel - ls.length = f + 1 := ⟨fuel - ls.length - 1, by omega⟩
  rw [hk, e3, R_bind_ok, show fuel - ls.length + ls.length = fuel by omega, hf'] at e
  rw [coders_start _ _ _ _ h1 hu, List.flatMap_append, e, List.flatMap_cons, statsLoop, if_neg (by simp),
    read4_ok (readLE_listBytes (hl l (by simp)) _)]
  dsimp only
  rw [if_neg (by omega), if_pos rfl]
  rfl

example : coders true 1 List.sum 5 (collectionBytes 1 16 ([[1, 2, 3]] ++ [4] :: [[5, 6]])) = .ok ⟨3, 1, 6⟩ := by decide +kernel

/-- C49 is false of the code: `cbv_coding`, when all lists are long enough, processes the last one twice, the second time as copies of
its last element. -/
theorem C49_cbv_twice {one u m : Nat} {ls : List (List Nat)} {l : List Nat} (h1 : one < 2 ^ 32) (hu : u < 2 ^ 32)
    (hl : ∀ k ∈ ls ++ [l], k.length < 2 ^ 30) (hx : ∀ k ∈ ls ++ [l], k.Pairwise (· < ·) ∧ ∀ x ∈ k, x < 2 ^ 32) (hm : ∀ k ∈ ls ++ [l], m < k.length)
    (coder : List Nat → Nat) (fuel : Nat) (hf : ls.length + 3 ≤ fuel) :
    coders true m coder fuel (collectionBytes one u (ls ++ [l])) =
      .ok (countsOf coder (ls ++ [l] ++ [List.replicate l.length (l.getLastD 0)])) := by
  have hml : m < l.length := hm l (by simp)
  have hne : l ≠ [] := by rintro rfl; simp at hml
  have hk : longer m (ls ++ [l]) = ls ++ [l] := List.filter_eq_self.mpr fun k h => by simpa using hm k h
  have e := statsLoop_lists (m := m) (step := coderStep true coder) (stop := true) (ls ++ [l]) (fuel - (ls.length + 3) + 2) none none ⟨0, 0, 0⟩
    hl (by rw [hk]; exact fun k h => (hx k h).2) (fun _ => hm) []
  have e1 : lastLen none (ls ++ [l]) = some l.length := by simp [lastLen]
  have e2 : lastVal none (ls ++ [l]) = some (l.getLastD 0) := by
    rw [lastVal, List.flatten_append, List.getLast?_append]
    simp [List.getLast?_eq_getLast_of_ne_nil hne, List.getLastD_eq_getLast?]
  rw [List.append_nil, hk, e1, e2, show fuel - (ls.length + 3) + 2 + (ls ++ [l]).length = fuel by simp; omega] at e
  have hll : l.length < 2 ^ 30 := hl l (by simp)
  have e3 := coderStep_fold (stop := true) (coder := coder) (ls ++ [l]) (fun k h _ => le_last k (hx k h).1) 0 0 0
  simp only [Nat.zero_add, Nat.zero_mod] at e3
  rw [coders_start _ _ _ _ h1 hu, e, e3, R_bind_ok, statsLoop_end_long _ _ _ _ hml (by omega), coderStep_ok (fun _ => replicate_last _ _), countStep, countsOf]
  simp only [total, List.map_append, List.sum_append, List.length_append, List.map_cons, List.map_nil, List.sum_cons, List.sum_nil,
    List.length_cons, List.length_nil, List.length_replicate]
  congr 2 <;> omega

example : coders true 0 List.sum 5 (collectionBytes 1 16 ([[1, 2, 3]] ++ [[5, 6]])) = .ok ⟨7, 3, 6 + 11 + 12⟩ := by decide +kernel

/-- C49 (partial), for `pom`: when the last list is long enough and no kept list contains 0, it processes every kept list once, charging
each element an Elias gamma code of what follows the prefix shared with the element before, and giving the coders these suffixes in
increasing order; then it processes another list, as long as the last one and made of copies `v` of its last element. Missing: without
that last round, see also `C49_pom_hangs` and `C49_pom_zero`. -/
theorem C49_pom_partial {one u m : Nat} {ls : List (List Nat)} {l : List Nat} (h1 : one < 2 ^ 32) (hu : u < 2 ^ 32)
    (hl : ∀ k ∈ ls ++ [l], k.length < 2 ^ 30)
    (hx : ∀ k ∈ longer m (ls ++ [l]), k.Pairwise (· < ·) ∧ (∀ x ∈ k, x < 2 ^ 32) ∧ 0 ∉ k) (hm : m < l.length)
    (coder : List Nat → Nat) (fuel : Nat) (hf : ls.length + 3 ≤ fuel) :
    ∃ sorted : List Nat → List Nat, (∀ k, (sorted k).Pairwise (· ≤ ·) ∧ (sorted k).Perm k) ∧
      ∀ v, l.getLast? = some v → pom m coder fuel (collectionBytes one u (ls ++ [l])) =
        .ok { nElements := (((longer m (ls ++ [l])).map List.length).sum + l.length) % 2 ^ 64
              nSets := ((longer m (ls ++ [l])).length + 1) % 2 ^ 64
              sizeInBits := (((longer m (ls ++ [l])).map suffixCost).sum + l.length * (2 * v.size - 1)) % 2 ^ 64
              size := (((longer m (ls ++ [l])).map fun k => coder (sorted (suffixes k))).sum +
                coder (List.replicate l.length v)) % 2 ^ 64 } := by
  refine ⟨sortIds, fun k => ⟨(sortIds_spec k).1, sortIds_perm k⟩, fun v hv => ?_⟩
  have hk : longer m (ls ++ [l]) = longer m ls ++ [l] := by
    rw [longer, List.filter_append]
    congr 1
    exact longer_pos (ls := []) hm
  have hvm : v ∈ l := List.mem_of_getLast? hv
  have hv0 : v ≠ 0 := fun h => (hx l (by rw [hk]; simp)).2.2 (h ▸ hvm)
  have e := statsLoop_lists (m := m) (step := pomStep coder) (stop := false) (ls ++ [l]) (fuel - (ls.length + 3) + 2) none none
    ⟨0, 0, 0, 0⟩ hl (fun k h => (hx k h).2.1) (by simp) []
  have e1 : lastLen none (ls ++ [l]) = some l.length := by simp [lastLen]
  have e2 : lastVal none (longer m (ls ++ [l])) = some v := by
    rw [lastVal, hk, List.flatten_append, List.getLast?_append]
    simp [hv]
  rw [List.append_nil, e1, e2, show fuel - (ls.length + 3) + 2 + (ls ++ [l]).length = fuel by simp; omega] at e
  have hll : l.length < 2 ^ 30 := hl l (by simp)
  have e3 := pomStep_fold coder (longer m (ls ++ [l]))
    (fun k h => ⟨(hx k h).1, fun x hxk => by have := (hx k h).2.1 x hxk; omega, (hx k h).2.2⟩) 0 0 0 0
  simp only [Nat.zero_add, Nat.zero_mod] at e3
  have es : sortIds (List.replicate l.length v) = List.replicate l.length v :=
    List.eq_replicate_iff.mpr ⟨by rw [(sortIds_perm _).length_eq, List.length_replicate],
      fun b hb => List.eq_of_mem_replicate ((sortIds_perm _).mem_iff.mp hb)⟩
  have ev : 2 * Nat.log2 v + 1 = 2 * v.size - 1 := by
    have : v.size = Nat.log2 v + 1 := by
      apply Nat.le_antisymm
      · rw [Nat.size_le]; exact Nat.lt_log2_self
      · exact Nat.lt_size.mpr (Nat.log2_self_le hv0)
    omega
  rw [pom, pomOn, collectionBytes, read4_ok (readLE_leBytes 4 _ _ (by omega))]
  dsimp only
  rw [read4_ok (readLE_leBytes 4 _ _ (by omega))]
  dsimp only
  rw [e, e3, R_bind_ok, statsLoop_end_long _ _ _ _ hm (by omega), pomStep, pomList_replicate v hv0, R_bind_ok]
  dsimp only
  rw [es, ev, List.length_replicate]
  congr 2 <;> omega

example : (∀ k ∈ longer 1 ([[1, 2, 3], [9]] ++ [[4, 6]]), k.Pairwise (· < ·) ∧ (∀ x ∈ k, x < 2 ^ 32) ∧ 0 ∉ k) ∧
    pom 1 List.sum 5 (collectionBytes 1 16 ([[1, 2, 3], [9]] ++ [[4, 6]])) = .ok ⟨3 + 2 + 2, 3, (1 + 3 + 1) + (5 + 3) + 2 * 5, (1 + 2 + 1) + (4 + 2) + 12⟩ := by
  decide +kernel

/-- C49 is false of the code: when the last list is too short, `pom` does not end. -/
theorem C49_pom_hangs {one u m : Nat} {ls : List (List Nat)} {l : List Nat} (h1 : one < 2 ^ 32) (hu : u < 2 ^ 32)
    (hl : ∀ k ∈ ls ++ [l], k.length < 2 ^ 30)
    (hx : ∀ k ∈ longer m (ls ++ [l]), k.Pairwise (· < ·) ∧ (∀ x ∈ k, x < 2 ^ 32) ∧ 0 ∉ k) (hm : l.length ≤ m)
    (coder : List Nat → Nat) (fuel : Nat) (hf : ls.length < fuel) :
    pom m coder fuel (collectionBytes one u (ls ++ [l])) = .error .fuel := by
  have e := statsLoop_lists (m := m) (step := pomStep coder) (stop := false) (ls ++ [l]) (fuel - (ls.length + 1)) none none
    ⟨0, 0, 0, 0⟩ hl (fun k h => (hx k h).2.1) (by simp) []
  have e1 : lastLen none (ls ++ [l]) = some l.length := by simp [lastLen]
  have hll : l.length < 2 ^ 30 := hl l (by simp)
  have e3 := pomStep_fold coder (longer m (ls ++ [l]))
    (fun k h => ⟨(hx k h).1, fun x hxk => by have := (hx k h).2.1 x hxk; omega, (hx k h).2.2⟩) 0 0 0 0
  simp only [Nat.zero_add, Nat.zero_mod] at e3
  rw [List.append_nil, e1, e3, R_bind_ok, show fuel - (ls.length + 1) + (ls ++ [l]).length = fuel by simp; omega] at e
  rw [pom, pomOn, collectionBytes, read4_ok (readLE_leBytes 4 _ _ (by omega))]
  dsimp only
  rw [read4_ok (readLE_leBytes 4 _ _ (by omega))]
  dsimp only
  rw [e, statsLoop_end_short _ _ _ _ (by omega) (by omega)]

example : pom 1 List.sum 1000 (collectionBytes 1 16 ([[1, 2, 3], [9, 10]] ++ [[4]])) = .error .fuel := by decide +kernel

/-- C49 is false of the code: `pom` converts minus infinity to an integer at the first kept list that starts with 0. -/
theorem C49_pom_zero {one u m : Nat} {l : List Nat} {ls : List (List Nat)} (h1 : one < 2 ^ 32) (hu : u < 2 ^ 32)
    (hl : l.length + 1 < 2 ^ 30) (hx : ∀ x ∈ l, x < 2 ^ 32) (hm : m < l.length + 1) (coder : List Nat → Nat) (fuel : Nat) :
    pom m coder (fuel + 1) (collectionBytes one u ((0 :: l) :: ls)) = .error .conv := by
  rw [pom, pomOn, collectionBytes, read4_ok (readLE_leBytes 4 _ _ (by omega))]
  dsimp only
  rw [read4_ok (readLE_leBytes 4 _ _ (by omega))]
  dsimp only
  rw [List.flatMap_cons, statsLoop, if_neg (by simp), read4_ok (readLE_listBytes (by simpa using hl) _)]
  dsimp only
  rw [if_pos (by simpa using hm), readVals_list (0 :: l) (by simpa using hx), R_bind_ok]
  rfl

example : pom 0 List.sum 9 (collectionBytes 1 16 [[0, 1, 2], [9, 10]]) = .error .conv := by decide +kernel

/-- A result that is there with enough fuel is the only one there is with any fuel. -/
theorem coders_only {stop : Bool} {one u m : Nat} {lists : List (List Nat)} (h1 : one < 2 ^ 32) (hu : u < 2 ^ 32) {coder : List Nat → Nat}
    {n : Nat} {c : Counts} (h : ∀ fuel, n ≤ fuel → coders stop m coder fuel (collectionBytes one u lists) = .ok c) {fuel : Nat} {c' : Counts}
    (h' : coders stop m coder fuel (collectionBytes one u lists) = .ok c') : c' = c := by
  rw [coders_start _ _ _ _ h1 hu] at h'
  have h2 := statsLoop_mono _ _ _ _ _ h' n
  have h3 := h (fuel + n) (by omega)
  rw [coders_start _ _ _ _ h1 hu, h2] at h3
  injection h3

/-- C49 is false of the code: there is no collection for which `classic_coders` ends and prints the numbers of the lists that it keeps. -/
theorem C49_classic_negation {one u m : Nat} {lists : List (List Nat)} (h1 : one < 2 ^ 32) (hu : u < 2 ^ 32)
    (hl : ∀ k ∈ lists, k.length < 2 ^ 30) (hx : ∀ k ∈ longer m lists, ∀ x ∈ k, x < 2 ^ 32) (coder : List Nat → Nat) (fuel : Nat) :
    coders false m coder fuel (collectionBytes one u lists) ≠ .ok (countsOf coder (longer m lists)) := by
  rcases List.eq_nil_or_concat lists with rfl | ⟨ls, l, rfl⟩
  · cases fuel with
    | zero => rw [coders_start _ _ _ _ h1 hu]; rintro ⟨⟩
    | succ f => rw [C49_empty h1 hu]; rintro ⟨⟩
  · rw [List.concat_eq_append] at *
    by_cases hm : m < l.length
    · intro h
      have := coders_only h1 hu (fun f hf => C49_classic_twice h1 hu hl hx hm coder f hf) h
      have h2 := congrArg Counts.nSets this
      simp only [countsOf, List.length_append, List.length_cons, List.length_nil] at h2
      omega
    · exact (C49_classic_hangs h1 hu hl hx (by omega) coder fuel).1 _

example : (∀ k ∈ longer 1 [[1, 2, 3], [9], [4, 6]], ∀ x ∈ k, x < 2 ^ 32) ∧
    countsOf List.sum (longer 1 [[1, 2, 3], [9], [4, 6]]) = ⟨3 + 2, 2, 6 + 10⟩ := by decide +kernel

theorem longer_split {m : Nat} {a b : List (List Nat)} (ha : ∀ k ∈ a, m < k.length) (hb : ∀ k ∈ b, k.length ≤ m) :
    longer m (a ++ b) = a := by
  rw [longer, List.filter_append, List.filter_eq_self.mpr fun k h => by simpa using ha k h,
    List.filter_eq_nil_iff.mpr fun k h => by simpa using hb k h, List.append_nil]

/-- The lists before the first short one. -/
theorem first_short (m : Nat) : (lists : List (List Nat)) → (∀ k ∈ lists, m < k.length) ∨
    ∃ a l b, lists = a ++ l :: b ∧ (∀ k ∈ a, m < k.length) ∧ l.length ≤ m
  | [] => .inl (by simp)
  | k :: ks => by
    by_cases hk : m < k.length
    · rcases first_short m ks with h | ⟨a, l, b, rfl, ha, hl⟩
      · exact .inl (by simpa [hk] using h)
      · exact .inr ⟨k :: a, l, b, rfl, by simpa [hk] using ha, hl⟩
    · exact .inr ⟨[], k, ks, rfl, by simp, by omega⟩

/-- C49, `cbv_coding` on sets: it ends and prints the numbers of the lists it should keep exactly if there are short lists and all of them come
after the lists to keep. -/
theorem C49_cbv_iff {one u m : Nat} {lists : List (List Nat)} (h1 : one < 2 ^ 32) (hu : u < 2 ^ 32)
    (hl : ∀ k ∈ lists, k.length < 2 ^ 30) (hx : ∀ k ∈ longer m lists, k.Pairwise (· < ·) ∧ ∀ x ∈ k, x < 2 ^ 32) (hn : lists.length < 2 ^ 64)
    (coder : List Nat → Nat) :
    (∃ fuel, coders true m coder fuel (collectionBytes one u lists) = .ok (countsOf coder (longer m lists))) ↔
      ∃ a b, lists = a ++ b ∧ b ≠ [] ∧ (∀ k ∈ a, m < k.length) ∧ ∀ k ∈ b, k.length ≤ m := by
  constructor
  · rintro ⟨fuel, h⟩
    rcases first_short m lists with ha | ⟨a, l, b, rfl, ha, hs⟩
    · exfalso
      rcases List.eq_nil_or_concat lists with rfl | ⟨ls, l, rfl⟩
      · cases fuel with
        | zero => rw [coders_start _ _ _ _ h1 hu] at h; cases h
        | succ f => rw [C49_empty h1 hu] at h; cases h
      · rw [List.concat_eq_append] at *
        have hk : longer m (ls ++ [l]) = ls ++ [l] := List.filter_eq_self.mpr fun k h => by simpa using ha k h
        rw [hk] at h hx
        have := coders_only h1 hu (fun f hf => C49_cbv_twice h1 hu hl hx ha coder f hf) h
        have h2 := congrArg Counts.nSets this
        simp only [countsOf, List.length_append, List.length_cons, List.length_nil] at h2
        omega
    · refine ⟨a, l :: b, rfl, by simp, ha, ?_⟩
      have e : longer m (a ++ l :: b) = a ++ longer m b := by
        rw [longer, List.filter_append, List.filter_eq_self.mpr fun k h => by simpa using ha k h, List.filter_cons_of_neg (by simpa using hs)]
        rfl
      have hxa : ∀ k ∈ a, k.Pairwise (· < ·) ∧ ∀ x ∈ k, x < 2 ^ 32 := fun k hk => hx k (by rw [e]; simp [hk])
      have := coders_only h1 hu (n := a.length + 1) (fun f hf => C49_cbv_prefix (rest := b) h1 hu
        (fun k hk => hl k (by simp at hk ⊢; tauto)) hxa ha hs coder f (by omega)) h
      have h2 := congrArg Counts.nSets this
      rw [e] at h2
      simp only [countsOf, List.length_append] at h2
      have hlb : (longer m b).length ≤ b.length := List.length_filter_le _ _
      simp only [List.length_append, List.length_cons] at hn
      have h0 : longer m b = [] := List.length_eq_zero_iff.1 (by omega)
      intro k hk
      rcases List.mem_cons.1 hk with rfl | hk
      · exact hs
      · have := List.filter_eq_nil_iff.1 h0 k hk
        simpa using this
  · rintro ⟨a, b, rfl, hb, ha, hs⟩
    obtain ⟨l, b, rfl⟩ := List.exists_cons_of_ne_nil hb
    rw [longer_split ha hs] at hx ⊢
    exact ⟨a.length + 1, C49_cbv_prefix h1 hu (fun k hk => hl k (by simp at hk ⊢; tauto)) hx ha (hs l (by simp)) coder _ (by omega)⟩

example : (∃ fuel, coders true 1 List.sum fuel (collectionBytes 1 16 [[1, 2, 3], [4], [7]]) =
    .ok (countsOf List.sum (longer 1 [[1, 2, 3], [4], [7]]))) := ⟨2, by decide +kernel⟩

theorem pom_start (m : Nat) (coder : List Nat → Nat) (fuel : Nat) {one u : Nat} (h1 : one < 2 ^ 32) (hu : u < 2 ^ 32)
    (lists : List (List Nat)) : pom m coder fuel (collectionBytes one u lists) =
      statsLoop false m (pomStep coder) fuel ⟨lists.flatMap listBytes, false, false⟩ none none ⟨0, 0, 0, 0⟩ := by
  rw [pom, pomOn, collectionBytes, read4_ok (readLE_leBytes 4 _ _ (by omega))]
  dsimp only
  rw [read4_ok (readLE_leBytes 4 _ _ (by omega))]

theorem pomStep_zero (coder : List Nat → Nat) (a : PomCounts) (l : List Nat) : pomStep coder a (0 :: l) = .error .conv := rfl

theorem pomFold_zero {coder : List Nat → Nat} {l : List Nat} : (ls : List (List Nat)) → (a r : PomCounts) → 0 :: l ∈ ls →
    ls.foldlM (pomStep coder) a ≠ .ok r
  | [], _, _, h => by cases h
  | k :: ks, a, r, h => by
    rw [List.foldlM_cons]
    rcases List.mem_cons.1 h with rfl | h
    · rw [pomStep_zero]
      rintro ⟨⟩
    · intro e
      obtain ⟨b, -, e⟩ := bind_ok e
      exact pomFold_zero ks b r h e

/-- C49 is false of the code: there is no collection of sets for which `pom` ends and prints the number of the lists that it keeps. If a
list to keep contains 0 it does not even end with a result. -/
theorem C49_pom_negation {one u m : Nat} {lists : List (List Nat)} (h1 : one < 2 ^ 32) (hu : u < 2 ^ 32)
    (hl : ∀ k ∈ lists, k.length < 2 ^ 30) (hx : ∀ k ∈ longer m lists, k.Pairwise (· < ·) ∧ ∀ x ∈ k, x < 2 ^ 32)
    (coder : List Nat → Nat) (fuel : Nat) (c : PomCounts) (h : pom m coder fuel (collectionBytes one u lists) = .ok c) :
    (∀ k ∈ longer m lists, 0 ∉ k) ∧ c.nSets ≠ (longer m lists).length % 2 ^ 64 := by
  have more : ∀ k, pom m coder (fuel + k) (collectionBytes one u lists) = .ok c := by
    intro k
    rw [pom_start _ _ _ h1 hu] at h ⊢
    exact statsLoop_mono _ _ _ _ _ h k
  have h0 : ∀ k ∈ longer m lists, 0 ∉ k := by
    intro k hk hz
    have e := more lists.length
    have e1 := statsLoop_lists (m := m) (step := pomStep coder) (stop := false) lists fuel none none ⟨0, 0, 0, 0⟩ hl
      (fun k h => (hx k h).2) (by simp) []
    rw [List.append_nil] at e1
    rw [pom_start _ _ _ h1 hu, e1] at e
    obtain ⟨a, ha, -⟩ := bind_ok e
    cases k with
    | nil => cases hz
    | cons x l =>
      have hx0 : x = 0 := by
        rcases List.mem_cons.1 hz with h | h
        · exact h.symm
        · have := (List.pairwise_cons.1 (hx _ hk).1).1 0 h
          omega
      subst hx0
      exact pomFold_zero _ _ _ hk ha
  refine ⟨h0, ?_⟩
  have hx' : ∀ k ∈ longer m lists, k.Pairwise (· < ·) ∧ (∀ x ∈ k, x < 2 ^ 32) ∧ 0 ∉ k := fun k hk => ⟨(hx k hk).1, (hx k hk).2, h0 k hk⟩
  rcases List.eq_nil_or_concat lists with rfl | ⟨ls, l, rfl⟩
  · have := more 1
    rw [pom_start _ _ _ h1 hu, List.flatMap_nil, statsLoop_end_none] at this
    cases this
  · rw [List.concat_eq_append] at *
    by_cases hm : m < l.length
    · have hne : l ≠ [] := by rintro rfl; simp at hm
      obtain ⟨sorted, -, h2⟩ := C49_pom_partial h1 hu hl hx' hm coder (fuel + (ls.length + 3)) (by omega)
      have h3 := h2 (l.getLast hne) (List.getLast?_eq_getLast_of_ne_nil hne)
      rw [more] at h3
      injection h3 with h3
      rw [h3]
      simp only
      omega
    · have h2 := C49_pom_hangs h1 hu hl hx' (by omega) coder (fuel + (ls.length + 1)) (by omega)
      rw [more] at h2
      cases h2

example : pom 1 List.sum 5 (collectionBytes 1 16 [[1, 2, 3], [9], [4, 6]]) = .ok ⟨7, 3, 23, 22⟩ ∧ (longer 1 [[1, 2, 3], [9], [4, 6]]).length = 2 := by
  decide +kernel

end CBT
