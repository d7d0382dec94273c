import Verif.Proof.TrieFiles

/-!
# The builders on lists of `2^30` elements and more
-/

namespace CBT

open Spec

theorem readLE_shorter : (k : Nat) → (s : Bytes) → (x : Nat) → (rest : Bytes) → readLE k s = .ok (x, rest) → s.length = rest.length + k
  | 0, s, x, rest, h => by
    injection h with h
    obtain ⟨-, h'⟩ := Prod.mk.inj h
    rw [h', Nat.add_zero]
  | k + 1, [], _, _, h => by simp [readLE] at h
  | k + 1, b :: s, x, rest, h => by
    rw [readLE] at h
    obtain ⟨⟨y, r⟩, h1, h2⟩ := bind_ok h
    injection h2 with h2
    obtain ⟨-, h'⟩ := Prod.mk.inj h2
    have := readLE_shorter k s y r h1
    rw [List.length_cons, this, ← h']
    omega

/-- The first pass always ends, whatever it reads as a length. -/
theorem countSets_total (mn mx : Nat) : (fuel : Nat) → (s : Bytes) → (c : Nat) → s.length < fuel → ∃ n, countSets mn mx fuel s c = .ok n
  | fuel + 1, s, c, h => by
    rw [countSets]
    cases e : readLE 4 s with
    | error _ => exact ⟨c, rfl⟩
    | ok p =>
      obtain ⟨n, r⟩ := p
      have hl := readLE_shorter 4 s n r e
      simp only
      exact countSets_total mn mx fuel _ _ (by rw [skipList, List.length_drop]; omega)

theorem readLE_longList {l : List Nat} (h : l.length < 2 ^ 32) (rest : Bytes) :
    readLE 4 (listBytes l ++ rest) = .ok (l.length, l.flatMap (leBytes 4) ++ rest) := by
  rw [listBytes, List.append_assoc, readLE_leBytes 4 _ _ (by omega)]

/-- The second pass reads lists of every length; only a list that is left out has to be short. -/
theorem buildLoop_long {mn mx : Nat} {make : Nat → List Nat → R Bytes} : (lists : List (List Nat)) → (fuel i : Nat) →
    (∀ l ∈ lists, l.length < 2 ^ 32) → (∀ l ∈ lists, l ∉ kept mn mx lists → l.length < 2 ^ 30) →
    (∀ l ∈ kept mn mx lists, ∀ x ∈ l, x < 2 ^ 32) → lists.length < fuel →
    buildLoop mn mx make fuel (lists.flatMap listBytes) i = makeAll make i (kept mn mx lists)
  | [], fuel + 1, i, _, _, _, _ => rfl
  | l :: ls, fuel + 1, i, hl, hs, hx, hf => by
    have h0 : l.length < 2 ^ 32 := hl l (by simp)
    have hf' : ls.length < fuel := by simp only [List.length_cons] at hf; omega
    have hs' : ∀ a ∈ ls, a ∉ kept mn mx ls → a.length < 2 ^ 30 := by
      intro a ha hk
      refine hs a (List.mem_cons_of_mem _ ha) fun h => hk ?_
      exact List.mem_filter.2 ⟨ha, (List.mem_filter.1 h).2⟩
    rw [List.flatMap_cons, buildLoop, readLE_longList h0]
    simp only
    rw [accepts_eq]
    by_cases ha : (decide (mn < l.length) && decide (l.length ≤ mx)) = true
    · have e : kept mn mx (l :: ls) = l :: kept mn mx ls := kept_pos ha
      rw [e] at hx ⊢
      have hr : readInvList l.length (l.flatMap (leBytes 4) ++ ls.flatMap listBytes) = .ok (l, ls.flatMap listBytes) := by
        rw [readInvList, readMany_flatMap (f := id) l _ fun x hxl rest => readLE_leBytes 4 x rest (by
          have := hx l (by simp) x hxl; omega)]
        simp
      rw [if_pos ha, hr, R_bind_ok]
      simp only
      rw [makeAll]
      simp only [buildLoop_long ls fuel (i + 1) (fun l h => hl l (List.mem_cons_of_mem _ h)) hs'
        (fun l h => hx l (List.mem_cons_of_mem _ h)) hf']
    · have e : kept mn mx (l :: ls) = kept mn mx ls := kept_neg ha
      have h30 : l.length < 2 ^ 30 := hs l (by simp) fun h => ha (List.mem_filter.1 h).2
      rw [e] at hx ⊢
      rw [if_neg ha, skipList_list h30, buildLoop_long ls fuel i (fun l h => hl l (List.mem_cons_of_mem _ h)) hs' hx hf']

/-- What both passes make of a collection with lists of every length. -/
theorem buildFile_long {mn mx : Nat} {hdr : Bytes} {make : Nat → Nat → List Nat → R Bytes} {one u : Nat}
    {lists : List (List Nat)} (h1 : one < 2 ^ 32) (hu : u < 2 ^ 32) (hl : ∀ l ∈ lists, l.length < 2 ^ 32)
    (hs : ∀ l ∈ lists, l ∉ kept mn mx lists → l.length < 2 ^ 30) (hx : ∀ l ∈ kept mn mx lists, ∀ x ∈ l, x < 2 ^ 32) :
    ∃ n, countSets mn mx ((lists.flatMap listBytes).length + 1) (lists.flatMap listBytes) 0 = .ok n ∧
    buildFile mn mx hdr make (collectionBytes one u lists) = (makeAll (make u) 0 (kept mn mx lists) >>= fun tries =>
      .ok (hdr ++ leBytes 4 n ++ leBytes 4 one ++ leBytes 4 u ++ tries)) := by
  have hf := length_le_flatMap lists
  obtain ⟨n, hn⟩ := countSets_total mn mx ((lists.flatMap listBytes).length + 1) (lists.flatMap listBytes) 0 (by omega)
  refine ⟨n, hn, ?_⟩
  rw [buildFile, collectionBytes, readLE_leBytes 4 _ _ (by omega), R_bind_ok]
  simp only
  rw [readLE_leBytes 4 _ _ (by omega), R_bind_ok]
  simp only
  rw [hn, R_bind_ok, buildLoop_long lists _ 0 hl hs hx (by omega)]

/-- The builder succeeds exactly if all tries can be built. -/
theorem buildFile_long_iff {mn mx : Nat} {hdr : Bytes} {make : Nat → Nat → List Nat → R Bytes} {one u : Nat}
    {lists : List (List Nat)} (h1 : one < 2 ^ 32) (hu : u < 2 ^ 32) (hl : ∀ l ∈ lists, l.length < 2 ^ 32)
    (hs : ∀ l ∈ lists, l ∉ kept mn mx lists → l.length < 2 ^ 30) (hx : ∀ l ∈ lists, ∀ x ∈ l, x < 2 ^ 32) :
    ∃ n, ∀ f, buildFile mn mx hdr make (collectionBytes one u lists) = .ok f ↔
      ∃ parts : List Bytes, parts.length = (kept mn mx lists).length ∧
        (∀ j (h : j < (kept mn mx lists).length) (h' : j < parts.length), make u j (kept mn mx lists)[j] = .ok parts[j]) ∧
        f = hdr ++ leBytes 4 n ++ leBytes 4 one ++ leBytes 4 u ++ parts.flatten := by
  obtain ⟨n, -, e⟩ := buildFile_long (hdr := hdr) (make := make) h1 hu hl hs (fun l h => hx l (List.mem_of_mem_filter h))
  refine ⟨n, fun f => ?_⟩
  rw [e]
  constructor
  · intro h
    obtain ⟨b, hb, h⟩ := bind_ok h
    injection h with h
    obtain ⟨parts, e1, e2, e3⟩ := makeAll_inv _ _ _ hb
    refine ⟨parts, e2, fun j h h' => by have := e3 j h h'; rwa [Nat.zero_add] at this, ?_⟩
    rw [← h, e1]
  · rintro ⟨parts, e2, e3, rfl⟩
    have := makeAll_ok (make := make u) (part := fun j => parts.getD j []) (kept mn mx lists) 0 (fun j h => by
      rw [Nat.zero_add, e3 j h (by omega), List.getD_eq_getElem?_getD, List.getElem?_eq_getElem (by omega)]; rfl)
    rw [this, R_bind_ok]
    have e : (List.range' 0 (kept mn mx lists).length).flatMap (fun j => parts.getD j []) = parts.flatten := by
      rw [List.flatMap_def, ← e2]
      congr 1
      refine List.ext_getElem (by simp) fun j h1 h2 => ?_
      simp [List.getD_eq_getElem?_getD, List.getElem?_eq_getElem h2]
    rw [e]

/-! ## The list of the numbers below `2^30` -/

theorem drop_flatMap_le (l : List Nat) : (m : Nat) → (l.flatMap (leBytes 4)).drop (4 * m) = (l.drop m).flatMap (leBytes 4) := by
  induction l with
  | nil => intro m; simp
  | cons a l ih =>
    intro m
    cases m with
    | zero => simp
    | succ m =>
      rw [List.flatMap_cons, List.drop_succ_cons, ← ih m, show 4 * (m + 1) = (leBytes 4 a).length + 4 * m by rw [length_leBytes]; omega,
        List.drop_length_add_append]

/-- Inside the list, element `x` is read as a length and `x` elements are skipped: the positions visited are `2^k - 1`. -/
theorem countSets_inside {mx : Nat} (hmx : 2 ^ 30 ≤ mx) : (j k fuel c : Nat) → j + k = 30 → 1 ≤ k → j + 1 < fuel → c + j + 1 < 2 ^ 32 →
    countSets 0 mx fuel ((List.range' (2 ^ k - 1) (2 ^ 30 - (2 ^ k - 1))).flatMap (leBytes 4)) c = .ok (c + j + 1)
  | 0, k, fuel + 2, c, hk, _, _, hc => by
    obtain rfl : k = 30 := by omega
    have e : List.range' (2 ^ 30 - 1) (2 ^ 30 - (2 ^ 30 - 1)) = [2 ^ 30 - 1] := rfl
    rw [e, List.flatMap_cons, List.flatMap_nil, countSets, readLE_leBytes 4 _ _ (by decide)]
    have ha : accepts 0 mx (2 ^ 30 - 1) = true := by simp only [accepts, decide_eq_true_eq]; omega
    simp only [skipList, List.drop_nil, ha, if_true]
    rw [Nat.mod_eq_of_lt (by omega)]
    rfl
  | j + 1, k, fuel + 1, c, hk, h1, hf, hc => by
    have hp : 2 ^ (k + 1) = 2 * 2 ^ k := by rw [Nat.pow_succ]; omega
    have hp1 : 1 < 2 ^ k := Nat.one_lt_two_pow (by omega)
    have hp2 : 2 ^ (k + 1) ≤ 2 ^ 30 := Nat.pow_le_pow_right (by omega) (by omega)
    obtain ⟨P, hP⟩ : ∃ P, P = 2 ^ k := ⟨_, rfl⟩
    have e : List.range' (P - 1) (2 ^ 30 - (P - 1)) = (P - 1) :: List.range' P (2 ^ 30 - P) := by
      rw [show 2 ^ 30 - (P - 1) = (2 ^ 30 - P) + 1 by omega, List.range'_succ, show P - 1 + 1 = P by omega]
    have hm : 4 * (P - 1) % 2 ^ 32 = 4 * (P - 1) := Nat.mod_eq_of_lt (by omega)
    have ha : accepts 0 mx (P - 1) = true := by simp only [accepts, decide_eq_true_eq]; omega
    have hd : (List.range' P (2 ^ 30 - P)).drop (P - 1) = List.range' (2 ^ (k + 1) - 1) (2 ^ 30 - (2 ^ (k + 1) - 1)) := by
      rw [List.drop_range', hp, ← hP]
      congr 1 <;> omega
    rw [← hP, e, List.flatMap_cons, countSets, readLE_leBytes 4 _ _ (by omega)]
    simp only [ha, if_true, skipList]
    rw [hm, drop_flatMap_le, hd, Nat.mod_eq_of_lt (by omega), countSets_inside hmx j (k + 1) fuel (c + 1) (by omega) (by omega) (by omega)
      (by omega)]
    congr 1; omega

/-- The first pass on the collection whose only list has the numbers below `2^30`. -/
theorem countSets_long {mx : Nat} (hmx : 2 ^ 30 ≤ mx) {N : Nat} (hN : N = 2 ^ 30) {fuel : Nat} (hf : 40 < fuel) :
    countSets 0 mx fuel (([List.range' 0 N]).flatMap listBytes) 0 = .ok 31 := by
  have hlen : (List.range' 0 N).length = N := List.length_range'
  have ha : accepts 0 mx N = true := by simp only [accepts, decide_eq_true_eq]; omega
  have h0 : accepts 0 mx 0 = false := by simp [accepts]
  have hz : 4 * N % 2 ^ 32 = 0 := by omega
  have e : List.range' 0 N = 0 :: List.range' 1 (N - 1) := by
    rw [show N = (N - 1) + 1 by omega, List.range'_succ]
    rfl
  obtain ⟨f, rfl⟩ : ∃ f, fuel = f + 2 := ⟨fuel - 2, by omega⟩
  rw [List.flatMap_cons, countSets, readLE_longList (by omega)]
  simp only [hlen, ha, if_true, skipList, hz, List.drop_zero, List.flatMap_nil, List.append_nil]
  rw [e, List.flatMap_cons, countSets, readLE_leBytes 4 _ _ (by decide)]
  simp only [h0, skipList, Nat.mul_zero, Nat.zero_mod, List.drop_zero, Bool.false_eq_true, if_false]
  have := countSets_inside hmx 29 1 f 1 (by omega) (by omega) (by omega) (by omega)
  rw [show N - 1 = 2 ^ 30 - (2 ^ 1 - 1) by omega]
  exact this

theorem kept_long {mx : Nat} (hmx : 2 ^ 30 ≤ mx) {N : Nat} (hN : N = 2 ^ 30) : kept 0 mx [List.range' 0 N] = [List.range' 0 N] := by
  have hlen : (List.range' 0 N).length = N := List.length_range'
  refine kept_pos ?_
  rw [hlen]
  simp only [Bool.and_eq_true, decide_eq_true_eq]
  omega

theorem valid_long {N u : Nat} (hN : N = 2 ^ 30) (hu : 2 ^ 30 ≤ u) : ValidSet (List.range' 0 N) u where
  ne h := by
    have := congrArg List.length h
    rw [List.length_range', List.length_nil] at this
    omega
  increasing := List.pairwise_lt_range'
  below x hx := by rw [List.mem_range'_1] at hx; omega

/-! ## The same list left out -/

/-- What stands behind position `2^k - 1` of the list, read as lists. -/
def foundLists (k j : Nat) : List (List Nat) := (List.range' k j).map fun k => List.range' (2 ^ k) (2 ^ k - 1)

theorem length_foundLists (k j : Nat) : (foundLists k j).length = j := by simp [foundLists]

theorem foundLists_succ (k j : Nat) : foundLists k (j + 1) = List.range' (2 ^ k) (2 ^ k - 1) :: foundLists (k + 1) j := by
  rw [foundLists, List.range'_succ, List.map_cons]; rfl

/-- The bytes of the list are those of other lists, and of a length. -/
theorem list_bytes_found : (j k : Nat) → j + k = 30 → 1 ≤ k →
    (List.range' (2 ^ k - 1) (2 ^ 30 - (2 ^ k - 1))).flatMap (leBytes 4) = (foundLists k j).flatMap listBytes ++ leBytes 4 (2 ^ 30 - 1)
  | 0, k, hk, _ => by
    obtain rfl : k = 30 := by omega
    have e : List.range' (2 ^ 30 - 1) (2 ^ 30 - (2 ^ 30 - 1)) = [2 ^ 30 - 1] := rfl
    rw [e, List.flatMap_cons, List.flatMap_nil, foundLists, List.range'_zero, List.map_nil, List.flatMap_nil, List.append_nil,
      List.nil_append]
  | j + 1, k, hk, h1 => by
    have hp : 2 ^ (k + 1) = 2 * 2 ^ k := by rw [Nat.pow_succ]; omega
    have hp1 : 1 < 2 ^ k := Nat.one_lt_two_pow (by omega)
    have hp2 : 2 ^ (k + 1) ≤ 2 ^ 30 := Nat.pow_le_pow_right (by omega) (by omega)
    have ih := list_bytes_found j (k + 1) (by omega) (by omega)
    rw [hp] at ih hp2
    rw [foundLists_succ]
    obtain ⟨P, hP⟩ : ∃ P, P = 2 ^ k := ⟨_, rfl⟩
    rw [← hP] at ih hp1 hp2 ⊢
    have e : List.range' (P - 1) (2 ^ 30 - (P - 1)) = (P - 1) :: (List.range' P (P - 1) ++ List.range' (2 * P - 1) (2 ^ 30 - (2 * P - 1))) := by
      rw [show 2 ^ 30 - (P - 1) = ((P - 1) + (2 ^ 30 - (2 * P - 1))) + 1 by omega, List.range'_succ, show P - 1 + 1 = P by omega,
        ← List.range'_append_1, show P + (P - 1) = 2 * P - 1 by omega]
    rw [e, List.flatMap_cons, List.flatMap_append, ih, List.flatMap_cons, listBytes, List.length_range']
    simp only [List.append_assoc]

theorem countSets_tail {mn mx : Nat} (hmx : mx < 2 ^ 30 - 1) : (lists : List (List Nat)) → (fuel c : Nat) →
    (∀ l ∈ lists, l.length < 2 ^ 30) → lists.length + 1 < fuel → c + (kept mn mx lists).length < 2 ^ 32 →
    countSets mn mx fuel (lists.flatMap listBytes ++ leBytes 4 (2 ^ 30 - 1)) c = .ok (c + (kept mn mx lists).length)
  | [], fuel + 2, c, _, _, _ => by
    have ha : accepts mn mx (2 ^ 30 - 1) = false := by simp only [accepts, decide_eq_false_iff_not]; omega
    rw [List.flatMap_nil, List.nil_append, ← List.append_nil (leBytes 4 _), countSets, readLE_leBytes 4 _ _ (by decide)]
    simp only [ha, skipList, List.drop_nil, Bool.false_eq_true, if_false]
    rfl
  | l :: ls, fuel + 1, c, hl, hf, hc => by
    have h0 : l.length < 2 ^ 30 := hl l (by simp)
    rw [List.flatMap_cons, List.append_assoc, countSets, readLE_listBytes h0]
    simp only
    rw [skipList_list h0, accepts_eq]
    by_cases ha : (decide (mn < l.length) && decide (l.length ≤ mx)) = true
    · have e : kept mn mx (l :: ls) = l :: kept mn mx ls := kept_pos ha
      rw [e, List.length_cons] at hc ⊢
      rw [if_pos ha, Nat.mod_eq_of_lt (by omega), countSets_tail hmx ls fuel (c + 1) (fun l h => hl l (List.mem_cons_of_mem _ h))
        (by simp only [List.length_cons] at hf; omega) (by omega)]
      congr 1; omega
    · have e : kept mn mx (l :: ls) = kept mn mx ls := kept_neg ha
      rw [e] at hc ⊢
      rw [if_neg ha, countSets_tail hmx ls fuel c (fun l h => hl l (List.mem_cons_of_mem _ h))
        (by simp only [List.length_cons] at hf; omega) hc]

theorem buildLoop_tail {mn mx : Nat} (hmx : mx < 2 ^ 30 - 1) {make : Nat → List Nat → R Bytes} : (lists : List (List Nat)) →
    (fuel i : Nat) → (∀ l ∈ lists, l.length < 2 ^ 30) → (∀ l ∈ lists, ∀ x ∈ l, x < 2 ^ 32) → lists.length + 1 < fuel →
    buildLoop mn mx make fuel (lists.flatMap listBytes ++ leBytes 4 (2 ^ 30 - 1)) i = makeAll make i (kept mn mx lists)
  | [], fuel + 2, i, _, _, _ => by
    have ha : accepts mn mx (2 ^ 30 - 1) = false := by simp only [accepts, decide_eq_false_iff_not]; omega
    rw [List.flatMap_nil, List.nil_append, ← List.append_nil (leBytes 4 _), buildLoop, readLE_leBytes 4 _ _ (by decide)]
    simp only [ha, skipList, List.drop_nil, Bool.false_eq_true, if_false]
    rfl
  | l :: ls, fuel + 1, i, hl, hx, hf => by
    have h0 : l.length < 2 ^ 30 := hl l (by simp)
    have hf' : ls.length + 1 < fuel := by simp only [List.length_cons] at hf; omega
    have ih := fun i => buildLoop_tail (mn := mn) hmx (make := make) ls fuel i (fun l h => hl l (List.mem_cons_of_mem _ h))
      (fun l h => hx l (List.mem_cons_of_mem _ h)) hf'
    rw [List.flatMap_cons, List.append_assoc, buildLoop, readLE_listBytes h0]
    simp only
    rw [accepts_eq]
    by_cases ha : (decide (mn < l.length) && decide (l.length ≤ mx)) = true
    · have e : kept mn mx (l :: ls) = l :: kept mn mx ls := kept_pos ha
      have hr : readInvList l.length (l.flatMap (leBytes 4) ++ (ls.flatMap listBytes ++ leBytes 4 (2 ^ 30 - 1))) =
          .ok (l, ls.flatMap listBytes ++ leBytes 4 (2 ^ 30 - 1)) := by
        rw [readInvList, readMany_flatMap (f := id) l _ fun x hxl rest => readLE_leBytes 4 x rest (by
          have := hx l (by simp) x hxl; omega)]
        simp
      rw [e, if_pos ha, hr, R_bind_ok]
      simp only
      rw [makeAll]
      simp only [ih]
    · have e : kept mn mx (l :: ls) = kept mn mx ls := kept_neg ha
      rw [e, if_neg ha, skipList_list h0, ih]

theorem foundLists_short {l : List Nat} (h : l ∈ foundLists 1 29) : l.length < 2 ^ 30 ∧ ∀ x ∈ l, x < 2 ^ 30 := by
  obtain ⟨k, hk, rfl⟩ := List.mem_map.1 h
  rw [List.mem_range'_1] at hk
  have hp : 2 ^ k ≤ 2 ^ 29 := Nat.pow_le_pow_right (by omega) (by omega)
  refine ⟨by rw [List.length_range']; omega, fun x hx => ?_⟩
  rw [List.mem_range'_1] at hx
  omega

theorem kept_found (mn mx : Nat) : kept mn mx (foundLists 1 29) =
    ((List.range' 1 29).filter fun k => decide (mn < 2 ^ k - 1) && decide (2 ^ k - 1 ≤ mx)).map fun k => List.range' (2 ^ k) (2 ^ k - 1) := by
  have h : ∀ ks : List Nat, kept mn mx (ks.map fun k => List.range' (2 ^ k) (2 ^ k - 1)) =
      (ks.filter fun k => decide (mn < 2 ^ k - 1) && decide (2 ^ k - 1 ≤ mx)).map fun k => List.range' (2 ^ k) (2 ^ k - 1) := by
    intro ks
    rw [kept, List.filter_map]
    congr 1
    refine List.filter_congr fun k _ => ?_
    simp only [Function.comp_apply, List.length_range']
  exact h _

/-- Left out, the list is read as other lists. -/
theorem buildFile_found {mn mx : Nat} (hmx : mx < 2 ^ 30 - 1) {N : Nat} (hN : N = 2 ^ 30) {hdr : Bytes}
    {make : Nat → Nat → List Nat → R Bytes} {one u : Nat} (h1 : one < 2 ^ 32) (hu : u < 2 ^ 32) :
    buildFile mn mx hdr make (collectionBytes one u [List.range' 0 N]) =
      buildFile mn mx hdr make (collectionBytes one u (foundLists 1 29)) := by
  have hlen : (List.range' 0 N).length = N := List.length_range'
  have ha : accepts mn mx N = false := by simp only [accepts, decide_eq_false_iff_not]; omega
  have h0 : accepts mn mx 0 = false := by simp [accepts]
  have hz : 4 * N % 2 ^ 32 = 0 := by omega
  have e : List.range' 0 N = 0 :: List.range' 1 (N - 1) := by
    rw [show N = (N - 1) + 1 by omega, List.range'_succ]
    rfl
  have eb : (List.range' 1 (N - 1)).flatMap (leBytes 4) = (foundLists 1 29).flatMap listBytes ++ leBytes 4 (2 ^ 30 - 1) := by
    rw [show N - 1 = 2 ^ 30 - (2 ^ 1 - 1) by omega]
    exact list_bytes_found 29 1 (by omega) (by omega)
  have hk : (kept mn mx (foundLists 1 29)).length ≤ 29 := by
    rw [kept]
    exact Nat.le_trans (List.length_filter_le ..) (Nat.le_of_eq (length_foundLists 1 29))
  have hfl := length_foundLists 1 29
  rw [buildFile_lists h1 hu (fun l h => (foundLists_short h).1)
    (fun l h x hx => by have := (foundLists_short (List.mem_of_mem_filter h)).2 x hx; omega) (by omega)]
  have hbytes : ([List.range' 0 N]).flatMap listBytes = leBytes 4 N ++ (leBytes 4 0 ++ ((foundLists 1 29).flatMap listBytes ++
      leBytes 4 (2 ^ 30 - 1))) := by
    rw [List.flatMap_cons, List.flatMap_nil, List.append_nil, listBytes, hlen, ← eb, e, List.flatMap_cons]
  have hbl := length_le_flatMap (foundLists 1 29)
  obtain ⟨fuel, hfu, hf2⟩ : ∃ fuel, (([List.range' 0 N]).flatMap listBytes).length + 1 = fuel + 2 ∧ 31 < fuel := by
    refine ⟨(([List.range' 0 N]).flatMap listBytes).length - 1, ?_, ?_⟩ <;>
      (rw [hbytes]; simp only [List.length_append, length_leBytes]; omega)
  rw [buildFile, collectionBytes, readLE_leBytes 4 _ _ (by omega), R_bind_ok]
  simp only
  rw [readLE_leBytes 4 _ _ (by omega), R_bind_ok]
  simp only
  rw [hfu, hbytes, countSets, readLE_leBytes 4 _ _ (by omega)]
  simp only [ha, skipList, hz, List.drop_zero, Bool.false_eq_true, if_false]
  rw [countSets, readLE_leBytes 4 _ _ (by decide)]
  simp only [h0, skipList, Nat.mul_zero, Nat.zero_mod, List.drop_zero, Bool.false_eq_true, if_false]
  rw [countSets_tail hmx _ _ _ (fun l h => (foundLists_short h).1) (by omega) (by omega), R_bind_ok, buildLoop,
    readLE_leBytes 4 _ _ (by omega)]
  simp only [ha, skipList, hz, List.drop_zero, Bool.false_eq_true, if_false]
  rw [buildLoop, readLE_leBytes 4 _ _ (by decide)]
  simp only [h0, skipList, Nat.mul_zero, Nat.zero_mod, List.drop_zero, Bool.false_eq_true, if_false]
  rw [buildLoop_tail hmx _ _ _ (fun l h => (foundLists_short h).1)
    (fun l h x hx => by have := (foundLists_short h).2 x hx; omega) (by omega), Nat.zero_add]

/-- The file of this collection: the header announces 31 tries. -/
theorem buildFile_range {mx : Nat} (hmx : 2 ^ 30 ≤ mx) {N : Nat} (hN : N = 2 ^ 30) {hdr : Bytes} {make : Nat → Nat → List Nat → R Bytes}
    {one u : Nat} (h1 : one < 2 ^ 32) (hu : u < 2 ^ 32) {b : Bytes} (hb : make u 0 (List.range' 0 N) = .ok b) :
    buildFile 0 mx hdr make (collectionBytes one u [List.range' 0 N]) =
      .ok (hdr ++ leBytes 4 31 ++ leBytes 4 one ++ leBytes 4 u ++ b) := by
  have hlen : (List.range' 0 N).length = N := List.length_range'
  obtain ⟨n, hn, hf⟩ := buildFile_long (mn := 0) (mx := mx) (hdr := hdr) (make := make) (lists := [List.range' 0 N]) h1 hu
    (fun l h => by rw [List.mem_singleton.1 h, hlen]; omega)
    (fun l h hk => by rw [kept_long hmx hN] at hk; exact absurd h hk)
    (fun l h x hx => by
      rw [kept_long hmx hN] at h
      rw [List.mem_singleton.1 h, List.mem_range'_1] at hx
      omega)
  have h31 := countSets_long hmx hN (fuel := (([List.range' 0 N]).flatMap listBytes).length + 1) (by
    rw [List.flatMap_cons, List.flatMap_nil, List.append_nil, listBytes, List.length_append, length_leBytes, List.length_flatMap,
      List.map_congr_left (fun x _ => length_leBytes 4 x)]
    simp only [List.map_const', List.sum_replicate_nat, hlen]
    omega)
  rw [h31] at hn
  injection hn with hn
  rw [hf, kept_long hmx hN, makeAll, hb, R_bind_ok, makeAll, R_bind_ok, R_bind_ok, List.append_nil, ← hn]

/-! ## The query tool for fast tries on such files -/

theorem countSets_bound {mn mx : Nat} : (fuel : Nat) → (s : Bytes) → (c : Nat) → c < 2 ^ 32 → (n : Nat) →
    countSets mn mx fuel s c = .ok n → n < 2 ^ 32
  | 0, _, _, _, _, h => by simp [countSets] at h
  | fuel + 1, s, c, hc, n, h => by
    rw [countSets] at h
    cases e : readLE 4 s with
    | error _ => rw [e] at h; simp only at h; injection h with h; omega
    | ok p =>
      rw [e] at h
      refine countSets_bound fuel _ _ ?_ n h
      by_cases ha : accepts mn mx p.1 = true
      · rw [if_pos ha]; omega
      · rw [if_neg ha]; exact hc

theorem buildFast_long (B : BvIO) (K : Nat → RankIO) {lg : Nat} (hlg : 3 ≤ lg ∧ lg ≤ 6) (pad : Nat) (junk : Nat → FastJunk)
    (hj : ∀ i, (junk i).heightWithRuns < 2 ^ 16) {mn mx rank : Nat} (runs levelwise : Bool)
    {one u : Nat} (hone : one < 2 ^ 32) (hu : 2 ^ (lg - 1) < u) (hu' : u < 2 ^ 32) {lists : List (List Nat)}
    (hl : ∀ l ∈ lists, l.length < 2 ^ 32) (hs : ∀ l ∈ lists, l ∉ kept mn mx lists → l.length < 2 ^ 30)
    (hv : ∀ l ∈ kept mn mx lists, ValidSet l u) :
    ∃ (n : Nat) (part : Nat → Bytes) (obj : Nat → FastObj (K (if rank = 0 then 0 else 2))), n < 2 ^ 32 ∧
      countSets mn mx ((lists.flatMap listBytes).length + 1) (lists.flatMap listBytes) 0 = .ok n ∧
      buildFast B K pad junk mn mx rank runs levelwise (2 ^ lg) (collectionBytes one u lists) =
        .ok (some (fastFileHeader rank runs levelwise (2 ^ lg) ++ (leBytes 4 n ++ (leBytes 4 one ++
          (leBytes 4 u ++ (List.range' 0 (kept mn mx lists).length).flatMap part))))) ∧
      ∀ j, j < (kept mn mx lists).length →
        (∀ t0 : FastTrie, t0.lastLevel = [] → ∀ rest, fastLoad B (K (if rank = 0 then 0 else 2)) lg t0 (part j ++ rest) =
          .ok (obj j, rest)) ∧
        FastCoded lg pad (fastHeight lg u) (runs, (kept mn mx lists).getD j []) ((obj j).nav pad) := by
  have hx : ∀ l ∈ kept mn mx lists, ∀ x ∈ l, x < 2 ^ 32 := fun l h x hx => by have := (hv l h).below x hx; omega
  have key : ∀ j, ∃ (b : Bytes) (o : FastObj (K (if rank = 0 then 0 else 2))), ∀ h : j < (kept mn mx lists).length,
      makeFast B (K (if rank = 0 then 0 else 2)) lg pad junk runs u j (kept mn mx lists)[j] = .ok b ∧
      (∀ t0 : FastTrie, t0.lastLevel = [] → ∀ rest, fastLoad B (K (if rank = 0 then 0 else 2)) lg t0 (b ++ rest) = .ok (o, rest)) ∧
      FastCoded lg pad (fastHeight lg u) (runs, (kept mn mx lists)[j]) (o.nav pad) := by
    intro j
    by_cases h : j < (kept mn mx lists).length
    · have hm := List.getElem_mem h
      have hll : (kept mn mx lists)[j].length < 2 ^ 32 := hl _ (List.mem_of_mem_filter hm)
      obtain ⟨b, o, e1, e2, e3⟩ := fast_saved B (K (if rank = 0 then 0 else 2)) hlg (hv _ hm) hll hu (by omega) junk j (hj j)
        pad runs
      exact ⟨b, o, fun _ => ⟨e1, e2, e3⟩⟩
    · exact ⟨[], ⟨⟨0, 0, 0, false, false, [], []⟩, (K _).of []⟩, fun h' => absurd h' h⟩
  choose part obj hk using key
  obtain ⟨n, hc, e⟩ := buildFile_long (hdr := fastFileHeader rank runs levelwise (2 ^ lg))
    (make := makeFast B (K (if rank = 0 then 0 else 2)) lg pad junk runs) hone hu' hl hs hx
  refine ⟨n, part, obj, countSets_bound _ _ 0 (by omega) n hc, hc, ?_, fun j hj => ?_⟩
  · rw [buildFast, (wordLg_pow hlg).1]
    simp only
    rw [e, makeAll_ok (part := part) _ 0 (fun j h => by rw [Nat.zero_add]; exact (hk j h).1)]
    simp only [R_bind_ok, List.append_assoc]
  · have := hk j hj
    rw [List.getD_eq_getElem?_getD, List.getElem?_eq_getElem hj]
    exact this.2

/-- Queries about tries that are there, and that the header announces, are answered. -/
theorem queryFast_long (B : BvIO) (K : Nat → RankIO) {lg : Nat} (hlg : 3 ≤ lg ∧ lg ≤ 6) (pad : Nat) (junk junk' : Nat → FastJunk)
    (hj : ∀ i, (junk i).heightWithRuns < 2 ^ 16) {mn mx rank : Nat} (hr : rank < 2 ^ 32) (hr1 : rank ≠ 1) (runs levelwise : Bool)
    {one u : Nat} (hone : one < 2 ^ 32) (hu : 2 ^ (lg - 1) < u) (hu' : u < 2 ^ 32) {lists : List (List Nat)}
    (hl : ∀ l ∈ lists, l.length < 2 ^ 32) (hs : ∀ l ∈ lists, l ∉ kept mn mx lists → l.length < 2 ^ 30)
    (hv : ∀ l ∈ kept mn mx lists, ValidSet l u)
    (parallel : Bool) (env : Nat → Env) {P : List (List Nat) → List Nat → Prop}
    (hI : ∀ (sets : List (List Nat)) (Ts : List FNav) (i : Nat),
      List.Forall₂ (fun S n => FastCoded lg pad (fastHeight lg u) (runs, S) n) sets Ts → (∀ S ∈ sets, S ∈ kept mn mx lists) → Ts ≠ [] → Ts.length ≤ 16 →
      ∃ R, fastIntersect lg Ts runs parallel (env i) = .ok R ∧ P sets R) :
    ∃ n f rest, countSets mn mx ((lists.flatMap listBytes).length + 1) (lists.flatMap listBytes) 0 = .ok n ∧
      buildFast B K pad junk mn mx rank runs levelwise (2 ^ lg) (collectionBytes one u lists) = .ok (some f) ∧
      n < 2 ^ 32 ∧ f = fastFileHeader rank runs levelwise (2 ^ lg) ++ (leBytes 4 n ++ rest) ∧
      ∀ queries : List (List Nat), queries ≠ [] → (∀ q ∈ queries, q ≠ []) →
        (∀ q ∈ queries, ∀ i ∈ q, i < (kept mn mx lists).length ∧ i < n) →
      ∃ as, queryFast B K pad junk' parallel env queries f = .ok as ∧
      List.Forall₂ (fun q a => (q.length ≤ 16 → ∃ R, a = some R ∧ P (q.map fun i => (kept mn mx lists).getD i []) R) ∧
        (16 < q.length → a = none)) queries as := by
  obtain ⟨n, part, obj, hn, hc, hb, hp⟩ := buildFast_long B K (rank := rank) hlg pad junk hj runs levelwise hone hu hu' hl hs hv
  refine ⟨n, _, _, hc, hb, hn, rfl, fun queries hq hq0 hq1 => ?_⟩
  obtain ⟨hs1, hs2⟩ := setIndexes_spec queries
  have hsne : setIndexes queries ≠ [] := by
    obtain ⟨q, hqm⟩ := List.exists_mem_of_ne_nil _ hq
    obtain ⟨x, hx⟩ := List.exists_mem_of_ne_nil _ (hq0 q hqm)
    exact List.ne_nil_of_mem ((hs2 x).2 ⟨q, hqm, hx⟩)
  have hm : min n (kept mn mx lists).length ≤ (kept mn mx lists).length := Nat.min_le_right ..
  have hload := loadLoop_front (load := fun i s => fastLoad B (K (if rank = 0 then 0 else 2)) lg (fastDefault (junk' i)) s)
    (part := part) (obj := obj) (min n (kept mn mx lists).length) 0 (setIndexes queries)
    (fun j _ hj2 rest => (hp j (by omega)).1 _ rfl rest) hsne hs1
    (fun j hj => ⟨Nat.zero_le _, by
      obtain ⟨q, h1, h2⟩ := (hs2 j).1 hj
      have := hq1 q h1 j h2
      rw [Nat.zero_add]
      exact Nat.lt_min.2 ⟨this.2, this.1⟩⟩) n (Nat.min_le_left ..)
    ((List.range' (min n (kept mn mx lists).length) ((kept mn mx lists).length - min n (kept mn mx lists).length)).flatMap part)
  have er := List.range'_append_1 (s := 0) (m := min n (kept mn mx lists).length)
    (n := (kept mn mx lists).length - min n (kept mn mx lists).length)
  rw [Nat.zero_add, Nat.add_sub_cancel' hm] at er
  rw [← List.flatMap_append, er] at hload
  have hlook : ∀ q ∈ queries, q.length ≤ 16 → ∀ x ∈ q, ((setIndexes queries).map
      fun j => (j, obj j)).lookup x = some (obj x) := by
    intro q hqm hle x hx
    exact lookup_map obj x _ ((hs2 x).2 ⟨q, hqm, hx⟩)
  obtain ⟨as, ha, hf⟩ := answerAll_ok (m := (setIndexes queries).map fun j => (j, obj j))
    (f := obj) (inter := fun i ts => fastIntersect lg (ts.map fun t => t.nav pad) runs parallel (env i))
    (P := fun q R => P (q.map fun i => (kept mn mx lists).getD i []) R) queries 0 hlook (fun q hqm hle j => by
      rw [List.map_map]
      refine hI _ _ j (forall2_map q fun x hx => (hp x (hq1 q hqm x hx).1).2) (fun S hS => ?_) ?_ ?_
      · obtain ⟨x, hx, rfl⟩ := List.mem_map.1 hS
        have := (hq1 q hqm x hx).1
        rw [List.getD_eq_getElem?_getD, List.getElem?_eq_getElem this]
        exact List.getElem_mem this
      · simpa using hq0 q hqm
      · simpa using hle)
  refine ⟨as, ?_, hf⟩
  rw [queryFast, readFastFileHeader_ok hr hr1 (wordLg_pow hlg).2.2, R_bind_ok]
  simp only [(wordLg_pow hlg).2.1, loadTriesFast]
  rw [readLE_leBytes 4 _ _ (by omega), R_bind_ok]
  simp only
  rw [readLE_leBytes 4 one _ (by omega), R_bind_ok]
  simp only
  rw [readLE_leBytes 4 u _ (by omega), R_bind_ok]
  simp only
  rw [hload, R_bind_ok]
  exact ha

/-! ## Only the last list is long -/

theorem countSets_mono {mn mx : Nat} : (fuel : Nat) → (s : Bytes) → (c n : Nat) → 4 * c + s.length < 4 * 2 ^ 32 →
    countSets mn mx fuel s c = .ok n → c ≤ n
  | 0, _, _, _, _, h => by simp [countSets] at h
  | fuel + 1, s, c, n, hb, h => by
    rw [countSets] at h
    cases e : readLE 4 s with
    | error _ => rw [e] at h; simp only at h; injection h with h; omega
    | ok p =>
      obtain ⟨k, r⟩ := p
      rw [e] at h
      simp only at h
      have hl := readLE_shorter 4 s k r e
      have hd : (skipList r k).length ≤ r.length := by rw [skipList, List.length_drop]; omega
      by_cases ha : accepts mn mx k = true
      · rw [if_pos ha, Nat.mod_eq_of_lt (by omega)] at h
        have := countSets_mono fuel _ _ n (by omega) h
        omega
      · rw [if_neg ha] at h
        exact countSets_mono fuel _ _ n (by omega) h

theorem countSets_last {mn mx : Nat} {l : List Nat} : (front : List (List Nat)) → (fuel c n : Nat) → (∀ a ∈ front, a.length < 2 ^ 30) →
    c + front.length + l.length + 1 < 2 ^ 32 → countSets mn mx fuel (front.flatMap listBytes ++ listBytes l) c = .ok n →
    c + (kept mn mx (front ++ [l])).length ≤ n
  | _, 0, _, _, _, _, h => by simp [countSets] at h
  | [], fuel + 1, c, n, _, hb, h => by
    rw [List.flatMap_nil, List.nil_append, ← List.append_nil (listBytes l), countSets, readLE_longList (by omega)] at h
    simp only [List.append_nil] at h
    have e : (l.flatMap (leBytes 4)).length = 4 * l.length := by
      rw [List.length_flatMap, List.map_congr_left (fun x _ => length_leBytes 4 x)]
      simp [Nat.mul_comm]
    have hd : (skipList (l.flatMap (leBytes 4)) l.length).length ≤ 4 * l.length := by rw [skipList, List.length_drop]; omega
    simp only [List.length_nil] at hb
    rw [accepts_eq] at h
    rw [List.nil_append]
    by_cases ha : (decide (mn < l.length) && decide (l.length ≤ mx)) = true
    · rw [if_pos ha, Nat.mod_eq_of_lt (by omega)] at h
      have := countSets_mono fuel _ _ n (by omega) h
      rw [kept_pos ha]
      exact this
    · rw [if_neg ha] at h
      have := countSets_mono fuel _ _ n (by omega) h
      rw [kept_neg ha]
      exact this
  | a :: front, fuel + 1, c, n, hl, hb, h => by
    have h0 : a.length < 2 ^ 30 := hl a (by simp)
    rw [List.flatMap_cons, List.append_assoc, countSets, readLE_listBytes h0] at h
    simp only at h
    rw [skipList_list h0, accepts_eq] at h
    simp only [List.length_cons] at hb
    rw [List.cons_append]
    by_cases ha : (decide (mn < a.length) && decide (a.length ≤ mx)) = true
    · rw [if_pos ha, Nat.mod_eq_of_lt (by omega)] at h
      have := countSets_last front fuel (c + 1) n (fun l h => hl l (List.mem_cons_of_mem _ h)) (by omega) h
      rw [kept_pos ha, List.length_cons]
      omega
    · rw [if_neg ha] at h
      have := countSets_last front fuel c n (fun l h => hl l (List.mem_cons_of_mem _ h)) (by omega) h
      rw [kept_neg ha]
      exact this

end CBT
