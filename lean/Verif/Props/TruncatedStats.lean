import Verif.Props.Truncated
import Verif.Props.Stats

/-!
# C83: collections cut short, in the statistics tools
-/

namespace CBT

open Spec

/-! ## measures -/

theorem measuresLoop_cut {pad m u : Nat} : (lists : List (List Nat)) → (k fuel fuel' last : Nat) → (t : Totals) →
    (∀ l ∈ lists, l.length < 2 ^ 30) → (∀ l ∈ longer m lists, ∀ x ∈ l, x < 2 ^ 32) →
    ((lists.flatMap listBytes).take k).length < fuel → ((completeIn k lists).flatMap listBytes).length < fuel' →
    ((∀ l, cutIn k lists = some l → ¬ m < l.length) →
      measuresLoop pad m u fuel ((lists.flatMap listBytes).take k) last t =
        measuresLoop pad m u fuel' ((completeIn k lists).flatMap listBytes) last t) ∧
    (∀ l, cutIn k lists = some l → m < l.length →
      measuresLoop pad m u fuel ((lists.flatMap listBytes).take k) last t =
        (measuresLoop pad m u fuel' ((completeIn k lists).flatMap listBytes) last t >>= fun _ => .error .eof))
  | [], k, fuel + 1, fuel' + 1, last, t, _, _, _, _ => ⟨fun _ => by rw [List.flatMap_nil, List.take_nil]; rfl, fun l h => by cases h⟩
  | l :: ls, k, fuel + 1, fuel' + 1, last, t, hl, hx, hf, hf' => by
    have h0 : l.length < 2 ^ 30 := hl l (by simp)
    have hl' : ∀ x ∈ ls, x.length < 2 ^ 30 := fun l h => hl l (List.mem_cons_of_mem _ h)
    by_cases hk : 4 + 4 * l.length ≤ k
    · have hf1 : ((ls.flatMap listBytes).take (k - (4 + 4 * l.length))).length < fuel := by
        rw [take_lists hk, List.length_append, length_listBytes] at hf; omega
      have hf2 : ((completeIn (k - (4 + 4 * l.length)) ls).flatMap listBytes).length < fuel' := by
        rw [completeIn, if_pos hk, List.flatMap_cons, List.length_append, length_listBytes] at hf'; omega
      rw [take_lists hk, completeIn, if_pos hk, cutIn, if_pos hk, List.flatMap_cons, measuresLoop, measuresLoop, readLE_listBytes h0,
        readLE_listBytes h0]
      simp only
      by_cases ha : m < l.length
      · rw [longer_pos ha] at hx
        have hr : ∀ rest, readInvList l.length (l.flatMap (leBytes 4) ++ rest) = .ok (l, rest) := fun rest => by
          rw [readInvList, readMany_flatMap (f := id) l _ fun x hxl rest => readLE_leBytes 4 x rest (by
            have := hx l (by simp) x hxl; omega)]
          simp
        rw [if_pos ha, if_pos ha, hr, hr, R_bind_ok, R_bind_ok]
        simp only
        cases measureList pad u last l t with
        | error e => exact ⟨fun _ => rfl, fun _ _ _ => rfl⟩
        | ok p =>
          rw [R_bind_ok, R_bind_ok]
          exact measuresLoop_cut ls _ fuel fuel' p.2 p.1 hl' (fun l h => hx l (List.mem_cons_of_mem _ h)) hf1 hf2
      · rw [longer_neg ha] at hx
        rw [if_neg ha, if_neg ha, skipList_list h0, skipList_list h0]
        exact measuresLoop_cut ls _ fuel fuel' last t hl' hx hf1 hf2
    · rw [completeIn, if_neg hk, cutIn, if_neg hk]
      have hn : measuresLoop pad m u (fuel' + 1) (([] : List (List Nat)).flatMap listBytes) last t = .ok t := rfl
      rw [hn]
      by_cases h4 : 4 ≤ k
      · rw [take_cut h4 hk, List.length_append, length_leBytes] at hf
        rw [take_cut h4 hk, measuresLoop, readLE_leBytes 4 _ _ (by omega), if_pos h4]
        simp only
        refine ⟨fun h => ?_, fun c hc hc1 => ?_⟩
        · have hd : skipList ((l.flatMap (leBytes 4)).take (k - 4)) l.length = [] := by
            rw [skipList, Nat.mod_eq_of_lt (by omega)]
            refine List.drop_eq_nil_of_le ?_
            rw [List.length_take, length_elements]; omega
          rw [if_neg (h l rfl), hd]
          obtain ⟨f, rfl⟩ : ∃ f, fuel = f + 1 := ⟨fuel - 1, by omega⟩
          rfl
        · cases hc
          rw [if_pos hc1, readInvList, readMany_few l.length _ (by rw [List.length_take]; omega)]
          rfl
      · rw [measuresLoop, readLE_few 4 _ (by rw [List.length_take]; omega), if_neg h4]
        exact ⟨fun _ => rfl, fun c hc => by cases hc⟩

theorem take_collection {one u : Nat} {lists : List (List Nat)} {k : Nat} (h : 8 ≤ k) :
    (collectionBytes one u lists).take k = leBytes 4 one ++ (leBytes 4 u ++ (lists.flatMap listBytes).take (k - 8)) := by
  rw [collectionBytes, List.take_append, List.take_append, length_leBytes, length_leBytes,
    List.take_of_length_le (by rw [length_leBytes]; omega), List.take_of_length_le (by rw [length_leBytes]; omega),
    show k - 4 - 4 = k - 8 by omega]

/-- C83, `measures`, on the first `k` bytes of a collection. -/
theorem C83_measures {one u m : Nat} {lists : List (List Nat)} (h1 : one < 2 ^ 32) (hu : u < 2 ^ 32)
    (hl : ∀ l ∈ lists, l.length < 2 ^ 30) (hx : ∀ l ∈ longer m lists, ∀ x ∈ l, x < 2 ^ 32) (pad k : Nat) :
    (k < 8 → measures pad m ((collectionBytes one u lists).take k) = .error .eof) ∧
    (8 ≤ k → (∀ l, cutIn (k - 8) lists = some l → ¬ m < l.length) →
      measures pad m ((collectionBytes one u lists).take k) = measures pad m (collectionBytes one u (completeIn (k - 8) lists))) ∧
    (8 ≤ k → ∀ l, cutIn (k - 8) lists = some l → m < l.length →
      (∀ t, measures pad m ((collectionBytes one u lists).take k) ≠ .ok t) ∧
      (∀ t, measures pad m (collectionBytes one u (completeIn (k - 8) lists)) = .ok t →
        measures pad m ((collectionBytes one u lists).take k) = .error .eof)) := by
  have hall : ∀ rest : Bytes, measures pad m (leBytes 4 one ++ (leBytes 4 u ++ rest)) =
      measuresLoop pad m u (rest.length + 1) rest 0 ⟨0, 0, 0, 0, 0, 0⟩ := fun rest => by
    rw [measures, readLE_leBytes 4 _ _ (by omega), R_bind_ok]
    simp only
    rw [readLE_leBytes 4 _ _ (by omega), R_bind_ok]
  have hcut := measuresLoop_cut (pad := pad) (m := m) (u := u) lists (k - 8) _ _ 0 ⟨0, 0, 0, 0, 0, 0⟩ hl hx (Nat.lt_succ_self _) (Nat.lt_succ_self _)
  refine ⟨fun h => ?_, fun h hc => ?_, fun h l hc hc1 => ?_⟩
  · rw [measures]
    by_cases h4 : k < 4
    · rw [readLE_few 4 _ (by rw [List.length_take]; omega)]; rfl
    · rw [collectionBytes, List.take_append, length_leBytes, List.take_of_length_le (by rw [length_leBytes]; omega),
        readLE_leBytes 4 _ _ (by omega), R_bind_ok]
      simp only
      rw [readLE_few 4 _ (by rw [List.length_take]; omega)]
      rfl
  · rw [take_collection h, hall, collectionBytes, hall]
    exact hcut.1 hc
  · rw [take_collection h, hall, collectionBytes, hall, hcut.2 l hc hc1]
    cases measuresLoop pad m u (((completeIn (k - 8) lists).flatMap listBytes).length + 1) ((completeIn (k - 8) lists).flatMap listBytes)
        0 ⟨0, 0, 0, 0, 0, 0⟩ with
    | error e => exact ⟨(fun f h => by cases h), (fun f h => by cases h)⟩
    | ok b => exact ⟨(fun f h => by cases h), (fun f _ => rfl)⟩

/-- Cut in a list that is kept, and in one that is not. -/
example : measures 0 1 ((collectionBytes 1 8 [[0, 1, 2, 3, 7], [4], [2, 5]]).take 48) = .error .eof ∧
    cutIn 40 [[0, 1, 2, 3, 7], [4], [2, 5]] = some [2, 5] ∧
    measures 0 1 ((collectionBytes 1 8 [[0, 1, 2, 3, 7], [4], [2, 5]]).take 38) = measures 0 1 (collectionBytes 1 8 [[0, 1, 2, 3, 7]]) ∧
    cutIn 30 [[0, 1, 2, 3, 7], [4], [2, 5]] = some [4] := by decide +kernel

/-! ## classic_coders, cbv_coding, pom -/

theorem read4_torn {r v y : Nat} (hr : r < 4) (hv : v < 2 ^ 32) :
    (InStream.mk ((leBytes 4 y).take r) false false).read4 (some v) = (some (torn r v y), ⟨[], true, true⟩) := by
  have hf : readLE 4 ((leBytes 4 y).take r) = .error .eof := readLE_few 4 _ (by rw [List.length_take, length_leBytes]; omega)
  have e : InStream.read4 ⟨(leBytes 4 y).take r, false, false⟩ (some v) =
      (some (((leBytes 4 y).take r ++ (leBytes 4 v).drop ((leBytes 4 y).take r).length).foldr (fun b n => b.toNat + 256 * n) 0), ⟨[], true, true⟩) := by
    simp [InStream.read4, hf]
  rw [e]
  congr 2
  have : r = 0 ∨ r = 1 ∨ r = 2 ∨ r = 3 := by omega
  rcases this with rfl | rfl | rfl | rfl <;>
    simp [leBytes, List.foldr, UInt8.toNat_ofNat', torn] <;> omega

/-- Reading a list that is cut after `j` bytes; `x` is the variable that the elements are read into. -/
theorem readVals_torn : (l : List Nat) → (∀ x ∈ l, x < 2 ^ 32) → (j : Nat) → j < 4 * l.length → (x : Option Nat) → (∀ v ∈ x, v < 2 ^ 32) →
    4 ≤ j ∨ x ≠ none →
    ∃ w, readVals l.length ⟨(l.flatMap (leBytes 4)).take j, false, false⟩ x = .ok (tornList j (x.getD 0) l, some w, ⟨[], true, true⟩)
  | [], _, j, hj, _, _, _ => by simp at hj
  | y :: l, h, j, hj, x, hv, hjx => by
    have hy := h y (by simp)
    rw [List.length_cons, readVals, List.flatMap_cons, List.take_append, length_leBytes]
    by_cases h4 : 4 ≤ j
    · obtain ⟨w, hw⟩ := readVals_torn l (fun z hz => h z (List.mem_cons_of_mem _ hz)) (j - 4) (by rw [List.length_cons] at hj; omega)
        (some y) (by rintro v ⟨⟩; exact hy) (Or.inr (by simp))
      rw [List.take_of_length_le (by rw [length_leBytes]; exact h4), read4_ok (readLE_leBytes 4 y _ (by omega))]
      dsimp only
      rw [hw, R_bind_ok]
      refine ⟨w, ?_⟩
      obtain ⟨i, rfl⟩ : ∃ i, j = i + 4 := ⟨j - 4, by omega⟩
      rw [Nat.add_sub_cancel]
      simp only [tornList, tornValue, Nat.add_div_right i (show 0 < 4 by omega), Nat.add_mod_right, List.take_succ_cons, List.length_cons,
        Nat.add_sub_add_right, List.getD_cons_succ, List.cons_append, List.getLastD_cons, Option.getD_some]
    · obtain ⟨v, rfl⟩ : ∃ v, x = some v := Option.ne_none_iff_exists'.1 (hjx.resolve_left h4)
      rw [show j - 4 = 0 by omega, List.take_zero, List.append_nil, read4_torn (by omega) (hv v rfl)]
      dsimp only
      rw [readVals_fail, R_bind_ok]
      refine ⟨torn j v y, ?_⟩
      rw [tornList, tornValue, Nat.div_eq_of_lt (by omega), Nat.mod_eq_of_lt (by omega)]
      simp [List.replicate_succ]

/-- The loop on complete lists and one that is cut. -/
theorem statsLoop_torn {A : Type} {m : Nat} {step : A → List Nat → R A} {stop : Bool} {ls : List (List Nat)} {l : List Nat} {j : Nat}
    (hl : ∀ k ∈ ls ++ [l], k.length < 2 ^ 30) (hx : ∀ k ∈ longer m ls, ∀ x ∈ k, x < 2 ^ 32) (hx' : ∀ x ∈ l, x < 2 ^ 32)
    (hs : stop = true → ∀ k ∈ ls, m < k.length) (hm : m < l.length) (hj : j < 4 * l.length)
    (hv : 4 ≤ j ∨ longer m ls ≠ []) (fuel : Nat) (a : A) :
    statsLoop stop m step (fuel + 2 + ls.length) ⟨ls.flatMap listBytes ++ (leBytes 4 l.length ++ (l.flatMap (leBytes 4)).take j), false, false⟩
      none none a = (longer m ls ++ [tornList j ((longer m ls).flatten.getLastD 0) l]).foldlM step a := by
  have h0 : l.length < 2 ^ 30 := hl l (by simp)
  rw [statsLoop_lists ls (fuel + 2) none none a (fun k h => hl k (by simp [h])) hx hs, List.foldlM_append]
  congr 1
  funext a'
  have hlv : lastVal none (longer m ls) = (longer m ls).flatten.getLast? := by rw [lastVal, Option.or_none]
  have hne : longer m ls ≠ [] → lastVal none (longer m ls) ≠ none := by
    intro h
    rw [hlv, ne_eq, List.getLast?_eq_none_iff, List.flatten_eq_nil_iff]
    intro hall
    cases hk : longer m ls with
    | nil => exact h hk
    | cons k ks =>
      have : k ∈ longer m ls := by rw [hk]; simp
      have h1 := of_decide_eq_true (List.mem_filter.1 this).2
      rw [hall k this] at h1
      simp at h1
  obtain ⟨w, hw⟩ := readVals_torn l hx' j hj (lastVal none (longer m ls)) (by
      intro v hv
      rw [hlv] at hv
      obtain ⟨k, hk, hvk⟩ := List.mem_flatten.1 (List.mem_of_getLast? hv)
      exact hx k hk v hvk) (hv.imp_right hne)
  have hd : (lastVal none (longer m ls)).getD 0 = (longer m ls).flatten.getLastD 0 := by rw [hlv, List.getLastD_eq_getLast?]
  rw [hd] at hw
  rw [statsLoop, if_neg (by simp), read4_ok (readLE_leBytes 4 _ _ (by omega))]
  dsimp only
  rw [if_pos hm, hw, R_bind_ok]
  dsimp only
  rw [List.foldlM_cons]
  cases step a' (tornList j ((longer m ls).flatten.getLastD 0) l) with
  | error e => rfl
  | ok b => rw [R_bind_ok, R_bind_ok, statsLoop, if_pos rfl]; rfl

theorem take_done {ls rest : List (List Nat)} {l : List Nat} {j : Nat} (hj : j ≤ 4 * l.length) :
    ((ls ++ l :: rest).flatMap listBytes).take ((ls.flatMap listBytes).length + 4 + j) =
      ls.flatMap listBytes ++ (leBytes 4 l.length ++ (l.flatMap (leBytes 4)).take j) := by
  rw [List.flatMap_append, List.flatMap_cons, listBytes, List.take_append, List.take_of_length_le (by omega), List.take_append,
    List.take_append, length_leBytes, List.length_append, length_leBytes, length_elements,
    List.take_of_length_le (l := leBytes 4 l.length) (by rw [length_leBytes]; omega),
    show (ls.flatMap listBytes).length + 4 + j - (ls.flatMap listBytes).length - 4 = j by omega,
    show (ls.flatMap listBytes).length + 4 + j - (ls.flatMap listBytes).length - (4 + 4 * l.length) = 0 by omega, List.take_zero,
    List.append_nil]

theorem coders_take' (stop : Bool) (m : Nat) (coder : List Nat → Nat) (fuel : Nat) {one u : Nat} (h1 : one < 2 ^ 32) (hu : u < 2 ^ 32)
    (lists : List (List Nat)) (k : Nat) :
    coders stop m coder fuel ((collectionBytes one u lists).take (8 + k)) =
      statsLoop stop m (coderStep stop coder) fuel ⟨(lists.flatMap listBytes).take k, false, false⟩ none none ⟨0, 0, 0⟩ := by
  rw [coders, codersOn, take_collection (by omega), read4_ok (readLE_leBytes 4 _ _ (by omega))]
  dsimp only
  rw [read4_ok (readLE_leBytes 4 _ _ (by omega)), Nat.add_sub_cancel_left]
  cases stop <;> rfl

theorem coders_take (stop : Bool) (m : Nat) (coder : List Nat → Nat) (fuel : Nat) {one u : Nat} (h1 : one < 2 ^ 32) (hu : u < 2 ^ 32)
    {ls rest : List (List Nat)} {l : List Nat} {j : Nat} (hj : j ≤ 4 * l.length) :
    coders stop m coder fuel ((collectionBytes one u (ls ++ l :: rest)).take (8 + ((ls.flatMap listBytes).length + 4 + j))) =
      statsLoop stop m (coderStep stop coder) fuel
        ⟨ls.flatMap listBytes ++ (leBytes 4 l.length ++ (l.flatMap (leBytes 4)).take j), false, false⟩ none none ⟨0, 0, 0⟩ := by
  rw [coders_take' _ _ _ _ h1 hu, take_done hj]

theorem tornList_last {j before : Nat} {l : List Nat} (hj : j < 4 * l.length) : (tornList j before l).getLastD 0 = tornValue j before l := by
  rw [tornList, List.getLastD_eq_getLast?, List.getLast?_append, List.getLast?_replicate, if_neg (by omega)]
  rfl

/-- C83 is false of `classic_coders` and, with `stop`, of `cbv_coding`: if the collection ends after `j` bytes of the elements of a kept list,
they print, and do not complain, totals into which goes a list that is not in the collection: the elements that are complete, and then
copies of a number with bytes of two elements. For `cbv_coding` this number must not be below the complete elements, see
`C83_cbv_outside`. Left out is otherwise only the case of `C83_coders_first`. -/
theorem C83_coders_negation {one u m : Nat} {ls rest : List (List Nat)} {l : List Nat} (h1 : one < 2 ^ 32) (hu : u < 2 ^ 32)
    (hl : ∀ k ∈ ls ++ [l], k.length < 2 ^ 30) (hx : ∀ k ∈ longer m ls, ∀ x ∈ k, x < 2 ^ 32) (hx' : ∀ x ∈ l, x < 2 ^ 32)
    {stop : Bool} (hs : stop = true → ∀ k ∈ ls, m < k.length ∧ k.Pairwise (· < ·)) (hm : m < l.length) {j : Nat} (hj : j < 4 * l.length)
    (hv : 4 ≤ j ∨ longer m ls ≠ [])
    (hs' : stop = true → ∀ x ∈ l.take (j / 4), x ≤ tornValue j ((longer m ls).flatten.getLastD 0) l)
    (coder : List Nat → Nat) (fuel : Nat) (hf : ls.length + 2 ≤ fuel) :
    coders stop m coder fuel ((collectionBytes one u (ls ++ l :: rest)).take (8 + ((ls.flatMap listBytes).length + 4 + j))) =
      .ok (countsOf coder (longer m ls ++ [tornList j ((longer m ls).flatten.getLastD 0) l])) := by
  have e3 := coderStep_fold (stop := stop) (coder := coder) (longer m ls ++ [tornList j ((longer m ls).flatten.getLastD 0) l]) (by
    intro k hk h
    rcases List.mem_append.1 hk with hk | hk
    · exact le_last k (hs h k (List.mem_filter.1 hk).1).2
    · rw [List.mem_singleton.1 hk]
      intro x hxk
      rw [tornList_last hj]
      rcases List.mem_append.1 hxk with hxk | hxk
      · exact hs' h x hxk
      · rw [List.eq_of_mem_replicate hxk]) 0 0 0
  simp only [Nat.zero_add, Nat.zero_mod] at e3
  have e := statsLoop_torn (step := coderStep stop coder) hl hx hx' (fun h k hk => (hs h k hk).1) hm hj hv (fuel - (ls.length + 2)) ⟨0, 0, 0⟩
  rw [show fuel - (ls.length + 2) + 2 + ls.length = fuel by omega] at e
  rw [coders_take _ _ _ _ h1 hu (by omega), e, e3]
  rfl

/-- The second list has lost its last element and three bytes of the one before: of 300 there remains 44. -/
example : tornList 5 9 [7, 300, 301] = [7, 44, 44] ∧ torn 1 7 300 = 44 ∧ longer 1 [[1, 9]] ≠ [] ∧
    (∀ x ∈ [7, 300, 301].take (5 / 4), x ≤ tornValue 5 9 [7, 300, 301]) ∧
    coders false 1 List.sum 5 ((collectionBytes 1 512 ([[1, 9]] ++ [7, 300, 301] :: [[2, 3]])).take (8 + (([[1, 9]].flatMap listBytes).length + 4 + 5))) =
      .ok ⟨2 + 3, 2, 10 + 95⟩ := by decide +kernel

/-- C83 is false of `cbv_coding`: if the number it makes up is below an element of the same list, it sets a bit outside a bit vector. -/
theorem C83_cbv_outside {one u m : Nat} {ls rest : List (List Nat)} {l : List Nat} (h1 : one < 2 ^ 32) (hu : u < 2 ^ 32)
    (hl : ∀ k ∈ ls ++ [l], k.length < 2 ^ 30) (hx : ∀ k ∈ longer m ls, ∀ x ∈ k, x < 2 ^ 32) (hx' : ∀ x ∈ l, x < 2 ^ 32)
    (hs : ∀ k ∈ ls, m < k.length ∧ k.Pairwise (· < ·)) (hm : m < l.length) {j : Nat} (hj : j < 4 * l.length)
    {y : Nat} (hy : y ∈ l.take (j / 4)) (hlt : tornValue j ((longer m ls).flatten.getLastD 0) l < y)
    (coder : List Nat → Nat) (fuel : Nat) (hf : ls.length + 2 ≤ fuel) :
    coders true m coder fuel ((collectionBytes one u (ls ++ l :: rest)).take (8 + ((ls.flatMap listBytes).length + 4 + j))) =
      .error .oob := by
  have h4 : 4 ≤ j := by
    by_contra h
    rw [Nat.div_eq_of_lt (by omega), List.take_zero] at hy
    cases hy
  have e3 := coderStep_fold (stop := true) (coder := coder) (longer m ls)
    (fun k hk _ => le_last k (hs k (List.mem_filter.1 hk).1).2) 0 0 0
  simp only [Nat.zero_add, Nat.zero_mod] at e3
  have e := statsLoop_torn (step := coderStep true coder) (stop := true) hl hx hx' (fun _ k hk => (hs k hk).1) hm hj (Or.inl h4) (fuel - (ls.length + 2)) ⟨0, 0, 0⟩
  rw [show fuel - (ls.length + 2) + 2 + ls.length = fuel by omega] at e
  rw [coders_take _ _ _ _ h1 hu (by omega), e, List.foldlM_append, e3, R_bind_ok, List.foldlM_cons,
    coderStep_oob (l := tornList j ((longer m ls).flatten.getLastD 0) l) (x := y) (List.mem_append_left _ hy)
      (by rw [tornList_last hj]; exact hlt)]
  rfl

/-- Of 513 one byte can be read, which is put over that of 300. -/
example : tornValue 5 0 [300, 513, 514] = 257 ∧
    coders true 1 List.sum 5 ((collectionBytes 1 600 ([[1, 9]] ++ [300, 513, 514] :: [[2, 3]])).take (8 + (([[1, 9]].flatMap listBytes).length + 4 + 5))) =
      .error .oob := by decide +kernel

/-- The loop, if it ends before the end of the first element that is to be kept. -/
theorem statsLoop_first {A : Type} {m : Nat} {step : A → List Nat → R A} {stop : Bool} {ls : List (List Nat)} {l : List Nat} {j : Nat}
    (hl : ∀ k ∈ ls ++ [l], k.length < 2 ^ 30) (hs : stop = true → ls = []) (hm : m < l.length) (hj : j < 4)
    (hv : longer m ls = []) (fuel : Nat) (a : A) :
    statsLoop stop m step (fuel + 1 + ls.length)
      ⟨ls.flatMap listBytes ++ (leBytes 4 l.length ++ (l.flatMap (leBytes 4)).take j), false, false⟩ none none a = .error .uninit := by
  have h0 : l.length < 2 ^ 30 := hl l (by simp)
  rw [statsLoop_lists ls (fuel + 1) none none a (fun k h => hl k (by simp [h])) (by rw [hv]; simp)
    (fun h k hk => by rw [hs h] at hk; cases hk), hv, List.foldlM_nil]
  rw [show (pure a : R A) = .ok a from rfl, R_bind_ok, statsLoop, if_neg (by simp), read4_ok (readLE_leBytes 4 _ _ (by omega))]
  dsimp only
  rw [if_pos hm]
  obtain ⟨n, hn⟩ : ∃ n, l.length = n + 1 := ⟨l.length - 1, by omega⟩
  have hfew : readLE 4 ((l.flatMap (leBytes 4)).take j) = .error .eof := readLE_few 4 _ (by rw [List.length_take]; omega)
  rw [hn, readVals]
  simp only [InStream.read4, hfew, Bool.or_self, Bool.false_eq_true, if_false, Option.map_none, lastVal, List.flatten_nil, List.getLast?_nil,
    Option.or_none]
  rfl

/-- C83, `classic_coders` and `cbv_coding`: if the collection ends before the end of the first element that is to be kept, a variable is used
that has no value. -/
theorem C83_coders_first {one u m : Nat} {ls rest : List (List Nat)} {l : List Nat} (h1 : one < 2 ^ 32) (hu : u < 2 ^ 32)
    (hl : ∀ k ∈ ls ++ [l], k.length < 2 ^ 30) {stop : Bool} (hs : stop = true → ls = []) (hm : m < l.length) {j : Nat} (hj : j < 4)
    (hv : longer m ls = []) (coder : List Nat → Nat) (fuel : Nat) (hf : ls.length + 1 ≤ fuel) :
    coders stop m coder fuel ((collectionBytes one u (ls ++ l :: rest)).take (8 + ((ls.flatMap listBytes).length + 4 + j))) =
      .error .uninit := by
  have e := statsLoop_first (step := coderStep stop coder) hl hs hm hj hv (fuel - (ls.length + 1)) ⟨0, 0, 0⟩
  rw [show fuel - (ls.length + 1) + 1 + ls.length = fuel by omega] at e
  rw [coders_take _ _ _ _ h1 hu (by omega), e]

example : coders false 1 List.sum 5 ((collectionBytes 1 512 ([[9]] ++ [7, 300, 301] :: [[2, 3]])).take (8 + (([[9]].flatMap listBytes).length + 4 + 3))) =
    .error .uninit ∧ longer 1 [[9]] = [] := by decide +kernel

/-- The loop, if it ends among the elements of a list that is too short. -/
theorem statsLoop_skipped {A : Type} {m : Nat} {step : A → List Nat → R A} {ls : List (List Nat)} {l : List Nat} {j : Nat}
    (hl : ∀ k ∈ ls ++ [l], k.length < 2 ^ 30) (hx : ∀ k ∈ longer m ls, ∀ x ∈ k, x < 2 ^ 32) (hm : l.length ≤ m)
    (hj : j < 4 * l.length) (fuel : Nat) (a c : A) :
    statsLoop false m step fuel
      ⟨ls.flatMap listBytes ++ (leBytes 4 l.length ++ (l.flatMap (leBytes 4)).take j), false, false⟩ none none a ≠ .ok c := by
  have h0 : l.length < 2 ^ 30 := hl l (by simp)
  intro h
  have h2 := statsLoop_mono _ _ _ _ _ h (1 + ls.length)
  rw [← Nat.add_assoc, statsLoop_lists ls (fuel + 1) none none _ (fun k h => hl k (by simp [h])) hx (by simp)] at h2
  obtain ⟨a', -, h2⟩ := bind_ok h2
  rw [statsLoop, if_neg (by simp), read4_ok (readLE_leBytes 4 _ _ (by omega))] at h2
  dsimp only at h2
  have hd : skipList ((l.flatMap (leBytes 4)).take j) l.length = [] := by
    rw [skipList, Nat.mod_eq_of_lt (by omega)]
    refine List.drop_eq_nil_of_le ?_
    rw [List.length_take, length_elements]; omega
  rw [if_neg (by omega), if_neg (by simp), InStream.seek, if_neg (by simp)] at h2
  dsimp only at h2
  rw [hd, statsLoop_end_short _ _ _ _ (by omega) (by omega)] at h2
  cases h2

/-- C83 is false of `classic_coders`: if the collection ends among the elements of a list that is too short to be kept, it does not end. -/
theorem C83_coders_hangs {one u m : Nat} {ls rest : List (List Nat)} {l : List Nat} (h1 : one < 2 ^ 32) (hu : u < 2 ^ 32)
    (hl : ∀ k ∈ ls ++ [l], k.length < 2 ^ 30) (hx : ∀ k ∈ longer m ls, ∀ x ∈ k, x < 2 ^ 32) (hm : l.length ≤ m) {j : Nat}
    (hj : j < 4 * l.length) (coder : List Nat → Nat) (fuel : Nat) (c : Counts) :
    coders false m coder fuel ((collectionBytes one u (ls ++ l :: rest)).take (8 + ((ls.flatMap listBytes).length + 4 + j))) ≠ .ok c := by
  rw [coders_take _ _ _ _ h1 hu (by omega)]
  exact statsLoop_skipped hl hx hm hj _ _ _

example : coders false 1 List.sum 1000 ((collectionBytes 1 512 ([[1, 9]] ++ [7] :: [[2, 3]])).take (8 + (([[1, 9]].flatMap listBytes).length + 4 + 2))) =
    .error .fuel := by decide +kernel

/-! ## A cut at or within the length of a list -/

theorem take_length {ls rest : List (List Nat)} {l : List Nat} {r : Nat} (hr : r < 4) :
    ((ls ++ l :: rest).flatMap listBytes).take ((ls.flatMap listBytes).length + r) = ls.flatMap listBytes ++ (leBytes 4 l.length).take r := by
  rw [List.flatMap_append, List.flatMap_cons, listBytes, List.take_append, List.take_of_length_le (by omega), List.take_append,
    List.take_append, length_leBytes, Nat.add_sub_cancel_left, show r - 4 = 0 by omega, List.take_zero, List.append_nil,
    List.length_append, length_leBytes, length_elements, show r - (4 + 4 * l.length) = 0 by omega, List.take_zero, List.append_nil]

/-- The length that a loop uses if it can read only `r` bytes of that of the next list, `n`, after the `lists`. -/
theorem statsLoop_length {A : Type} {m : Nat} {step : A → List Nat → R A} {stop : Bool} {ls : List (List Nat)} {n r : Nat}
    (hl : ∀ k ∈ ls, k.length < 2 ^ 30) (hx : ∀ k ∈ longer m ls, ∀ x ∈ k, x < 2 ^ 32)
    (hs : stop = true → ∀ k ∈ ls, m < k.length) (hr : r < 4) (a : A) :
    (ls = [] → ∀ fuel, statsLoop stop m step (fuel + 1) ⟨ls.flatMap listBytes ++ (leBytes 4 n).take r, false, false⟩ none none a =
      .error .uninit) ∧
    (ls ≠ [] → m < torn r (ls.getLastD []).length n → longer m ls = [] → ∀ fuel,
      statsLoop stop m step (fuel + 2 + ls.length) ⟨ls.flatMap listBytes ++ (leBytes 4 n).take r, false, false⟩ none none a =
        .error .uninit) ∧
    (ls ≠ [] → m < torn r (ls.getLastD []).length n → longer m ls ≠ [] → ∀ fuel,
      statsLoop stop m step (fuel + 2 + ls.length) ⟨ls.flatMap listBytes ++ (leBytes 4 n).take r, false, false⟩ none none a =
        (longer m ls ++ [List.replicate (torn r (ls.getLastD []).length n) ((longer m ls).flatten.getLastD 0)]).foldlM step a) ∧
    (ls ≠ [] → torn r (ls.getLastD []).length n ≤ m → stop = true → ∀ fuel,
      statsLoop stop m step (fuel + 2 + ls.length) ⟨ls.flatMap listBytes ++ (leBytes 4 n).take r, false, false⟩ none none a =
        (longer m ls).foldlM step a) ∧
    (ls ≠ [] → torn r (ls.getLastD []).length n ≤ m → stop = false → ∀ fuel c,
      statsLoop stop m step fuel ⟨ls.flatMap listBytes ++ (leBytes 4 n).take r, false, false⟩ none none a ≠ .ok c) := by
  have hfew : readLE 4 ((leBytes 4 n).take r) = .error .eof := readLE_few 4 _ (by rw [List.length_take, length_leBytes]; omega)
  have hlen : ls ≠ [] → lastLen none ls = some (ls.getLastD []).length ∧ (ls.getLastD []).length < 2 ^ 32 := by
    intro h
    have e : ls.getLast? = some (ls.getLast h) := List.getLast?_eq_getLast_of_ne_nil h
    have h2 := hl _ (List.getLast_mem h)
    rw [lastLen, List.getLastD_eq_getLast?, e, Option.map_some, Option.getD_some]
    exact ⟨rfl, by omega⟩
  have hlv : lastVal none (longer m ls) = (longer m ls).flatten.getLast? := by rw [lastVal, Option.or_none]
  have step1 : ls ≠ [] → ∀ fuel, statsLoop stop m step (fuel + ls.length) ⟨ls.flatMap listBytes ++ (leBytes 4 n).take r, false, false⟩ none none a =
      ((longer m ls).foldlM step a >>= fun a => statsLoop stop m step fuel ⟨(leBytes 4 n).take r, false, false⟩
        (some (ls.getLastD []).length) (lastVal none (longer m ls)) a) := by
    intro h fuel
    rw [statsLoop_lists ls fuel none none a hl hx hs, (hlen h).1]
  refine ⟨?_, fun h hm h0 fuel => ?_, fun h hm h0 fuel => ?_, fun h hm hst fuel => ?_, fun h hm hst fuel c hc => ?_⟩
  · rintro rfl fuel
    rw [List.flatMap_nil, List.nil_append, statsLoop, if_neg (by simp)]
    simp only [InStream.read4, hfew, Bool.or_self, Bool.false_eq_true, if_false, Option.map_none]
  · rw [step1 h, h0, List.foldlM_nil, show (pure a : R A) = .ok a from rfl, R_bind_ok, statsLoop, if_neg (by simp), read4_torn hr (hlen h).2]
    dsimp only
    rw [if_pos hm]
    obtain ⟨p, hp⟩ : ∃ p, torn r (ls.getLastD []).length n = p + 1 := ⟨_, (Nat.succ_pred_eq_of_pos (by omega)).symm⟩
    rw [hp, readVals]
    simp only [InStream.read4, Bool.or_self, if_true, lastVal, List.flatten_nil, List.getLast?_nil, Option.or_none]
    rfl
  · rw [step1 h, List.foldlM_append]
    congr 1
    funext a'
    have hne : (longer m ls).flatten ≠ [] := by
      intro hall
      obtain ⟨k, ks, hk⟩ := List.exists_cons_of_ne_nil h0
      have hmem : k ∈ longer m ls := by rw [hk]; simp
      have h2 := of_decide_eq_true (List.mem_filter.1 hmem).2
      rw [List.flatten_eq_nil_iff.1 hall k hmem] at h2
      simp at h2
    rw [hlv, List.getLastD_eq_getLast? (l := (longer m ls).flatten), List.getLast?_eq_getLast_of_ne_nil hne, statsLoop, if_neg (by simp),
      read4_torn hr (hlen h).2]
    dsimp only
    rw [if_pos hm, readVals_fail, R_bind_ok, Option.getD_some, List.foldlM_cons]
    cases step a' (List.replicate (torn r (ls.getLastD []).length n) ((longer m ls).flatten.getLast hne)) with
    | error e => rfl
    | ok b => rw [R_bind_ok, R_bind_ok, statsLoop, if_pos rfl]; rfl
  · rw [step1 h]
    cases (longer m ls).foldlM step a with
    | error e => rfl
    | ok a' =>
      rw [R_bind_ok, statsLoop, if_neg (by simp), read4_torn hr (hlen h).2]
      dsimp only
      rw [if_neg (by omega), if_pos hst]
  · subst hst
    have h2 := statsLoop_mono _ _ _ _ _ hc (1 + ls.length)
    rw [← Nat.add_assoc, step1 h] at h2
    obtain ⟨a', -, h2⟩ := bind_ok h2
    rw [statsLoop, if_neg (by simp), read4_torn hr (hlen h).2] at h2
    dsimp only at h2
    rw [if_neg (by omega), if_neg (by simp)] at h2
    rw [show InStream.seek ⟨[], true, true⟩ (torn r (ls.getLastD []).length n) = ⟨[], false, true⟩ from rfl, statsLoop_stuck _ _ _ (by omega)] at h2
    cases h2

/-- C83 is false of `classic_coders` and, with `stop`, of `cbv_coding`: if the collection ends after `r` bytes of the length of a list, between
0 and 3, they use a length with bytes of that and of the length of the list before. If this is long enough, they count a list of this length,
made of copies of the last number that they have read, or use a variable that has no value if they have read none; otherwise
`classic_coders` does not end, and `cbv_coding` counts the complete lists. Before the first list, the length is a variable without a
value. -/
theorem C83_coders_length {one u m : Nat} {ls rest : List (List Nat)} {l : List Nat} (h1 : one < 2 ^ 32) (hu : u < 2 ^ 32)
    (hl : ∀ k ∈ ls, k.length < 2 ^ 30) (hx : ∀ k ∈ longer m ls, ∀ x ∈ k, x < 2 ^ 32)
    {stop : Bool} (hs : stop = true → ∀ k ∈ ls, m < k.length ∧ k.Pairwise (· < ·)) {r : Nat} (hr : r < 4) (coder : List Nat → Nat) :
    (ls = [] → ∀ fuel, 1 ≤ fuel →
      coders stop m coder fuel ((collectionBytes one u (ls ++ l :: rest)).take (8 + ((ls.flatMap listBytes).length + r))) = .error .uninit) ∧
    (ls ≠ [] → m < torn r (ls.getLastD []).length l.length → longer m ls = [] → ∀ fuel, ls.length + 2 ≤ fuel →
      coders stop m coder fuel ((collectionBytes one u (ls ++ l :: rest)).take (8 + ((ls.flatMap listBytes).length + r))) = .error .uninit) ∧
    (ls ≠ [] → m < torn r (ls.getLastD []).length l.length → longer m ls ≠ [] → ∀ fuel, ls.length + 2 ≤ fuel →
      coders stop m coder fuel ((collectionBytes one u (ls ++ l :: rest)).take (8 + ((ls.flatMap listBytes).length + r))) =
        .ok (countsOf coder (longer m ls ++ [List.replicate (torn r (ls.getLastD []).length l.length) ((longer m ls).flatten.getLastD 0)]))) ∧
    (ls ≠ [] → torn r (ls.getLastD []).length l.length ≤ m → stop = true → ∀ fuel, ls.length + 2 ≤ fuel →
      coders stop m coder fuel ((collectionBytes one u (ls ++ l :: rest)).take (8 + ((ls.flatMap listBytes).length + r))) =
        .ok (countsOf coder (longer m ls))) ∧
    (ls ≠ [] → torn r (ls.getLastD []).length l.length ≤ m → stop = false → ∀ fuel c,
      coders stop m coder fuel ((collectionBytes one u (ls ++ l :: rest)).take (8 + ((ls.flatMap listBytes).length + r))) ≠ .ok c) := by
  have hfold := fun k (hk : k ∈ longer m ls) (h : stop = true) => le_last k (hs h k (List.mem_filter.1 hk).1).2
  obtain ⟨p1, p2, p3, p4, p5⟩ := statsLoop_length (step := coderStep stop coder) (n := l.length) hl hx (fun h k hk => (hs h k hk).1) hr ⟨0, 0, 0⟩
  simp only [coders_take' _ _ _ _ h1 hu, take_length hr]
  refine ⟨fun h fuel hf => ?_, fun h hm h0 fuel hf => ?_, fun h hm h0 fuel hf => ?_, fun h hm hst fuel hf => ?_, p5⟩
  · obtain ⟨f, rfl⟩ : ∃ f, fuel = f + 1 := ⟨fuel - 1, by omega⟩
    exact p1 h f
  · have e := p2 h hm h0 (fuel - (ls.length + 2))
    rwa [show fuel - (ls.length + 2) + 2 + ls.length = fuel by omega] at e
  · have e := p3 h hm h0 (fuel - (ls.length + 2))
    rw [show fuel - (ls.length + 2) + 2 + ls.length = fuel by omega] at e
    have e3 := coderStep_fold (stop := stop) (coder := coder)
      (longer m ls ++ [List.replicate (torn r (ls.getLastD []).length l.length) ((longer m ls).flatten.getLastD 0)]) (by
        intro k hk hst
        rcases List.mem_append.1 hk with hk | hk
        · exact hfold k hk hst
        · rw [List.mem_singleton.1 hk]; exact replicate_last _ _) 0 0 0
    simp only [Nat.zero_add, Nat.zero_mod] at e3
    rw [e, e3]
    rfl
  · have e := p4 h hm hst (fuel - (ls.length + 2))
    rw [show fuel - (ls.length + 2) + 2 + ls.length = fuel by omega] at e
    have e3 := coderStep_fold (stop := stop) (coder := coder) (longer m ls) hfold 0 0 0
    simp only [Nat.zero_add, Nat.zero_mod] at e3
    rw [e, e3]
    rfl

/-- Of the length 300 one byte can be read, 44; after `[1, 9]` this is the length of a list of nines. -/
example : torn 1 [1, 9].length (List.replicate 300 0).length = 44 ∧
    coders false 1 List.length 5 ((collectionBytes 1 512 ([[7, 8, 9], [1, 9]] ++ List.replicate 300 0 :: [])).take (8 + (([[7, 8, 9], [1, 9]].flatMap listBytes).length + 1))) =
      .ok ⟨3 + 2 + 44, 3, 3 + 2 + 44⟩ ∧
    coders true 1 List.length 5 ((collectionBytes 1 512 ([[7, 8, 9], [1, 9]] ++ List.replicate 256 0 :: [])).take (8 + (([[7, 8, 9], [1, 9]].flatMap listBytes).length + 1))) =
      .ok ⟨3 + 2, 2, 3 + 2⟩ ∧
    coders false 1 List.length 1000 ((collectionBytes 1 512 ([[7, 8, 9], [1, 9]] ++ List.replicate 256 0 :: [])).take (8 + (([[7, 8, 9], [1, 9]].flatMap listBytes).length + 1))) =
      .error .fuel := by decide +kernel

/-- C83: if the collection ends within its first two numbers, `classic_coders` counts nothing, without a complaint, and `cbv_coding` prints a
variable that has no value. -/
theorem C83_coders_header {one u m : Nat} {lists : List (List Nat)} (h1 : one < 2 ^ 32) {k : Nat} (hk : k < 8)
    (coder : List Nat → Nat) (fuel : Nat) (hf : 1 ≤ fuel) :
    coders false m coder fuel ((collectionBytes one u lists).take k) = .ok ⟨0, 0, 0⟩ ∧
    coders true m coder fuel ((collectionBytes one u lists).take k) = .error .uninit := by
  obtain ⟨f, rfl⟩ : ∃ f, fuel = f + 1 := ⟨fuel - 1, by omega⟩
  by_cases h4 : k < 4
  · have hfew : readLE 4 ((collectionBytes one u lists).take k) = .error .eof := readLE_few 4 _ (by rw [List.length_take]; omega)
    have e : (InStream.mk ((collectionBytes one u lists).take k) false false).read4 none = (none, ⟨[], true, true⟩) := by
      simp only [InStream.read4, hfew, Bool.or_self, Bool.false_eq_true, if_false, Option.map_none]
    rw [coders, coders, codersOn, codersOn, e]
    exact ⟨rfl, rfl⟩
  · have e0 : (collectionBytes one u lists).take k = leBytes 4 one ++ (leBytes 4 u ++ lists.flatMap listBytes).take (k - 4) := by
      rw [collectionBytes, List.take_append, length_leBytes, List.take_of_length_le (by rw [length_leBytes]; omega)]
    have hfew : readLE 4 ((leBytes 4 u ++ lists.flatMap listBytes).take (k - 4)) = .error .eof :=
      readLE_few 4 _ (by rw [List.length_take]; omega)
    have e : (InStream.mk ((leBytes 4 u ++ lists.flatMap listBytes).take (k - 4)) false false).read4 none = (none, ⟨[], true, true⟩) := by
      simp only [InStream.read4, hfew, Bool.or_self, Bool.false_eq_true, if_false, Option.map_none]
    rw [coders, coders, codersOn, codersOn, e0, read4_ok (readLE_leBytes 4 _ _ (by omega))]
    dsimp only
    rw [e]
    exact ⟨rfl, rfl⟩

example : coders false 0 List.sum 1 ((collectionBytes 1 16 [[1, 2], [3]]).take 6) = .ok ⟨0, 0, 0⟩ := by decide +kernel

end CBT
