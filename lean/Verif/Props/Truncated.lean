import Verif.Proof.Tools
import Verif.Proof.ToolsFast
import Verif.Model.ToolsTries
import Verif.Props.Tools

/-!
# C83: collections cut short

The builders look at the end of the file only where they read the length of a list. What they make of a collection of which only the first
`k` bytes are there: the file of the lists that are complete, without a complaint, unless the cut falls among the elements of a list that
is to be kept. Then values are used that were never read.
-/

namespace CBT

open Spec

theorem readLE_few : (k : Nat) → (s : Bytes) → s.length < k → readLE k s = .error .eof
  | 0, _, h => absurd h (Nat.not_lt_zero _)
  | _ + 1, [], _ => rfl
  | k + 1, b :: s, h => by rw [readLE, readLE_few k s (by simp only [List.length_cons] at h; omega)]; rfl

theorem readLE_rest : (k : Nat) → (s : Bytes) → ∀ {x r}, readLE k s = .ok (x, r) → r.length + k = s.length
  | 0, s, x, r, h => by rw [readLE] at h; cases h; rfl
  | _ + 1, [], x, r, h => by rw [readLE] at h; cases h
  | k + 1, b :: s, x, r, h => by
    rw [readLE] at h
    obtain ⟨⟨y, s'⟩, h1, h⟩ := bind_ok h
    cases h
    have := readLE_rest k s h1
    rw [List.length_cons]; omega

theorem readLE_err : (k : Nat) → (s : Bytes) → ∀ {e}, readLE k s = .error e → e = .eof
  | 0, s, e, h => by rw [readLE] at h; cases h
  | _ + 1, [], e, h => by rw [readLE] at h; cases h; rfl
  | k + 1, b :: s, e, h => by
    rw [readLE] at h
    cases h1 : readLE k s with
    | error e' => rw [h1] at h; cases h; exact readLE_err k s h1
    | ok p => rw [h1] at h; cases h

theorem readMany_few : (n : Nat) → (s : Bytes) → s.length < 4 * n → readMany (readLE 4) n s = .error .eof
  | 0, _, h => by omega
  | n + 1, s, h => by
    rw [readMany]
    cases h1 : readLE 4 s with
    | error e => cases readLE_err 4 s h1; rfl
    | ok p =>
      have := readLE_rest 4 s h1
      rw [R_bind_ok]
      simp only
      rw [readMany_few n p.2 (by omega)]
      rfl

theorem length_elements (l : List Nat) : (l.flatMap (leBytes 4)).length = 4 * l.length := by
  rw [List.length_flatMap, List.map_congr_left (fun x _ => length_leBytes 4 x)]
  simp [Nat.mul_comm]

theorem length_listBytes (l : List Nat) : (listBytes l).length = 4 + 4 * l.length := by
  rw [listBytes, List.length_append, length_leBytes, length_elements]

theorem take_lists {l : List Nat} {ls : List (List Nat)} {k : Nat} (h : 4 + 4 * l.length ≤ k) :
    ((l :: ls).flatMap listBytes).take k = listBytes l ++ (ls.flatMap listBytes).take (k - (4 + 4 * l.length)) := by
  rw [List.flatMap_cons, List.take_append, length_listBytes, List.take_of_length_le (by rw [length_listBytes]; exact h)]

/-- The length word is there, the elements are not. -/
theorem take_cut {l : List Nat} {ls : List (List Nat)} {k : Nat} (h4 : 4 ≤ k) (h : ¬ 4 + 4 * l.length ≤ k) :
    ((l :: ls).flatMap listBytes).take k = leBytes 4 l.length ++ (l.flatMap (leBytes 4)).take (k - 4) := by
  rw [List.flatMap_cons, List.take_append, length_listBytes, show k - (4 + 4 * l.length) = 0 by omega, List.take_zero, List.append_nil,
    listBytes, List.take_append, length_leBytes, List.take_of_length_le (by rw [length_leBytes]; exact h4)]

theorem countSets_cut {mn mx : Nat} : (lists : List (List Nat)) → (k fuel c : Nat) → (∀ l ∈ lists, l.length < 2 ^ 30) →
    ((lists.flatMap listBytes).take k).length < fuel → c + (kept mn mx lists).length < 2 ^ 32 →
    ∃ m, countSets mn mx fuel ((lists.flatMap listBytes).take k) c = .ok m ∧
      ((∀ l, cutIn k lists = some l → ¬ (mn < l.length ∧ l.length ≤ mx)) → m = c + (kept mn mx (completeIn k lists)).length)
  | [], k, fuel + 1, c, _, _, _ => ⟨c, by rw [List.flatMap_nil, List.take_nil]; rfl, fun _ => rfl⟩
  | l :: ls, k, fuel + 1, c, hl, hf, hc => by
    have h0 : l.length < 2 ^ 30 := hl l (by simp)
    have hl' : ∀ x ∈ ls, x.length < 2 ^ 30 := fun l h => hl l (List.mem_cons_of_mem _ h)
    by_cases hk : 4 + 4 * l.length ≤ k
    · have hf' : ((ls.flatMap listBytes).take (k - (4 + 4 * l.length))).length < fuel := by
        rw [take_lists hk, List.length_append, length_listBytes] at hf; omega
      rw [take_lists hk, countSets, readLE_listBytes h0]
      simp only
      rw [skipList_list h0, accepts_eq, completeIn, if_pos hk, cutIn, if_pos hk]
      by_cases ha : (decide (mn < l.length) && decide (l.length ≤ mx)) = true
      · rw [kept_pos ha, List.length_cons] at hc
        rw [if_pos ha, Nat.mod_eq_of_lt (by omega)]
        obtain ⟨m, h1, h2⟩ := countSets_cut (mn := mn) (mx := mx) ls (k - (4 + 4 * l.length)) fuel (c + 1) hl' hf' (by omega)
        refine ⟨m, h1, fun h => ?_⟩
        rw [h2 h, kept_pos ha, List.length_cons]; omega
      · rw [kept_neg ha] at hc
        rw [if_neg ha, kept_neg ha]
        exact countSets_cut ls (k - (4 + 4 * l.length)) fuel c hl' hf' hc
    · rw [completeIn, if_neg hk, cutIn, if_neg hk]
      by_cases h4 : 4 ≤ k
      · rw [take_cut h4 hk, List.length_append, length_leBytes] at hf
        rw [take_cut h4 hk, countSets, readLE_leBytes 4 _ _ (by omega)]
        simp only
        have hd : skipList ((l.flatMap (leBytes 4)).take (k - 4)) l.length = [] := by
          rw [skipList, Nat.mod_eq_of_lt (by omega)]
          refine List.drop_eq_nil_of_le ?_
          rw [List.length_take, length_elements]; omega
        rw [hd, if_pos h4]
        obtain ⟨f, rfl⟩ : ∃ f, fuel = f + 1 := ⟨fuel - 1, by omega⟩
        refine ⟨_, rfl, fun h => ?_⟩
        rw [accepts, if_neg (fun ha => h l rfl (of_decide_eq_true ha))]
        rfl
      · rw [countSets, readLE_few 4 _ (by rw [List.length_take]; omega)]
        exact ⟨c, rfl, fun _ => rfl⟩

theorem buildLoop_cut {mn mx : Nat} {make : Nat → List Nat → R Bytes} : (lists : List (List Nat)) → (k fuel i : Nat) →
    (∀ l ∈ lists, l.length < 2 ^ 30) → (∀ l ∈ kept mn mx lists, ∀ x ∈ l, x < 2 ^ 32) → ((lists.flatMap listBytes).take k).length < fuel →
    ((∀ l, cutIn k lists = some l → ¬ (mn < l.length ∧ l.length ≤ mx)) →
      buildLoop mn mx make fuel ((lists.flatMap listBytes).take k) i = makeAll make i (kept mn mx (completeIn k lists))) ∧
    (∀ l, cutIn k lists = some l → mn < l.length → l.length ≤ mx →
      buildLoop mn mx make fuel ((lists.flatMap listBytes).take k) i =
        (makeAll make i (kept mn mx (completeIn k lists)) >>= fun _ => .error .eof))
  | [], k, fuel + 1, i, _, _, _ => ⟨fun _ => by rw [List.flatMap_nil, List.take_nil]; rfl, fun l h => by cases h⟩
  | l :: ls, k, fuel + 1, i, hl, hx, hf => by
    have h0 : l.length < 2 ^ 30 := hl l (by simp)
    have hl' : ∀ x ∈ ls, x.length < 2 ^ 30 := fun l h => hl l (List.mem_cons_of_mem _ h)
    by_cases hk : 4 + 4 * l.length ≤ k
    · have hf' : ((ls.flatMap listBytes).take (k - (4 + 4 * l.length))).length < fuel := by
        rw [take_lists hk, List.length_append, length_listBytes] at hf; omega
      rw [take_lists hk, buildLoop, readLE_listBytes h0]
      simp only
      rw [accepts_eq, completeIn, if_pos hk, cutIn, if_pos hk]
      by_cases ha : (decide (mn < l.length) && decide (l.length ≤ mx)) = true
      · rw [kept_pos ha] at hx
        obtain ⟨h1, h2⟩ := buildLoop_cut (mn := mn) (mx := mx) (make := make) ls (k - (4 + 4 * l.length)) fuel (i + 1) hl' (fun l h => hx l (List.mem_cons_of_mem _ h)) hf'
        have hr : readInvList l.length (l.flatMap (leBytes 4) ++ (ls.flatMap listBytes).take (k - (4 + 4 * l.length))) =
            .ok (l, (ls.flatMap listBytes).take (k - (4 + 4 * l.length))) := by
          rw [readInvList, readMany_flatMap (f := id) l _ fun x hxl rest => readLE_leBytes 4 x rest (by
            have := hx l (by simp) x hxl; omega)]
          simp
        rw [if_pos ha, hr, R_bind_ok, kept_pos ha, makeAll]
        simp only
        refine ⟨fun h => by rw [h1 h], fun c hc hc1 hc2 => ?_⟩
        rw [h2 c hc hc1 hc2]
        cases make i l with
        | error e => rfl
        | ok b =>
          cases makeAll make (i + 1) (kept mn mx (completeIn (k - (4 + 4 * l.length)) ls)) <;> rfl
      · rw [kept_neg ha] at hx
        rw [if_neg ha, kept_neg ha, skipList_list h0]
        exact buildLoop_cut ls (k - (4 + 4 * l.length)) fuel i hl' hx hf'
    · rw [completeIn, if_neg hk, cutIn, if_neg hk]
      by_cases h4 : 4 ≤ k
      · rw [take_cut h4 hk, List.length_append, length_leBytes] at hf
        rw [take_cut h4 hk, buildLoop, readLE_leBytes 4 _ _ (by omega), if_pos h4]
        simp only
        refine ⟨fun h => ?_, fun c hc hc1 hc2 => ?_⟩
        · have hd : skipList ((l.flatMap (leBytes 4)).take (k - 4)) l.length = [] := by
            rw [skipList, Nat.mod_eq_of_lt (by omega)]
            refine List.drop_eq_nil_of_le ?_
            rw [List.length_take, length_elements]; omega
          rw [accepts, if_neg (fun ha => h l rfl (of_decide_eq_true ha)), hd]
          obtain ⟨f, rfl⟩ : ∃ f, fuel = f + 1 := ⟨fuel - 1, by omega⟩
          rfl
        · cases hc
          rw [accepts, if_pos (decide_eq_true (And.intro hc1 hc2)), readInvList, readMany_few l.length _ (by rw [List.length_take]; omega)]
          rfl
      · rw [buildLoop, readLE_few 4 _ (by rw [List.length_take]; omega), if_neg h4]
        exact ⟨fun _ => rfl, fun c hc => by cases hc⟩

theorem completeIn_sub : (k : Nat) → (lists : List (List Nat)) → ∃ rest, lists = completeIn k lists ++ rest
  | _, [] => ⟨[], rfl⟩
  | k, l :: ls => by
    rw [completeIn]
    split
    · obtain ⟨r, h⟩ := completeIn_sub (k - (4 + 4 * l.length)) ls
      exact ⟨r, by rw [List.cons_append, ← h]⟩
    · exact ⟨l :: ls, rfl⟩

/-- What `buildFile` makes of the first `k` bytes of a collection. -/
theorem buildFile_cut {mn mx : Nat} {hdr : Bytes} {make : Nat → Nat → List Nat → R Bytes} {one u : Nat} {lists : List (List Nat)}
    (h1 : one < 2 ^ 32) (hu : u < 2 ^ 32) (hl : ∀ l ∈ lists, l.length < 2 ^ 30) (hx : ∀ l ∈ kept mn mx lists, ∀ x ∈ l, x < 2 ^ 32)
    (hn : (kept mn mx lists).length < 2 ^ 32) (k : Nat) :
    (k < 8 → buildFile mn mx hdr make ((collectionBytes one u lists).take k) = .error .eof) ∧
    (8 ≤ k → (∀ l, cutIn (k - 8) lists = some l → ¬ (mn < l.length ∧ l.length ≤ mx)) →
      buildFile mn mx hdr make ((collectionBytes one u lists).take k) =
        buildFile mn mx hdr make (collectionBytes one u (completeIn (k - 8) lists))) ∧
    (8 ≤ k → ∀ l, cutIn (k - 8) lists = some l → mn < l.length → l.length ≤ mx →
      (∀ f, buildFile mn mx hdr make ((collectionBytes one u lists).take k) ≠ .ok f) ∧
      (∀ f, buildFile mn mx hdr make (collectionBytes one u (completeIn (k - 8) lists)) = .ok f →
        buildFile mn mx hdr make ((collectionBytes one u lists).take k) = .error .eof)) := by
  have take8 : 8 ≤ k → (collectionBytes one u lists).take k = leBytes 4 one ++ (leBytes 4 u ++ (lists.flatMap listBytes).take (k - 8)) := by
    intro h
    rw [collectionBytes, List.take_append, List.take_append, length_leBytes, length_leBytes,
      List.take_of_length_le (by rw [length_leBytes]; omega), List.take_of_length_le (by rw [length_leBytes]; omega),
      show k - 4 - 4 = k - 8 by omega]
  obtain ⟨rest, hrest⟩ := completeIn_sub (k - 8) lists
  have hk : kept mn mx lists = kept mn mx (completeIn (k - 8) lists) ++ kept mn mx rest := by
    conv_lhs => rw [hrest]
    exact List.filter_append ..
  have hl' : ∀ l ∈ completeIn (k - 8) lists, l.length < 2 ^ 30 := fun l h => hl l (hrest ▸ List.mem_append_left _ h)
  have hx' : ∀ l ∈ kept mn mx (completeIn (k - 8) lists), ∀ x ∈ l, x < 2 ^ 32 :=
    fun l h => hx l (hk ▸ List.mem_append_left _ h)
  have hn' : (kept mn mx (completeIn (k - 8) lists)).length < 2 ^ 32 := by
    rw [hk, List.length_append] at hn; omega
  have hrun : 8 ≤ k → ∃ fuel, ((lists.flatMap listBytes).take (k - 8)).length < fuel ∧ buildFile mn mx hdr make ((collectionBytes one u lists).take k) = (do
      let nSets ← countSets mn mx fuel ((lists.flatMap listBytes).take (k - 8)) 0
      let tries ← buildLoop mn mx (make u) fuel ((lists.flatMap listBytes).take (k - 8)) 0
      .ok (hdr ++ leBytes 4 nSets ++ leBytes 4 one ++ leBytes 4 u ++ tries)) := by
    intro h
    refine ⟨((lists.flatMap listBytes).take (k - 8)).length + 1, Nat.lt_succ_self _, ?_⟩
    rw [take8 h, buildFile, readLE_leBytes 4 _ _ (by omega), R_bind_ok]
    simp only
    rw [readLE_leBytes 4 _ _ (by omega), R_bind_ok]
  refine ⟨fun h => ?_, fun h hc => ?_, fun h l hc hc1 hc2 => ?_⟩
  · rw [buildFile]
    by_cases h4 : k < 4
    · rw [readLE_few 4 _ (by rw [List.length_take]; omega)]; rfl
    · rw [collectionBytes, List.take_append, length_leBytes, List.take_of_length_le (by rw [length_leBytes]; omega),
        readLE_leBytes 4 _ _ (by omega), R_bind_ok]
      simp only
      rw [readLE_few 4 _ (by rw [List.length_take]; omega)]
      rfl
  · obtain ⟨fuel, hf, e⟩ := hrun h
    obtain ⟨m, e1, e2⟩ := countSets_cut (mn := mn) (mx := mx) lists (k - 8) fuel 0 hl hf (by omega)
    rw [e, e1, R_bind_ok, (buildLoop_cut lists (k - 8) fuel 0 hl hx hf).1 hc, e2 hc, Nat.zero_add, buildFile_lists h1 hu hl' hx' hn']
  · obtain ⟨fuel, hf, e⟩ := hrun h
    obtain ⟨m, e1, -⟩ := countSets_cut (mn := mn) (mx := mx) lists (k - 8) fuel 0 hl hf (by omega)
    rw [e, e1, R_bind_ok, (buildLoop_cut lists (k - 8) fuel 0 hl hx hf).2 l hc hc1 hc2, buildFile_lists h1 hu hl' hx' hn']
    cases makeAll (make u) 0 (kept mn mx (completeIn (k - 8) lists)) with
    | error e => exact ⟨(fun f h => by cases h), (fun f h => by cases h)⟩
    | ok b => exact ⟨(fun f h => by cases h), (fun f _ => rfl)⟩

/-- C83, `build_tries`: the first `k` bytes of a collection. A kept list that is cut makes the builder use values it has not read; in all
other cases it makes, without a complaint, the file of the collection of the lists that are complete. -/
theorem C83_tries (F : Formats) (pad : Nat) (ltr : Bool) {mn mx rank block : Nat} (runs levelwise : Bool) {one u : Nat}
    (hone : one < 2 ^ 32) (hu : u < 2 ^ 32) {lists : List (List Nat)} (hl : ∀ l ∈ lists, l.length < 2 ^ 30)
    (hx : ∀ l ∈ lists, ∀ x ∈ l, x < 2 ^ 32) (hn : (kept mn mx lists).length < 2 ^ 32) (k : Nat) :
    (k < 8 → buildTries F pad ltr mn mx rank block runs levelwise ((collectionBytes one u lists).take k) = .error .eof) ∧
    (8 ≤ k → (∀ l, cutIn (k - 8) lists = some l → ¬ (mn < l.length ∧ l.length ≤ mx)) →
      buildTries F pad ltr mn mx rank block runs levelwise ((collectionBytes one u lists).take k) =
        buildTries F pad ltr mn mx rank block runs levelwise (collectionBytes one u (completeIn (k - 8) lists))) ∧
    (8 ≤ k → ∀ l, cutIn (k - 8) lists = some l → mn < l.length → l.length ≤ mx →
      (∀ f, buildTries F pad ltr mn mx rank block runs levelwise ((collectionBytes one u lists).take k) ≠ .ok f) ∧
      (∀ f, buildTries F pad ltr mn mx rank block runs levelwise (collectionBytes one u (completeIn (k - 8) lists)) = .ok f →
        buildTries F pad ltr mn mx rank block runs levelwise ((collectionBytes one u lists).take k) = .error .eof)) :=
  buildFile_cut hone hu hl (fun l h => hx l (List.mem_of_mem_filter h)) hn k

/-- C83, `build_fastTries`. -/
theorem C83_fast (B : BvIO) (K : Nat → RankIO) (pad : Nat) (junk : Nat → FastJunk) {mn mx rank lg : Nat} (hlg : 3 ≤ lg ∧ lg ≤ 6)
    (runs levelwise : Bool) {one u : Nat} (hone : one < 2 ^ 32) (hu : u < 2 ^ 32) {lists : List (List Nat)}
    (hl : ∀ l ∈ lists, l.length < 2 ^ 30) (hx : ∀ l ∈ lists, ∀ x ∈ l, x < 2 ^ 32) (hn : (kept mn mx lists).length < 2 ^ 32) (k : Nat) :
    (k < 8 → buildFast B K pad junk mn mx rank runs levelwise (2 ^ lg) ((collectionBytes one u lists).take k) = .error .eof) ∧
    (8 ≤ k → (∀ l, cutIn (k - 8) lists = some l → ¬ (mn < l.length ∧ l.length ≤ mx)) →
      buildFast B K pad junk mn mx rank runs levelwise (2 ^ lg) ((collectionBytes one u lists).take k) =
        buildFast B K pad junk mn mx rank runs levelwise (2 ^ lg) (collectionBytes one u (completeIn (k - 8) lists))) ∧
    (8 ≤ k → ∀ l, cutIn (k - 8) lists = some l → mn < l.length → l.length ≤ mx →
      (∀ f, buildFast B K pad junk mn mx rank runs levelwise (2 ^ lg) ((collectionBytes one u lists).take k) ≠ .ok f) ∧
      (∀ f, buildFast B K pad junk mn mx rank runs levelwise (2 ^ lg) (collectionBytes one u (completeIn (k - 8) lists)) = .ok f →
        buildFast B K pad junk mn mx rank runs levelwise (2 ^ lg) ((collectionBytes one u lists).take k) = .error .eof)) := by
  obtain ⟨h1, h2, h3⟩ := buildFile_cut (mn := mn) (mx := mx) (hdr := fastFileHeader rank runs levelwise (2 ^ lg))
    (make := makeFast B (K (if rank = 0 then 0 else 2)) lg pad junk runs) hone hu hl (fun l h => hx l (List.mem_of_mem_filter h)) hn k
  simp only [buildFast, (wordLg_pow hlg).1]
  refine ⟨fun h => by rw [h1 h]; rfl, fun h hc => by rw [h2 h hc], fun h l hc hc1 hc2 => ?_⟩
  obtain ⟨h4, h5⟩ := h3 h l hc hc1 hc2
  refine ⟨fun f hf => ?_, fun f hf => ?_⟩
  · obtain ⟨f', hf', -⟩ := bind_ok hf
    exact h4 f' hf'
  · obtain ⟨f', hf', -⟩ := bind_ok hf
    rw [h5 f' hf']
    rfl

/-- Cut in the second list (which is kept), in the elements of the first (which is not), and behind the first. -/
example : cutIn 14 [[7], [3, 4, 17], [1]] = some [3, 4, 17] ∧ completeIn 14 [[7], [3, 4, 17], [1]] = [[7]] ∧
    cutIn 6 [[7], [3, 4, 17], [1]] = some [7] ∧ completeIn 6 [[7], [3, 4, 17], [1]] = [] ∧
    cutIn 11 [[7], [3, 4, 17], [1]] = none ∧ completeIn 11 [[7], [3, 4, 17], [1]] = [[7]] := by decide

theorem completeIn_all : (lists : List (List Nat)) → (rest : List (List Nat)) → completeIn (lists.flatMap listBytes).length (lists ++ rest) = lists ∧
    cutIn (lists.flatMap listBytes).length (lists ++ rest) = none
  | [], [] => ⟨rfl, rfl⟩
  | [], l :: ls => by
    rw [List.flatMap_nil, List.length_nil, List.nil_append, completeIn, cutIn, if_neg (by omega), if_neg (by omega), if_neg (by omega)]
    exact ⟨rfl, rfl⟩
  | l :: ls, rest => by
    rw [List.flatMap_cons, List.length_append, length_listBytes, List.cons_append, completeIn, cutIn, if_pos (by omega), if_pos (by omega),
      Nat.add_sub_cancel_left, (completeIn_all ls rest).1, (completeIn_all ls rest).2]
    exact ⟨rfl, rfl⟩

/-- C83: that a collection is incomplete is not noticed in general. Any number of lists may be missing at its end. -/
theorem C83_unnoticed_negation {mn mx : Nat} {hdr : Bytes} {make : Nat → Nat → List Nat → R Bytes} {one u : Nat}
    {lists rest : List (List Nat)} (hone : one < 2 ^ 32) (hu : u < 2 ^ 32) (hl : ∀ l ∈ lists ++ rest, l.length < 2 ^ 30)
    (hx : ∀ l ∈ lists ++ rest, ∀ x ∈ l, x < 2 ^ 32) (hn : (kept mn mx (lists ++ rest)).length < 2 ^ 32) :
    buildFile mn mx hdr make ((collectionBytes one u (lists ++ rest)).take (8 + (lists.flatMap listBytes).length)) =
      buildFile mn mx hdr make (collectionBytes one u lists) := by
  have h := (buildFile_cut (hdr := hdr) (make := make) hone hu hl (fun l h => hx l (List.mem_of_mem_filter h)) hn
    (8 + (lists.flatMap listBytes).length)).2.1 (by omega)
  rw [Nat.add_sub_cancel_left, (completeIn_all lists rest).1, (completeIn_all lists rest).2] at h
  exact h fun l hl => by cases hl

/-- The collection of the examples without its last 10 bytes, and without its last list. -/
example : buildTries Ex.formats 0 true 1 100 0 0 false false ((collectionBytes 1 64 Ex.coll).take ((collectionBytes 1 64 Ex.coll).length - 10)) =
      .error .eof ∧
    (buildTries Ex.formats 0 true 1 100 0 0 false false ((collectionBytes 1 64 (Ex.coll ++ [[5, 9]])).take
      (collectionBytes 1 64 Ex.coll).length)).toOption.isSome = true := by decide +kernel

end CBT
