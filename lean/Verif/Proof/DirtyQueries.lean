import Verif.Proof.DirtyLists
import Verif.Proof.ToolsTries
import Verif.Proof.ToolsFast
import Verif.Props.Vectors

/-!
# What the query tools answer from files of lists in any order

Helper lemmas for C107: `queryLog_file`, `queryLog_ok`, `buildFast_ok` and `queryFast_ok` for what is seen of the lists.
-/

namespace CBT

open Spec

theorem makeTrie_clean (F : Formats) (pad : Nat) (ltr : Bool) (rank block : Nat) (runs levelwise : Bool) {u : Nat} (i : Nat)
    {v : List Nat} (hv : v ≠ []) (hlen : v.length < 2 ^ 32) (hu : 3 ≤ u) (hu' : u ≤ 2 ^ 62) :
    makeTrie F pad ltr rank block runs levelwise u i v =
      makeTrie F pad ltr rank block runs levelwise (2 ^ trieHeight u) i (seen 0 (trieHeight u) v) := by
  obtain ⟨h1, h2⟩ := log2_bounds hu hu'
  have hl := length_seen_le (w := 0) (trieHeight u) v
  have hV : ValidSet (seen 0 (trieHeight u) v) (2 ^ trieHeight u) := seen_valid hv
  have h3 : Nat.log2 (2 ^ trieHeight u - 1) = Nat.log2 (u - 1) := log2_two_pow_pred _
  have h4 : 2 ^ 1 ≤ 2 ^ trieHeight u := Nat.pow_le_pow_right (by decide) (by rw [trieHeight]; omega)
  have e1 : flatCtor v u = flatCtor (seen 0 (trieHeight u) v) (2 ^ trieHeight u) := by
    rw [flatCtor_ok hv hlen (by omega) rfl h1 h2, flatCtor_ok hV.ne (by omega) h4 h3 h1 h2, trieHeight, flatTree_seen]
  have e2 : levelCtor v u = levelCtor (seen 0 (trieHeight u) v) (2 ^ trieHeight u) := by
    rw [levelCtor_ok hv (by omega) (by omega) rfl (by omega), levelCtor_ok hV.ne (by omega) h4 h3 (by omega), trieHeight, flatTree_seen]
  simp only [makeTrie, makeFlat, makeLevel, makeLevelIl, e1, e2]

theorem makeFast_clean (B : BvIO) (K : RankIO) {lg : Nat} (hlg : 3 ≤ lg ∧ lg ≤ 6) (pad : Nat) (junk : Nat → FastJunk) (runs : Bool)
    {u : Nat} (i : Nat) {v : List Nat} (hv : v ≠ []) (hlen : v.length < 2 ^ 32) (hu : 2 ^ (lg - 1) < u) (hu' : u ≤ 2 ^ 62) :
    makeFast B K lg pad junk runs u i v =
      makeFast B K lg pad junk runs (2 ^ (Nat.log2 (u - 1) + 1)) i (seen lg (Nat.log2 (u - 1) + 1 - lg) v) := by
  obtain ⟨h0, h1, h2⟩ := fast_depth hlg hu hu'
  have hl := length_seen_le (w := lg) (Nat.log2 (u - 1) + 1 - lg) v
  have hV : ValidSet (seen lg (Nat.log2 (u - 1) + 1 - lg) v) (2 ^ (Nat.log2 (u - 1) + 1 - lg + lg)) := seen_valid hv
  have h3 : Nat.log2 (2 ^ (Nat.log2 (u - 1) + 1) - 1) = Nat.log2 (u - 1) := log2_two_pow_pred _
  have h4 : 2 ^ 1 ≤ 2 ^ (Nat.log2 (u - 1) + 1) := Nat.pow_le_pow_right (by decide) (by omega)
  have e : fastCtor lg (junk i) v u =
      fastCtor lg (junk i) (seen lg (Nat.log2 (u - 1) + 1 - lg) v) (2 ^ (Nat.log2 (u - 1) + 1)) := by
    rw [fastCtor_ok hv hlen h0 h1 h2 (by omega), fastCtor_ok hV.ne (by omega) h4 (by rw [h3]; exact h1) h2 (by omega), fastTree_seen]
  simp only [makeFast, e]

/-- `queryLog_ok` for what is seen of the lists. -/
theorem queryLog_seen (F : Formats) (pad : Nat) {mn mx rank block : Nat} {runs levelwise : Bool} (hr : rank < 2 ^ 32)
    (hbl : block < 2 ^ 32) (hs : Supported rank block levelwise)
    {one u : Nat} (hone : one < 2 ^ 32) (hu : 3 ≤ u) (hu' : u < 2 ^ 32) {lists : List (List Nat)}
    (hl : ∀ l ∈ lists, l.length < 2 ^ 30) (hx : ∀ l ∈ kept mn mx lists, ∀ x ∈ l, x < 2 ^ 32)
    (hn : (kept mn mx lists).length < 2 ^ 32) {L : List (List Nat)} (hL : L = (kept mn mx lists).map (seen 0 (trieHeight u)))
    (hc : runs = true → levelwise = false → ∀ l ∈ L, ∃ x ∈ l, ∃ y, y / 4 = x / 4 ∧ y ∉ l)
    (parallel : Bool) (env : Nat → Env) {P : List (List Nat) → List Nat → Prop}
    (hI : ∀ (sets : List (List Nat)) (Ts : List Nav) (i : Nat),
      List.Forall₂ (fun S n => CodedTrie pad (trieHeight u) (runs, S) n) sets Ts → (∀ S ∈ sets, S ∈ L) → Ts ≠ [] → Ts.length ≤ 16 →
      ∃ R, intersect Ts runs parallel (env i) = .ok R ∧ P sets R)
    {queries : List (List Nat)} (hq0 : ∀ q ∈ queries, q ≠ []) (hq1 : ∀ q ∈ queries, ∀ i ∈ q, i < (kept mn mx lists).length) :
    ∃ f as, buildTries F pad true mn mx rank block runs levelwise (collectionBytes one u lists) = .ok f ∧
      queryLog F pad parallel env queries f = .ok as ∧
      List.Forall₂ (fun q a => (q.length ≤ 16 → ∃ R, a = some R ∧ P (q.map fun i => L.getD i []) R) ∧
        (16 < q.length → a = none)) queries as := by
  have hth : trieHeight (2 ^ trieHeight u) = trieHeight u := by
    rw [trieHeight, trieHeight, log2_two_pow_pred]
  obtain ⟨b1, b2⟩ := log2_bounds hu (by omega)
  have hp3 : 2 ^ 2 ≤ 2 ^ trieHeight u := Nat.pow_le_pow_right (by decide) (by rw [trieHeight]; omega)
  have hp62 : 2 ^ trieHeight u ≤ 2 ^ 62 := Nat.pow_le_pow_right (by decide) (by rw [trieHeight]; omega)
  have hlen : L.length = (kept mn mx lists).length := by rw [hL, List.length_map]
  have key : ∀ j, ∃ (b : Bytes) (n : Nav), ∀ h : j < (kept mn mx lists).length,
      makeTrie F pad true rank block runs levelwise u j (kept mn mx lists)[j] = .ok b ∧
      Saved pad (2 ^ trieHeight u) (L.getD j []) runs levelwise
        (loadTrie F pad ⟨rank, if rank = 1 then block else 512, runs, levelwise⟩) b n := by
    intro j
    by_cases h : j < (kept mn mx lists).length
    · have hm := List.getElem_mem h
      have hne := kept_ne_nil _ hm
      have hll : (kept mn mx lists)[j].length < 2 ^ 30 := hl _ (List.mem_of_mem_filter hm)
      have hsl := length_seen_le (w := 0) (trieHeight u) (kept mn mx lists)[j]
      obtain ⟨b, n, e1, e2⟩ := trie_saved F hs (runs := runs) (S := seen 0 (trieHeight u) (kept mn mx lists)[j])
        (u := 2 ^ trieHeight u) (seen_valid hne) (by omega) (by omega) hp62 pad j
      refine ⟨b, n, fun _ => ⟨?_, ?_⟩⟩
      · rw [makeTrie_clean F pad true rank block runs levelwise j hne (by omega) hu (by omega)]
        exact e1
      · have : L.getD j [] = seen 0 (trieHeight u) (kept mn mx lists)[j] := by
          rw [hL, List.getD_eq_getElem?_getD, List.getElem?_map, List.getElem?_eq_getElem h]
          rfl
        rw [this]; exact e2
    · exact ⟨[], ⟨0, fun _ _ => .ok 0, fun _ _ => .ok 0, fun _ _ => .ok 0⟩, fun h' => absurd h' h⟩
  choose part nav hk using key
  have hmany := readMany_flatMap (read := loadTrie F pad ⟨rank, if rank = 1 then block else 512, runs, levelwise⟩) (write := part)
    (f := nav) (List.range' 0 (kept mn mx lists).length) [] (fun x hx rest => (hk x (by
      rw [List.mem_range'_1] at hx; omega)).2.loads rest)
  rw [List.length_range', List.append_nil] at hmany
  have hget : ∀ q ∈ queries, ∀ x ∈ q, ((List.range' 0 (kept mn mx lists).length).map nav)[x]? = some (nav x) := by
    intro q hqm x hx
    rw [List.getElem?_map, List.getElem?_range' (hq1 q hqm x hx)]
    simp
  have hmem : ∀ x, x < (kept mn mx lists).length → L.getD x [] ∈ L := by
    intro x this
    rw [List.getD_eq_getElem?_getD, List.getElem?_eq_getElem (hlen ▸ this)]
    exact List.getElem_mem _
  obtain ⟨as, ha, hf⟩ := answerLog_ok (inter := fun i ts => intersect ts runs parallel (env i))
    (P := fun q R => P (q.map fun i => L.getD i []) R) queries 0 hget (fun q hqm hle j => by
      refine hI _ _ j (forall2_map q fun x hx => ?_) (fun S hS => ?_) ?_ ?_
      · have := (hk x (hq1 q hqm x hx)).2.known.coded fun h => by
          obtain ⟨a, b⟩ := codingOf_flat.1 h
          exact hc a b _ (hmem x (hq1 q hqm x hx))
        rwa [codingOf_runs, hth] at this
      · obtain ⟨x, hx, rfl⟩ := List.mem_map.1 hS
        exact hmem x (hq1 q hqm x hx)
      · simpa using hq0 q hqm
      · simpa using hle)
  refine ⟨triesFileHeader rank block runs levelwise ++ (leBytes 4 (kept mn mx lists).length ++ (leBytes 4 one ++
    (leBytes 4 u ++ (List.range' 0 (kept mn mx lists).length).flatMap part))), as, ?_, Eq.trans ?_ ha, hf⟩
  · rw [buildTries, buildFile_lists hone hu' hl hx hn, makeAll_ok (part := part) _ 0 (fun j h => by rw [Nat.zero_add]; exact (hk j h).1)]
    simp only [R_bind_ok, List.append_assoc]
  · rw [queryLog, readTriesFileHeader_ok hr hbl, R_bind_ok]
    simp only [loadSequences]
    rw [readLE_leBytes 4 _ _ (by omega), R_bind_ok]
    simp only
    rw [readLE_leBytes 4 one _ (by omega), R_bind_ok]
    simp only
    rw [readLE_leBytes 4 u _ (by omega), R_bind_ok]
    simp only
    rw [hmany]
    rfl

/-- `queryFast_ok` for what is seen of the lists. -/
theorem queryFast_seen (B : BvIO) (K : Nat → RankIO) {lg : Nat} (hlg : 3 ≤ lg ∧ lg ≤ 6) (pad : Nat) (junk junk' : Nat → FastJunk)
    (hj : ∀ i, (junk i).heightWithRuns < 2 ^ 16) {mn mx rank : Nat} (hr : rank < 2 ^ 32) (hr1 : rank ≠ 1) (runs levelwise : Bool)
    {one u : Nat} (hone : one < 2 ^ 32) (hu : 2 ^ (lg - 1) < u) (hu' : u < 2 ^ 32) {lists : List (List Nat)}
    (hl : ∀ l ∈ lists, l.length < 2 ^ 30) (hx : ∀ l ∈ kept mn mx lists, ∀ x ∈ l, x < 2 ^ 32)
    (hn : (kept mn mx lists).length < 2 ^ 32) {L : List (List Nat)}
    (hL : L = (kept mn mx lists).map (seen lg (Nat.log2 (u - 1) + 1 - lg)))
    (parallel : Bool) (env : Nat → Env) {P : List (List Nat) → List Nat → Prop}
    (hI : ∀ (sets : List (List Nat)) (Ts : List FNav) (i : Nat),
      List.Forall₂ (fun S n => FastCoded lg pad (fastHeight lg u) (runs, S) n) sets Ts → (∀ S ∈ sets, S ∈ L) → Ts ≠ [] → Ts.length ≤ 16 →
      ∃ R, fastIntersect lg Ts runs parallel (env i) = .ok R ∧ P sets R)
    {queries : List (List Nat)} (hq : queries ≠ []) (hq0 : ∀ q ∈ queries, q ≠ [])
    (hq1 : ∀ q ∈ queries, q.length ≤ 16 → ∀ i ∈ q, i < (kept mn mx lists).length) :
    ∃ f as, buildFast B K pad junk mn mx rank runs levelwise (2 ^ lg) (collectionBytes one u lists) = .ok (some f) ∧
      queryFast B K pad junk' parallel env queries f = .ok as ∧
      List.Forall₂ (fun q a => (q.length ≤ 16 → ∃ R, a = some R ∧ P (q.map fun i => L.getD i []) R) ∧
        (16 < q.length → a = none)) queries as := by
  have hu62 : u ≤ 2 ^ 62 := Nat.le_of_lt (Nat.lt_of_lt_of_le hu' (by decide))
  obtain ⟨d0, d1, d2⟩ := fast_depth hlg hu hu62
  have hfh : fastHeight lg (2 ^ (Nat.log2 (u - 1) + 1)) = fastHeight lg u := by
    rw [fastHeight, fastHeight, log2_two_pow_pred]
  have hpl : 2 ^ (lg - 1) < 2 ^ (Nat.log2 (u - 1) + 1) := Nat.pow_lt_pow_right (by decide) (by omega)
  have hp62 : 2 ^ (Nat.log2 (u - 1) + 1) ≤ 2 ^ 62 := Nat.pow_le_pow_right (by decide) (by omega)
  have hlen : L.length = (kept mn mx lists).length := by rw [hL, List.length_map]
  have key : ∀ j, ∃ (b : Bytes) (o : FastObj (K (if rank = 0 then 0 else 2))), ∀ h : j < (kept mn mx lists).length,
      makeFast B (K (if rank = 0 then 0 else 2)) lg pad junk runs u j (kept mn mx lists)[j] = .ok b ∧
      (∀ t0 : FastTrie, t0.lastLevel = [] → ∀ rest, fastLoad B (K (if rank = 0 then 0 else 2)) lg t0 (b ++ rest) = .ok (o, rest)) ∧
      FastCoded lg pad (fastHeight lg u) (runs, L.getD j []) (o.nav pad) := by
    intro j
    by_cases h : j < (kept mn mx lists).length
    · have hm := List.getElem_mem h
      have hne := kept_ne_nil _ hm
      have hll : (kept mn mx lists)[j].length < 2 ^ 30 := hl _ (List.mem_of_mem_filter hm)
      have hsl := length_seen_le (w := lg) (Nat.log2 (u - 1) + 1 - lg) (kept mn mx lists)[j]
      have hV := seen_valid (w := lg) (d := Nat.log2 (u - 1) + 1 - lg) hne
      rw [← d1] at hV
      obtain ⟨b, o, e1, e2, e3⟩ := fast_saved B (K (if rank = 0 then 0 else 2)) hlg hV (by omega) hpl hp62 junk j (hj j) pad runs
      refine ⟨b, o, fun _ => ⟨?_, e2, ?_⟩⟩
      · rw [makeFast_clean B _ hlg pad junk runs j hne (by omega) hu hu62]
        exact e1
      · have : L.getD j [] = seen lg (Nat.log2 (u - 1) + 1 - lg) (kept mn mx lists)[j] := by
          rw [hL, List.getD_eq_getElem?_getD, List.getElem?_map, List.getElem?_eq_getElem h]
          rfl
        rw [this, ← hfh]; exact e3
    · exact ⟨[], ⟨⟨0, 0, 0, false, false, [], []⟩, (K _).of []⟩, fun h' => absurd h' h⟩
  choose part obj hk using key
  obtain ⟨hs1, hs2⟩ := setIndexes_spec queries
  have hsne : setIndexes queries ≠ [] := by
    obtain ⟨q, hqm⟩ := List.exists_mem_of_ne_nil _ hq
    obtain ⟨x, hx⟩ := List.exists_mem_of_ne_nil _ (hq0 q hqm)
    exact List.ne_nil_of_mem ((hs2 x).2 ⟨q, hqm, hx⟩)
  have hload := loadLoop_ok (load := fun i s => fastLoad B (K (if rank = 0 then 0 else 2)) lg (fastDefault (junk' i)) s)
    (part := part) (obj := obj) (kept mn mx lists).length 0 (setIndexes queries)
    (fun j _ hj2 rest => (hk j (by omega)).2.1 _ rfl rest) hsne hs1 (fun _ _ => Nat.zero_le _) []
  rw [List.append_nil] at hload
  have hlook : ∀ q ∈ queries, q.length ≤ 16 → ∀ x ∈ q, (((setIndexes queries).filter (· < 0 + (kept mn mx lists).length)).map
      fun j => (j, obj j)).lookup x = some (obj x) := by
    intro q hqm hle x hx
    refine lookup_map obj x _ (List.mem_filter.2 ⟨(hs2 x).2 ⟨q, hqm, hx⟩, ?_⟩)
    simpa using hq1 q hqm hle x hx
  obtain ⟨as, ha, hf⟩ := answerAll_ok (m := ((setIndexes queries).filter (· < 0 + (kept mn mx lists).length)).map
      fun j => (j, obj j)) (f := obj) (inter := fun i ts => fastIntersect lg (ts.map fun t => t.nav pad) runs parallel (env i))
    (P := fun q R => P (q.map fun i => L.getD i []) R) queries 0 hlook (fun q hqm hle j => by
      rw [List.map_map]
      refine hI _ _ j (forall2_map q fun x hx => (hk x (hq1 q hqm hle x hx)).2.2) (fun S hS => ?_) ?_ ?_
      · obtain ⟨x, hx, rfl⟩ := List.mem_map.1 hS
        have := hq1 q hqm hle x hx
        rw [List.getD_eq_getElem?_getD, List.getElem?_eq_getElem (hlen ▸ this)]
        exact List.getElem_mem _
      · simpa using hq0 q hqm
      · simpa using hle)
  refine ⟨fastFileHeader rank runs levelwise (2 ^ lg) ++ (leBytes 4 (kept mn mx lists).length ++ (leBytes 4 one ++
    (leBytes 4 u ++ (List.range' 0 (kept mn mx lists).length).flatMap part))), as, ?_, ?_, hf⟩
  · rw [buildFast, (wordLg_pow hlg).1]
    simp only
    rw [buildFile_lists hone hu' hl hx hn, makeAll_ok (part := part) _ 0 (fun j h => by rw [Nat.zero_add]; exact (hk j h).1)]
    simp only [R_bind_ok, List.append_assoc]
  · rw [queryFast, readFastFileHeader_ok hr hr1 (wordLg_pow hlg).2.2, R_bind_ok]
    simp only [(wordLg_pow hlg).2.1, loadTriesFast]
    rw [readLE_leBytes 4 _ _ (by omega), R_bind_ok]
    simp only
    rw [readLE_leBytes 4 one _ (by omega), R_bind_ok]
    simp only
    rw [readLE_leBytes 4 u _ (by omega), R_bind_ok]
    simp only
    rw [hload, R_bind_ok]
    exact ha

end CBT
