import Verif.Proof.ToolsFast
import Verif.Proof.ToolsTries

/-!
# The front part of a file of tries
-/

namespace CBT

open Spec

theorem kept_append (mn mx : Nat) (a b : List (List Nat)) : kept mn mx (a ++ b) = kept mn mx a ++ kept mn mx b := List.filter_append ..

/-- The file made of the first lists, given the tries made of all. -/
theorem buildFile_front {mn mx : Nat} {hdr : Bytes} {make : Nat → Nat → List Nat → R Bytes} {one u : Nat} {front back : List (List Nat)}
    (h1 : one < 2 ^ 32) (hu : u < 2 ^ 32) (hl : ∀ l ∈ front ++ back, l.length < 2 ^ 30)
    (hx : ∀ l ∈ kept mn mx (front ++ back), ∀ x ∈ l, x < 2 ^ 32) (hn : (kept mn mx (front ++ back)).length < 2 ^ 32) {part : Nat → Bytes}
    (hm : ∀ j (h : j < (kept mn mx (front ++ back)).length), make u j (kept mn mx (front ++ back))[j] = .ok (part j)) :
    buildFile mn mx hdr make (collectionBytes one u front) = .ok (hdr ++ (leBytes 4 (kept mn mx front).length ++ (leBytes 4 one ++
      (leBytes 4 u ++ (List.range' 0 (kept mn mx front).length).flatMap part)))) := by
  rw [kept_append] at hn hx
  have hn' : (kept mn mx front).length < 2 ^ 32 := by rw [List.length_append] at hn; omega
  rw [buildFile_lists h1 hu (fun l h => hl l (List.mem_append_left _ h)) (fun l h => hx l (List.mem_append_left _ h)) hn',
    makeAll_ok (part := part) _ 0 (fun j h => by
      have h' : j < (kept mn mx (front ++ back)).length := by rw [kept_append, List.length_append]; omega
      have := hm j h'
      simp only [kept_append] at this
      rw [List.getElem_append_left h] at this
      rw [Nat.zero_add, this])]
  simp only [R_bind_ok, List.append_assoc]

/-- As much of a file as the file of the first lists is long: the header, the counts and the tries of these lists. -/
theorem take_front {hdr : Bytes} {n m one u : Nat} {part : Nat → Bytes} (h : m ≤ n) :
    (hdr ++ (leBytes 4 n ++ (leBytes 4 one ++ (leBytes 4 u ++ (List.range' 0 n).flatMap part)))).take
        (hdr ++ (leBytes 4 m ++ (leBytes 4 one ++ (leBytes 4 u ++ (List.range' 0 m).flatMap part)))).length =
      hdr ++ (leBytes 4 n ++ (leBytes 4 one ++ (leBytes 4 u ++ (List.range' 0 m).flatMap part))) := by
  obtain ⟨k, rfl⟩ := Nat.exists_eq_add_of_le h
  have e : List.range' 0 (m + k) = List.range' 0 m ++ List.range' m k := by
    have := List.range'_append_1 (s := 0) (m := m) (n := k)
    rw [Nat.zero_add] at this
    exact this.symm
  rw [e, List.flatMap_append]
  have e2 : (hdr ++ (leBytes 4 m ++ (leBytes 4 one ++ (leBytes 4 u ++ (List.range' 0 m).flatMap part)))).length =
      (hdr ++ (leBytes 4 (m + k) ++ (leBytes 4 one ++ (leBytes 4 u ++ (List.range' 0 m).flatMap part)))).length := by
    simp only [List.length_append, length_leBytes]
  rw [e2]
  have e3 : hdr ++ (leBytes 4 (m + k) ++ (leBytes 4 one ++ (leBytes 4 u ++ ((List.range' 0 m).flatMap part ++ (List.range' m k).flatMap part)))) =
      (hdr ++ (leBytes 4 (m + k) ++ (leBytes 4 one ++ (leBytes 4 u ++ (List.range' 0 m).flatMap part)))) ++ (List.range' m k).flatMap part := by
    simp only [List.append_assoc]
  rw [e3, List.take_left]

/-- Loading stops behind the last trie that is asked for. -/
theorem loadLoop_front {T : Type} {load : Nat → Bytes → R (T × Bytes)} {part : Nat → Bytes} {obj : Nat → T} :
    (m i : Nat) → (ids : List Nat) → (∀ j, i ≤ j → j < i + m → ∀ rest, load j (part j ++ rest) = .ok (obj j, rest)) →
    ids ≠ [] → ids.Pairwise (· < ·) → (∀ j ∈ ids, i ≤ j ∧ j < i + m) → (n : Nat) → m ≤ n → (rest : Bytes) →
    loadLoop load n i ids ((List.range' i m).flatMap part ++ rest) = .ok (ids.map fun j => (j, obj j))
  | 0, i, ids, _, hne, _, hge, n, _, rest => by
    obtain ⟨x, hx⟩ := List.exists_mem_of_ne_nil _ hne
    have := hge x hx
    omega
  | m + 1, i, ids, hl, hne, hp, hge, n, hn, rest => by
    obtain ⟨n, rfl⟩ : ∃ n', n = n' + 1 := ⟨n - 1, by omega⟩
    rw [List.range'_succ, List.flatMap_cons, List.append_assoc, loadLoop, hl i (Nat.le_refl _) (by omega), R_bind_ok]
    cases ids with
    | nil => exact absurd rfl hne
    | cons id ids' =>
      rw [List.pairwise_cons] at hp
      simp only
      have hid := hge id (by simp)
      by_cases hi : i = id
      · subst hi
        rw [if_pos rfl]
        by_cases h' : ids' = []
        · subst h'
          rw [if_pos rfl]
          simp
        · rw [if_neg h', loadLoop_front m (i + 1) ids' (fun j h1 h2 => hl j (by omega) (by omega)) h' hp.2
            (fun j hj => ⟨hp.1 j hj, by have := (hge j (List.mem_cons_of_mem _ hj)).2; omega⟩) n (by omega) rest, R_bind_ok, List.map_cons]
      · rw [if_neg hi, loadLoop_front m (i + 1) (id :: ids') (fun j h1 h2 => hl j (by omega) (by omega)) (by simp)
          (List.pairwise_cons.2 hp) (fun j hj => by
            have := (hge j hj).2
            rcases List.mem_cons.1 hj with rfl | hj
            · omega
            · have := hp.1 j hj; omega) n (by omega) rest]

/-- What `build_fastTries` writes for all lists and for the first ones. -/
theorem buildFast_front (B : BvIO) (K : Nat → RankIO) {lg : Nat} (hlg : 3 ≤ lg ∧ lg ≤ 6) (pad : Nat) (junk : Nat → FastJunk)
    (hj : ∀ i, (junk i).heightWithRuns < 2 ^ 16) {mn mx rank : Nat} (runs levelwise : Bool)
    {one u : Nat} (hone : one < 2 ^ 32) (hu : 2 ^ (lg - 1) < u) (hu' : u < 2 ^ 32) {front back : List (List Nat)}
    (hl : ∀ l ∈ front ++ back, l.length < 2 ^ 30) (hv : ∀ l ∈ kept mn mx (front ++ back), ValidSet l u)
    (hn : (kept mn mx (front ++ back)).length < 2 ^ 32) :
    ∃ (part : Nat → Bytes) (obj : Nat → FastObj (K (if rank = 0 then 0 else 2))),
      buildFast B K pad junk mn mx rank runs levelwise (2 ^ lg) (collectionBytes one u (front ++ back)) =
        .ok (some (fastFileHeader rank runs levelwise (2 ^ lg) ++ (leBytes 4 (kept mn mx (front ++ back)).length ++ (leBytes 4 one ++
          (leBytes 4 u ++ (List.range' 0 (kept mn mx (front ++ back)).length).flatMap part))))) ∧
      buildFast B K pad junk mn mx rank runs levelwise (2 ^ lg) (collectionBytes one u front) =
        .ok (some (fastFileHeader rank runs levelwise (2 ^ lg) ++ (leBytes 4 (kept mn mx front).length ++ (leBytes 4 one ++
          (leBytes 4 u ++ (List.range' 0 (kept mn mx front).length).flatMap part))))) ∧
      ∀ j, j < (kept mn mx (front ++ back)).length → ∀ t0 : FastTrie, t0.lastLevel = [] → ∀ rest,
        fastLoad B (K (if rank = 0 then 0 else 2)) lg t0 (part j ++ rest) = .ok (obj j, rest) := by
  have hx : ∀ l ∈ kept mn mx (front ++ back), ∀ x ∈ l, x < 2 ^ 32 := fun l h x hx => by have := (hv l h).below x hx; omega
  have key : ∀ j, ∃ (b : Bytes) (o : FastObj (K (if rank = 0 then 0 else 2))), ∀ h : j < (kept mn mx (front ++ back)).length,
      makeFast B (K (if rank = 0 then 0 else 2)) lg pad junk runs u j (kept mn mx (front ++ back))[j] = .ok b ∧
      (∀ t0 : FastTrie, t0.lastLevel = [] → ∀ rest, fastLoad B (K (if rank = 0 then 0 else 2)) lg t0 (b ++ rest) = .ok (o, rest)) := by
    intro j
    by_cases h : j < (kept mn mx (front ++ back)).length
    · have hm := List.getElem_mem h
      have hll : (kept mn mx (front ++ back))[j].length < 2 ^ 30 := hl _ (List.mem_of_mem_filter hm)
      obtain ⟨b, o, e1, e2, -⟩ := fast_saved B (K (if rank = 0 then 0 else 2)) hlg (hv _ hm) (by omega) hu (by omega) junk j (hj j)
        pad runs
      exact ⟨b, o, fun _ => ⟨e1, e2⟩⟩
    · exact ⟨[], ⟨⟨0, 0, 0, false, false, [], []⟩, (K _).of []⟩, fun h' => absurd h' h⟩
  choose part obj hk using key
  have hall := buildFile_front (hdr := fastFileHeader rank runs levelwise (2 ^ lg)) (mn := mn) (mx := mx) (front := front ++ back) (back := [])
    (make := makeFast B (K (if rank = 0 then 0 else 2)) lg pad junk runs) (part := part) hone hu' (by simpa using hl) (by simpa using hx)
    (by simpa using hn) (fun j h => by simp only [List.append_nil]; exact (hk j (by simpa using h)).1)
  have hfront := buildFile_front (hdr := fastFileHeader rank runs levelwise (2 ^ lg)) (mn := mn) (mx := mx) (front := front) (back := back)
    (make := makeFast B (K (if rank = 0 then 0 else 2)) lg pad junk runs) (part := part) hone hu' hl hx hn (fun j h => (hk j h).1)
  refine ⟨part, obj, ?_, ?_, fun j hj => (hk j hj).2⟩
  · rw [buildFast, (wordLg_pow hlg).1]
    simp only [hall, R_bind_ok]
  · rw [buildFast, (wordLg_pow hlg).1]
    simp only [hfront, R_bind_ok]

/-- The same for `build_tries`. -/
theorem buildTries_front (F : Formats) (pad : Nat) {mn mx rank block : Nat} {runs levelwise : Bool} (hs : Supported rank block levelwise)
    {one u : Nat} (hone : one < 2 ^ 32) (hu : 3 ≤ u) (hu' : u < 2 ^ 32) {front back : List (List Nat)}
    (hl : ∀ l ∈ front ++ back, l.length < 2 ^ 30) (hv : ∀ l ∈ kept mn mx (front ++ back), ValidSet l u)
    (hn : (kept mn mx (front ++ back)).length < 2 ^ 32) :
    ∃ (part : Nat → Bytes) (nav : Nat → Nav),
      buildTries F pad true mn mx rank block runs levelwise (collectionBytes one u (front ++ back)) =
        .ok (triesFileHeader rank block runs levelwise ++ (leBytes 4 (kept mn mx (front ++ back)).length ++ (leBytes 4 one ++
          (leBytes 4 u ++ (List.range' 0 (kept mn mx (front ++ back)).length).flatMap part)))) ∧
      buildTries F pad true mn mx rank block runs levelwise (collectionBytes one u front) =
        .ok (triesFileHeader rank block runs levelwise ++ (leBytes 4 (kept mn mx front).length ++ (leBytes 4 one ++
          (leBytes 4 u ++ (List.range' 0 (kept mn mx front).length).flatMap part)))) ∧
      ∀ j, j < (kept mn mx (front ++ back)).length → ∀ rest,
        loadTrie F pad ⟨rank, if rank = 1 then block else 512, runs, levelwise⟩ (part j ++ rest) = .ok (nav j, rest) := by
  have hx : ∀ l ∈ kept mn mx (front ++ back), ∀ x ∈ l, x < 2 ^ 32 := fun l h x hx => by have := (hv l h).below x hx; omega
  have key : ∀ j, ∃ (b : Bytes) (n : Nav), ∀ h : j < (kept mn mx (front ++ back)).length,
      makeTrie F pad true rank block runs levelwise u j (kept mn mx (front ++ back))[j] = .ok b ∧
      ∀ rest, loadTrie F pad ⟨rank, if rank = 1 then block else 512, runs, levelwise⟩ (b ++ rest) = .ok (n, rest) := by
    intro j
    by_cases h : j < (kept mn mx (front ++ back)).length
    · have hm := List.getElem_mem h
      have hll : (kept mn mx (front ++ back))[j].length < 2 ^ 30 := hl _ (List.mem_of_mem_filter hm)
      obtain ⟨b, n, e1, e2⟩ := trie_saved F hs (runs := runs) (hv _ hm) (by omega) hu (by omega) pad j
      exact ⟨b, n, fun _ => ⟨e1, e2.loads⟩⟩
    · exact ⟨[], ⟨0, fun _ _ => .ok 0, fun _ _ => .ok 0, fun _ _ => .ok 0⟩, fun h' => absurd h' h⟩
  choose part nav hk using key
  have hall := buildFile_front (hdr := triesFileHeader rank block runs levelwise) (mn := mn) (mx := mx) (front := front ++ back) (back := [])
    (make := makeTrie F pad true rank block runs levelwise) (part := part) hone hu' (by simpa using hl) (by simpa using hx)
    (by simpa using hn) (fun j h => by simp only [List.append_nil]; exact (hk j (by simpa using h)).1)
  exact ⟨part, nav, hall, buildFile_front hone hu' hl hx hn (fun j h => (hk j h).1), fun j hj => (hk j hj).2⟩

/-- No trie is loaded from nothing. -/
theorem loadTrie_nil (F : Formats) (pad : Nat) {rank block : Nat} {runs levelwise : Bool} (hs : Supported rank block levelwise) :
    loadTrie F pad ⟨rank, if rank = 1 then block else 512, runs, levelwise⟩ [] = .error .eof := by
  by_cases h1 : rank = 1
  · subst h1
    obtain ⟨rfl, hb⟩ := hs.resolve_left (by simp)
    simp only [loadTrie, if_true, Bool.false_eq_true, if_false, hb]
    rfl
  · cases levelwise
    · simp only [loadTrie, h1, Bool.false_eq_true, if_false]
      rfl
    · simp only [loadTrie, h1, if_true, if_false]
      rfl

theorem readMany_short {α : Type} {read : Bytes → R (α × Bytes)} {part : Nat → Bytes} {obj : Nat → α} (h0 : read [] = .error .eof) :
    (m i n : Nat) → (∀ j, i ≤ j → j < i + m → ∀ rest, read (part j ++ rest) = .ok (obj j, rest)) → m < n →
    readMany read n ((List.range' i m).flatMap part) = .error .eof
  | 0, i, n + 1, _, _ => by
    rw [readMany, List.range'_zero, List.flatMap_nil, h0]
    rfl
  | m + 1, i, n + 1, h, hn => by
    rw [readMany, List.range'_succ, List.flatMap_cons, h i (by omega) (by omega), R_bind_ok]
    simp only
    rw [readMany_short h0 m (i + 1) n (fun j h1 h2 => h j (by omega) (by omega)) (by omega)]
    rfl

end CBT
