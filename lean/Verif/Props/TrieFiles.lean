import Verif.Proof.TrieFiles
import Verif.Props.Tools

/-!
# C85: which part of a file of tries matters
-/

namespace CBT

open Spec

/-- C85, `intersection_querylog_fastTrie`: whatever is behind the tries of the first lists — nothing, tries of more lists, or any other
bytes — and whatever number of tries the file announces, queries about the first lists get the same answers, the same undefined behaviour
included. -/
theorem C85_fast (B : BvIO) (K : Nat → RankIO) {lg : Nat} (hlg : 3 ≤ lg ∧ lg ≤ 6) (pad : Nat) (junk junk' : Nat → FastJunk)
    (hj : ∀ i, (junk i).heightWithRuns < 2 ^ 16) {mn mx rank : Nat} (hr : rank < 2 ^ 32) (hr1 : rank ≠ 1) (runs levelwise : Bool)
    {one u : Nat} (hone : one < 2 ^ 32) (hu : 2 ^ (lg - 1) < u) (hu' : u < 2 ^ 32) {front back : List (List Nat)}
    (hl : ∀ l ∈ front ++ back, l.length < 2 ^ 30) (hv : ∀ l ∈ kept mn mx (front ++ back), ValidSet l u)
    (hn : (kept mn mx (front ++ back)).length < 2 ^ 32) (parallel : Bool) (env : Nat → Env)
    {queries : List (List Nat)} (hq0 : ∃ q ∈ queries, q ≠ []) (hq1 : ∀ q ∈ queries, ∀ i ∈ q, i < (kept mn mx front).length) :
    ∃ f f₁ o, buildFast B K pad junk mn mx rank runs levelwise (2 ^ lg) (collectionBytes one u (front ++ back)) = .ok (some f) ∧
      buildFast B K pad junk mn mx rank runs levelwise (2 ^ lg) (collectionBytes one u front) = .ok (some f₁) ∧
      (∀ tail, queryFast B K pad junk' parallel env queries (f.take f₁.length ++ tail) = o) ∧
      (∀ tail, queryFast B K pad junk' parallel env queries (f ++ tail) = o) ∧
      (∀ tail, queryFast B K pad junk' parallel env queries (f₁ ++ tail) = o) := by
  obtain ⟨part, obj, hb, hb1, hp⟩ := buildFast_front B K (rank := rank) hlg pad junk hj runs levelwise hone hu hu' hl hv hn
  obtain ⟨hs1, hs2⟩ := setIndexes_spec queries
  have hle : (kept mn mx front).length ≤ (kept mn mx (front ++ back)).length := by rw [kept_append, List.length_append]; omega
  have hsne : setIndexes queries ≠ [] := by
    obtain ⟨q, hqm, hq⟩ := hq0
    obtain ⟨x, hx⟩ := List.exists_mem_of_ne_nil _ hq
    exact List.ne_nil_of_mem ((hs2 x).2 ⟨q, hqm, hx⟩)
  have hload := fun n hn rest => loadLoop_front (load := fun i s => fastLoad B (K (if rank = 0 then 0 else 2)) lg (fastDefault (junk' i)) s)
    (part := part) (obj := obj) (kept mn mx front).length 0 (setIndexes queries)
    (fun j _ hj2 rest => hp j (by omega) _ rfl rest) hsne hs1
    (fun j hj => ⟨Nat.zero_le _, by obtain ⟨q, h1, h2⟩ := (hs2 j).1 hj; have := hq1 q h1 j h2; omega⟩) n hn rest
  have main : ∀ n tail, (kept mn mx front).length ≤ n → n < 2 ^ 32 → queryFast B K pad junk' parallel env queries
      (fastFileHeader rank runs levelwise (2 ^ lg) ++ (leBytes 4 n ++ (leBytes 4 one ++
          (leBytes 4 u ++ ((List.range' 0 (kept mn mx front).length).flatMap part ++ tail))))) =
      answerAll ((setIndexes queries).map fun j => (j, obj j))
        (fun i ts => fastIntersect lg (ts.map fun t => t.nav pad) runs parallel (env i)) 0 queries := by
    intro n tail h1 h2
    rw [queryFast, readFastFileHeader_ok hr hr1 (wordLg_pow hlg).2.2, R_bind_ok]
    simp only [(wordLg_pow hlg).2.1, loadTriesFast]
    rw [readLE_leBytes 4 _ _ (by omega), R_bind_ok]
    simp only
    rw [readLE_leBytes 4 one _ (by omega), R_bind_ok]
    simp only
    rw [readLE_leBytes 4 u _ (by omega), R_bind_ok]
    simp only
    rw [hload n h1 tail, R_bind_ok]
  refine ⟨_, _, answerAll ((setIndexes queries).map fun j => (j, obj j))
    (fun i ts => fastIntersect lg (ts.map fun t => t.nav pad) runs parallel (env i)) 0 queries, hb, hb1, fun tail => ?_, fun tail => ?_, fun tail => ?_⟩
  · rw [take_front hle]
    simp only [List.append_assoc]
    exact main _ tail hle hn
  · obtain ⟨k, hk⟩ := Nat.exists_eq_add_of_le hle
    have e := List.range'_append_1 (s := 0) (m := (kept mn mx front).length) (n := k)
    rw [Nat.zero_add, ← hk] at e
    rw [← e, List.flatMap_append]
    simp only [List.append_assoc]
    exact main _ _ hle hn
  · simp only [List.append_assoc]
    exact main _ tail (Nat.le_refl _) (by omega)

/-- Of the collection of the examples the first two kept lists are asked for; the trie of the third, cut off or overwritten, does not matter. -/
example : kept 1 100 (Ex.coll.take 3) = [[3, 4, 17, 31], [0, 3, 17, 31, 60]] ∧ Ex.coll = Ex.coll.take 3 ++ Ex.coll.drop 3 ∧
    (buildFast Ex.bvIO (fun _ => Ex.rankIO) 0 (fun _ => Ex.junk) 1 100 0 true false 8 (collectionBytes 1 64 Ex.coll) >>= fun f =>
      buildFast Ex.bvIO (fun _ => Ex.rankIO) 0 (fun _ => Ex.junk) 1 100 0 true false 8 (collectionBytes 1 64 (Ex.coll.take 3)) >>= fun f₁ =>
      queryFast Ex.bvIO (fun _ => Ex.rankIO) 0 (fun _ => Ex.junk) false (fun _ => ⟨8, [], []⟩) [[1, 0], [1]]
        ((f.getD []).take (f₁.getD []).length ++ [255, 255])) = .ok [some [3, 17, 31], some [0, 3, 17, 31, 60]] := by
  decide +kernel

/-- C85, `intersection_query_log`: what is behind the tries of a file does not matter. -/
theorem C85_tries (F : Formats) (pad : Nat) {mn mx rank block : Nat} {runs levelwise : Bool} (hr : rank < 2 ^ 32)
    (hb : block < 2 ^ 32) (hs : Supported rank block levelwise)
    {one u : Nat} (hone : one < 2 ^ 32) (hu : 3 ≤ u) (hu' : u < 2 ^ 32) {lists : List (List Nat)}
    (hl : ∀ l ∈ lists, l.length < 2 ^ 30) (hv : ∀ l ∈ kept mn mx lists, ValidSet l u)
    (hn : (kept mn mx lists).length < 2 ^ 32) (parallel : Bool) (env : Nat → Env) (queries : List (List Nat)) :
    ∃ f, buildTries F pad true mn mx rank block runs levelwise (collectionBytes one u lists) = .ok f ∧
      ∀ tail, queryLog F pad parallel env queries (f ++ tail) = queryLog F pad parallel env queries f := by
  obtain ⟨part, nav, h1, -, h3⟩ := buildTries_front F pad (front := lists) (back := []) (runs := runs) hs hone hu hu' (by simpa using hl)
    (by simpa using hv) (by simpa using hn)
  simp only [List.append_nil] at h1 h3
  have main : ∀ tail, queryLog F pad parallel env queries (triesFileHeader rank block runs levelwise ++
      (leBytes 4 (kept mn mx lists).length ++ (leBytes 4 one ++
          (leBytes 4 u ++ ((List.range' 0 (kept mn mx lists).length).flatMap part ++ tail))))) =
      answerLog ((List.range' 0 (kept mn mx lists).length).map nav) (fun i ts => intersect ts runs parallel (env i)) 0 queries := by
    intro tail
    have hmany := readMany_flatMap (read := loadTrie F pad ⟨rank, if rank = 1 then block else 512, runs, levelwise⟩) (write := part)
      (f := nav) (List.range' 0 (kept mn mx lists).length) tail (fun x hx rest => h3 x (by rw [List.mem_range'_1] at hx; omega) rest)
    rw [List.length_range'] at hmany
    rw [queryLog, readTriesFileHeader_ok hr hb, R_bind_ok]
    simp only [loadSequences]
    rw [readLE_leBytes 4 _ _ (by omega), R_bind_ok]
    simp only
    rw [readLE_leBytes 4 one _ (by omega), R_bind_ok]
    simp only
    rw [readLE_leBytes 4 u _ (by omega), R_bind_ok]
    simp only
    rw [hmany]
    rfl
  refine ⟨_, h1, fun tail => ?_⟩
  have := main []
  rw [List.append_nil] at this
  rw [this]
  simp only [List.append_assoc]
  exact main tail

example : (buildTries Ex.formats 0 true 1 100 0 0 false false (collectionBytes 1 64 Ex.coll) >>= fun f =>
      queryLog Ex.formats 0 false (fun _ => ⟨8, [], []⟩) [[2, 0]] (f ++ [255, 255])) = .ok [some [3, 4, 31]] := by decide +kernel

/-- C85 is false of `intersection_query_log` when tries are missing: cut behind the tries of the first lists, the file is not answered
from, whatever is asked, even if nothing is; values that were not read are used. -/
theorem C85_tries_cut_negation (F : Formats) (pad : Nat) {mn mx rank block : Nat} {runs levelwise : Bool} (hr : rank < 2 ^ 32)
    (hb : block < 2 ^ 32) (hs : Supported rank block levelwise)
    {one u : Nat} (hone : one < 2 ^ 32) (hu : 3 ≤ u) (hu' : u < 2 ^ 32) {front back : List (List Nat)}
    (hl : ∀ l ∈ front ++ back, l.length < 2 ^ 30) (hv : ∀ l ∈ kept mn mx (front ++ back), ValidSet l u)
    (hn : (kept mn mx (front ++ back)).length < 2 ^ 32) (hk : kept mn mx back ≠ []) (parallel : Bool) (env : Nat → Env)
    (queries : List (List Nat)) :
    ∃ f f₁, buildTries F pad true mn mx rank block runs levelwise (collectionBytes one u (front ++ back)) = .ok f ∧
      buildTries F pad true mn mx rank block runs levelwise (collectionBytes one u front) = .ok f₁ ∧
      queryLog F pad parallel env queries (f.take f₁.length) = .error .eof := by
  obtain ⟨part, nav, h1, h2, h3⟩ := buildTries_front F pad (runs := runs) hs hone hu hu' hl hv hn
  have hlt : (kept mn mx front).length < (kept mn mx (front ++ back)).length := by
    have := List.length_pos_iff.2 hk
    rw [kept_append, List.length_append]; omega
  refine ⟨_, _, h1, h2, ?_⟩
  rw [take_front (Nat.le_of_lt hlt), queryLog, readTriesFileHeader_ok hr hb, R_bind_ok]
  simp only [loadSequences]
  rw [readLE_leBytes 4 _ _ (by omega), R_bind_ok]
  simp only
  rw [readLE_leBytes 4 one _ (by omega), R_bind_ok]
  simp only
  rw [readLE_leBytes 4 u _ (by omega), R_bind_ok]
  simp only
  rw [readMany_short (loadTrie_nil F pad hs) _ 0 _ (fun j _ h rest => h3 j (by omega) rest) hlt]
  rfl

/-- The cut file of the examples; the trie that is missing is not asked for. -/
example : kept 1 100 (Ex.coll.drop 3) ≠ [] ∧
    (buildTries Ex.formats 0 true 1 100 0 0 false false (collectionBytes 1 64 Ex.coll) >>= fun f =>
      buildTries Ex.formats 0 true 1 100 0 0 false false (collectionBytes 1 64 (Ex.coll.take 3)) >>= fun f₁ =>
      queryLog Ex.formats 0 false (fun _ => ⟨8, [], []⟩) [[1, 0]] (f.take f₁.length)) = .error .eof := by decide +kernel

end CBT
