import Verif.Proof.ToolsTries
import Verif.Props.Intersect
import Verif.Props.Parallel

/-!
# C34, C35, C36, C43: the tools
-/

namespace CBT

open Spec

namespace Ex

def formats : Formats := ⟨bvIO, fun _ => bvIO, rankIO, rankIO, fun _ => rankIO⟩

/-- Five lists over a universe of 64; the empty one and the single `9` are not kept with `min_size` 1. -/
def coll : List (List Nat) := [[3, 4, 17, 31], [], [0, 3, 17, 31, 60], [9], [0, 1, 2, 3, 4, 5, 6, 7, 8, 9, 10, 11, 12, 13, 14, 15, 31]]

theorem coll_valid : ∀ l ∈ kept 1 100 coll, ValidSet l 64 := by decide +kernel

end Ex

/-! ## C34: what the builders write -/

/-- C34, `build_fastTries`. On every well-formed collection the builder succeeds exactly if every trie of a kept list can be
built; the file then is the header, the number of kept lists, the two numbers of the collection, and the tries of the kept
lists, all of them and in order. No trie is ever built from an empty list. -/
theorem C34_fast (B : BvIO) (K : Nat → RankIO) (pad : Nat) (junk : Nat → FastJunk) {mn mx rank lg : Nat} (hlg : 3 ≤ lg ∧ lg ≤ 6)
    (runs levelwise : Bool) {one u : Nat} (hone : one < 2 ^ 32) (hu : u < 2 ^ 32) {lists : List (List Nat)}
    (hl : ∀ l ∈ lists, l.length < 2 ^ 30) (hx : ∀ l ∈ lists, ∀ x ∈ l, x < 2 ^ 32) (hn : (kept mn mx lists).length < 2 ^ 32) :
    (∀ l ∈ kept mn mx lists, l ≠ []) ∧
    (∀ f, buildFast B K pad junk mn mx rank runs levelwise (2 ^ lg) (collectionBytes one u lists) = .ok (some f) ↔
      ∃ parts : List Bytes, parts.length = (kept mn mx lists).length ∧
        (∀ j (h : j < (kept mn mx lists).length) (h' : j < parts.length),
          makeFast B (K (if rank = 0 then 0 else 2)) lg pad junk runs u j (kept mn mx lists)[j] = .ok parts[j]) ∧
        f = fastFileHeader rank runs levelwise (2 ^ lg) ++ leBytes 4 (kept mn mx lists).length ++ leBytes 4 one ++ leBytes 4 u ++
          parts.flatten) := by
  refine ⟨kept_ne_nil, fun f => ?_⟩
  rw [← buildFile_iff hone hu hl hx hn, buildFast, (wordLg_pow hlg).1]
  constructor
  · intro h
    simp only at h
    obtain ⟨f', h', e⟩ := bind_ok h
    injection e with e; injection e with e; rw [← e]; exact h'
  · intro h
    simp only [h, R_bind_ok]

example : kept 1 100 Ex.coll = [[3, 4, 17, 31], [0, 3, 17, 31, 60], [0, 1, 2, 3, 4, 5, 6, 7, 8, 9, 10, 11, 12, 13, 14, 15, 31]] ∧
    (buildFast Ex.bvIO (fun _ => Ex.rankIO) 0 (fun _ => Ex.junk) 1 100 0 true false 8 (collectionBytes 1 64 Ex.coll)).map
      (fun f => f.map fun f => f.take 20) = .ok (some [0, 0, 0, 0, 1, 0, 8, 0, 3, 0, 0, 0, 1, 0, 0, 0, 64, 0, 0, 0]) := by
  decide +kernel

/-- C34, `build_tries`. -/
theorem C34_tries (F : Formats) (pad : Nat) (ltr : Bool) {mn mx rank block : Nat} (runs levelwise : Bool) {one u : Nat}
    (hone : one < 2 ^ 32) (hu : u < 2 ^ 32) {lists : List (List Nat)} (hl : ∀ l ∈ lists, l.length < 2 ^ 30)
    (hx : ∀ l ∈ lists, ∀ x ∈ l, x < 2 ^ 32) (hn : (kept mn mx lists).length < 2 ^ 32) :
    (∀ l ∈ kept mn mx lists, l ≠ []) ∧
    (∀ f, buildTries F pad ltr mn mx rank block runs levelwise (collectionBytes one u lists) = .ok f ↔
      ∃ parts : List Bytes, parts.length = (kept mn mx lists).length ∧
        (∀ j (h : j < (kept mn mx lists).length) (h' : j < parts.length),
          makeTrie F pad ltr rank block runs levelwise u j (kept mn mx lists)[j] = .ok parts[j]) ∧
        f = triesFileHeader rank block runs levelwise ++ leBytes 4 (kept mn mx lists).length ++ leBytes 4 one ++ leBytes 4 u ++
          parts.flatten) :=
  ⟨kept_ne_nil, fun f => buildFile_iff hone hu hl hx hn f⟩

example : (buildTries Ex.formats 0 true 1 100 1 256 false false (collectionBytes 1 64 Ex.coll)).map (fun f => f.take 22) =
    .ok [1, 0, 0, 0, 0, 1, 0, 0, 0, 0, 3, 0, 0, 0, 1, 0, 0, 0, 64, 0, 0, 0] := by decide +kernel

/-- C34, `build_tries`: what stands in the file for one list, for each choice of the options. It is the trie the constructor makes of the
list, run-encoded if asked for, and written with the rank support chosen: 0 is `rank_support_v`, 1 is `bit_vector_il` with the block size
(64 if it is none of 128, 256 and 512), everything else is `rank_support_v5`. -/
theorem C34_tries_parts (F : Formats) (pad : Nat) (ltr runs : Bool) (rank block u i : Nat) (l : List Nat) (f : Bytes) :
    (makeTrie F pad ltr rank block runs false u i l = .ok f ↔
      ∃ t t', flatCtor l u = .ok t ∧ (if runs then t.encodeRuns pad = .ok t' else t' = t) ∧
        f = (if rank = 0 then (t'.serialize F.bv F.bv F.v ltr).1
          else if rank = 1 then
            (if block = 128 then (t'.serialize (F.il 128) F.bv (F.rankIl 128) ltr).1
            else if block = 256 then (t'.serialize (F.il 256) F.bv (F.rankIl 256) ltr).1
            else if block = 512 then (t'.serialize (F.il 512) F.bv (F.rankIl 512) ltr).1
            else (t'.serialize (F.il 64) F.bv (F.rankIl 64) ltr).1)
          else (t'.serialize F.bv F.bv F.v5 ltr).1)) ∧
    (makeTrie F pad ltr rank block runs true u i l = .ok f ↔
      ∃ t t', levelCtor l u = .ok t ∧ (if runs then t.encodeRuns (decide (rank = 1)) pad = .ok t' else t' = t) ∧
        (if rank = 0 then f = (t'.serialize F.bv F.v).1
          else if rank = 1 then t'.serializeIl.map Prod.fst = .ok f
          else f = (t'.serialize F.bv F.v5).1)) := by
  have hb : ∀ {α β : Type} {x : R α} {g : α → R β} {y : β}, (x >>= g) = .ok y ↔ ∃ a, x = .ok a ∧ g a = .ok y :=
    fun {_ _ x _ _} => ⟨fun h => by obtain ⟨a, h1, h2⟩ := bind_ok h; exact ⟨a, h1, h2⟩, fun ⟨a, h1, h2⟩ => by rw [h1]; exact h2⟩
  have h1 : ∀ (B L : BvIO) (K : RankIO), makeFlat B L K pad ltr runs u l = .ok f ↔
      ∃ t t', flatCtor l u = .ok t ∧ (if runs then t.encodeRuns pad = .ok t' else t' = t) ∧ f = (t'.serialize B L K ltr).1 := by
    intro B L K
    rw [makeFlat, hb]
    refine exists_congr fun t => ?_
    cases runs
    · simp [R_bind_ok, eq_comm]
    · simp [hb, eq_comm]
  have h2 : ∀ (K : RankIO), makeLevel F.bv K pad runs u l = .ok f ↔
      ∃ t t', levelCtor l u = .ok t ∧ (if runs then t.encodeRuns false pad = .ok t' else t' = t) ∧ f = (t'.serialize F.bv K).1 := by
    intro K
    rw [makeLevel, hb]
    refine exists_congr fun t => ?_
    cases runs
    · simp [R_bind_ok, eq_comm]
    · simp [hb, eq_comm]
  have h3 : makeLevelIl pad runs u l = .ok f ↔
      ∃ t t', levelCtor l u = .ok t ∧ (if runs then t.encodeRuns true pad = .ok t' else t' = t) ∧ t'.serializeIl.map Prod.fst = .ok f := by
    have hm : ∀ (x : R (Bytes × Nat)), (∃ a, x = .ok a ∧ a.1 = f) ↔ x.map Prod.fst = .ok f := by
      intro x
      cases x <;> simp [Except.map]
    rw [makeLevelIl, hb]
    refine exists_congr fun t => ?_
    cases runs
    · simp [R_bind_ok, hb, ← hm]
    · simp [hb, ← hm]
  constructor
  · by_cases r0 : rank = 0
    · subst r0
      simpa [makeTrie, Formats.rank] using h1 F.bv F.bv F.v
    · by_cases r1 : rank = 1
      · subst r1
        by_cases b1 : block = 128
        · subst b1
          simpa [makeTrie, builtBlock] using h1 (F.il 128) F.bv (F.rankIl 128)
        · by_cases b2 : block = 256
          · subst b2
            simpa [makeTrie, builtBlock] using h1 (F.il 256) F.bv (F.rankIl 256)
          · by_cases b3 : block = 512
            · subst b3
              simpa [makeTrie, builtBlock] using h1 (F.il 512) F.bv (F.rankIl 512)
            · simpa [makeTrie, builtBlock, b1, b2, b3] using h1 (F.il 64) F.bv (F.rankIl 64)
      · simpa [makeTrie, Formats.rank, r0, r1] using h1 F.bv F.bv F.v5
  · by_cases r0 : rank = 0
    · subst r0
      simpa [makeTrie, Formats.rank] using h2 F.v
    · by_cases r1 : rank = 1
      · subst r1
        simpa [makeTrie] using h3
      · simpa [makeTrie, Formats.rank, r0, r1] using h2 F.v5

/-- A rank support that writes a byte of its own. -/
def Ex.rankIO9 : RankIO where
  K := Unit
  of _ := ()
  write _ := [9]
  read s := .ok ((), s.drop 1)
  query _ v i := rank1 v i
  roundTrip := by intro v rest _; rfl
  query_of := by intro v i; rfl

/-- The rank type decides which rank support is written. -/
example : makeTrie { Ex.formats with v5 := Ex.rankIO9 } 0 true 0 512 false false 64 0 [3, 4, 17, 31] ≠
    makeTrie { Ex.formats with v5 := Ex.rankIO9 } 0 true 2 512 false false 64 0 [3, 4, 17, 31] := by decide +kernel

/-- C34, why lists have to be shorter than `2^30`: a list of a multiple of `2^30` elements is skipped by not moving at all, so
its elements are then read as lengths. -/
theorem C34_long_lists (s : Bytes) (k : Nat) : skipList s (2 ^ 30 * k) = s := by
  have : 4 * (2 ^ 30 * k) % 2 ^ 32 = 0 := by rw [← Nat.mul_assoc]; exact Nat.mul_mod_right _ _
  rw [skipList, this, List.drop_zero]

/-! ## C36: the headers -/

/-- C36, `build_tries`: the query tool reads back every option, for every rank type. Without block size in the file, its own
is 512. -/
theorem C36_tries_header {rank block : Nat} (runs levelwise : Bool) (hr : rank < 2 ^ 32) (hb : block < 2 ^ 32) (rest : Bytes) :
    readTriesFileHeader (triesFileHeader rank block runs levelwise ++ rest) =
      .ok (⟨rank, if rank = 1 then block else 512, runs, levelwise⟩, rest) := readTriesFileHeader_ok hr hb rest

example : readTriesFileHeader (triesFileHeader 1 128 true false ++ [7, 7]) = .ok (⟨1, 128, true, false⟩, [7, 7]) := by decide +kernel

/-- C36 (partial), `build_fastTries`: the query tool reads back every option, except for rank type 1. -/
theorem C36_fast_header_partial {rank wsize : Nat} (runs levelwise : Bool) (hr : rank < 2 ^ 32) (h1 : rank ≠ 1)
    (hw : wsize < 2 ^ 16) (rest : Bytes) :
    readFastFileHeader (fastFileHeader rank runs levelwise wsize ++ rest) = .ok (⟨rank, 512, runs, levelwise, wsize⟩, rest) :=
  readFastFileHeader_ok hr h1 hw rest

example : readFastFileHeader (fastFileHeader 2 true false 64 ++ [7, 7]) = .ok (⟨2, 512, true, false, 64⟩, [7, 7]) := by
  decide +kernel

/-- C36 is false for `build_fastTries` with rank type 1 (`--rank il`): the options of the file are read as a block size, and
the options are read from the number of sets. The number of sets is then no longer in the stream. If all of this succeeds, the
word size read is the number of sets divided by 65536, so it is 0, taken as 8, for files of fewer than 65536 sets. -/
theorem C36_fast_header_negation (runs levelwise : Bool) {wsize nSets : Nat} (hw : wsize < 2 ^ 16) (hn : nSets < 2 ^ 32)
    (rest : Bytes) :
    (∀ o s, readFastFileHeader (fastFileHeader 1 runs levelwise wsize ++ (leBytes 4 nSets ++ rest)) = .ok (o, s) →
      o.block = runs.toNat + 2 ^ 8 * levelwise.toNat + 2 ^ 16 * wsize ∧ o.wsize = nSets / 2 ^ 16 ∧
      o.runs.toNat = nSets % 2 ^ 8 ∧ o.levelwise.toNat = nSets / 2 ^ 8 % 2 ^ 8 ∧ s = rest) ∧
    (1 < nSets % 2 ^ 8 → readFastFileHeader (fastFileHeader 1 runs levelwise wsize ++ (leBytes 4 nSets ++ rest)) = .error .conv) := by
  have e1 : leBytes 4 1 = [1, 0, 0, 0] := by decide
  have e2 : leBytes 2 wsize = [UInt8.ofNat wsize, UInt8.ofNat (wsize / 256)] := rfl
  have e3 : leBytes 4 nSets = [UInt8.ofNat nSets, UInt8.ofNat (nSets / 256), UInt8.ofNat (nSets / 256 / 256),
    UInt8.ofNat (nSets / 256 / 256 / 256)] := rfl
  have hb : boolByte runs = [UInt8.ofNat runs.toNat] := by cases runs <;> rfl
  have hb' : boolByte levelwise = [UInt8.ofNat levelwise.toNat] := by cases levelwise <;> rfl
  have hr : runs.toNat < 2 := by cases runs <;> decide
  have hl : levelwise.toNat < 2 := by cases levelwise <;> decide
  have key : readFastFileHeader (fastFileHeader 1 runs levelwise wsize ++ (leBytes 4 nSets ++ rest)) =
      (readBool (leBytes 4 nSets ++ rest) >>= fun a => readBool a.2 >>= fun b => readLE 2 b.2 >>= fun c =>
        .ok (⟨1, runs.toNat + 2 ^ 8 * levelwise.toNat + 2 ^ 16 * wsize, a.1, b.1, c.1⟩, c.2)) := by
    rw [fastFileHeader, readFastFileHeader, e1, e2, hb, hb']
    simp only [List.cons_append, List.nil_append, readLE, R_bind_ok, UInt8.toNat_ofNat']
    have a0 : (1 : UInt8).toNat + 256 * ((0 : UInt8).toNat + 256 * ((0 : UInt8).toNat + 256 * ((0 : UInt8).toNat + 256 * 0))) = 1 := by
      decide
    rw [a0]
    simp only [if_true]
    have a1 : runs.toNat % 2 ^ 8 + 256 * (levelwise.toNat % 2 ^ 8 + 256 * (wsize % 2 ^ 8 + 256 * (wsize / 256 % 2 ^ 8 + 256 * 0))) =
        runs.toNat + 2 ^ 8 * levelwise.toNat + 2 ^ 16 * wsize := by omega
    rw [a1]
  have hz : ∀ n : Nat, (UInt8.ofNat n = 0 ↔ n % 2 ^ 8 = 0) ∧ (UInt8.ofNat n = 1 ↔ n % 2 ^ 8 = 1) := by
    intro n
    constructor <;> rw [← UInt8.toNat_inj, UInt8.toNat_ofNat'] <;> rfl
  have hrb : ∀ (n : Nat) (s : Bytes) (p : Bool × Bytes), readBool (UInt8.ofNat n :: s) = .ok p → p.1.toNat = n % 2 ^ 8 ∧ p.2 = s := by
    intro n s p h
    rw [readBool] at h
    split at h
    · injection h with h; subst h; rename_i h0; exact ⟨((hz n).1.1 h0).symm, rfl⟩
    · split at h
      · injection h with h; subst h; rename_i h0; exact ⟨((hz n).2.1 h0).symm, rfl⟩
      · exact nomatch h
  rw [key, e3]
  simp only [List.cons_append, List.nil_append]
  constructor
  · intro o s h
    obtain ⟨a, ha, h⟩ := bind_ok h
    obtain ⟨b, hB, h⟩ := bind_ok h
    obtain ⟨c, hC, h⟩ := bind_ok h
    injection h with h; injection h with h1 h2
    obtain ⟨a1, a2⟩ := hrb _ _ _ ha
    rw [a2] at hB
    obtain ⟨b1, b2⟩ := hrb _ _ _ hB
    rw [b2] at hC
    simp only [readLE, R_bind_ok, UInt8.toNat_ofNat', Except.ok.injEq] at hC
    subst hC h1
    refine ⟨rfl, ?_, a1, by simpa using b1, h2.symm⟩
    show (_ : Nat) + 256 * _ = _
    omega
  · intro h
    have : readBool (UInt8.ofNat nSets :: (UInt8.ofNat (nSets / 256) :: UInt8.ofNat (nSets / 256 / 256) ::
        UInt8.ofNat (nSets / 256 / 256 / 256) :: rest)) = .error .conv := by
      rw [readBool, if_neg (by rw [(hz _).1]; omega), if_neg (by rw [(hz _).2]; omega)]
    rw [this]; rfl

example : readFastFileHeader (fastFileHeader 1 true false 64 ++ (leBytes 4 257 ++ [7])) = .ok (⟨1, 4194305, true, true, 0⟩, [7]) ∧
    readFastFileHeader (fastFileHeader 1 true false 64 ++ (leBytes 4 3 ++ [7])) = .error .conv := by decide +kernel

/-! ## C35: end to end with fast tries -/

/-- C35. A file built by `build_fastTries` with rank type 0 or 2, any word size, with or without runs, from a collection of
strictly increasing lists, is answered correctly by the sequential query tool, query by query. -/
theorem C35_fast_end_to_end (B : BvIO) (K : Nat → RankIO) {lg : Nat} (hlg : 3 ≤ lg ∧ lg ≤ 6) (pad : Nat) (junk junk' : Nat → FastJunk)
    (hj : ∀ i, (junk i).heightWithRuns < 2 ^ 16) {mn mx rank : Nat} (hr : rank < 2 ^ 32) (hr1 : rank ≠ 1) (runs levelwise : Bool)
    {one u : Nat} (hone : one < 2 ^ 32) (hu : 2 ^ (lg - 1) < u) (hu' : u < 2 ^ 32) {lists : List (List Nat)}
    (hl : ∀ l ∈ lists, l.length < 2 ^ 30) (hv : ∀ l ∈ kept mn mx lists, ValidSet l u) (hn : (kept mn mx lists).length < 2 ^ 32)
    (env : Nat → Env) (hw : ∀ i, (env i).hw ≠ 0)
    {queries : List (List Nat)} (hq : queries ≠ []) (hq0 : ∀ q ∈ queries, q ≠ [])
    (hq1 : ∀ q ∈ queries, q.length ≤ 16 → ∀ i ∈ q, i < (kept mn mx lists).length) :
    ∃ f as, buildFast B K pad junk mn mx rank runs levelwise (2 ^ lg) (collectionBytes one u lists) = .ok (some f) ∧
      queryFast B K pad junk' false env queries f = .ok as ∧ List.Forall₂ (Answers (kept mn mx lists)) queries as :=
  queryFast_ok B K hlg pad junk junk' hj hr hr1 runs levelwise hone hu hu' hl hv hn false env (P := IsIntersection)
    (fun sets Ts i h1 _ h3 h4 => by
      cases runs with
      | false => exact C09_fast_seq_intersect_plain hlg (h1.imp fun _ _ h => h.uncoded) h3 h4 (env i) (hw i)
      | true => exact C10_fast_seq_intersect_runs hlg (h1.imp fun _ _ h => h.toRuns) h3 h4 (env i) (hw i)) hq hq0 hq1

example : (∀ l ∈ kept 1 100 Ex.coll, ValidSet l 64) ∧
    (buildFast Ex.bvIO (fun _ => Ex.rankIO) 0 (fun _ => Ex.junk) 1 100 0 true false 8 (collectionBytes 1 64 Ex.coll) >>= fun f =>
      queryFast Ex.bvIO (fun _ => Ex.rankIO) 0 (fun _ => Ex.junk) false (fun _ => ⟨8, [], []⟩) [[2, 0], [1, 0], [1], List.replicate 17 0]
        (f.getD [])) = .ok [some [3, 4, 31], some [3, 17, 31], some [0, 3, 17, 31, 60], none] :=
  ⟨Ex.coll_valid, by decide +kernel⟩

/-- C35 with `--parallel t`, on files without runs whose tries have at least two levels of nodes. -/
theorem C35_fast_parallel_plain (B : BvIO) (K : Nat → RankIO) {lg : Nat} (hlg : 3 ≤ lg ∧ lg ≤ 6) (pad : Nat)
    (junk junk' : Nat → FastJunk) (hj : ∀ i, (junk i).heightWithRuns < 2 ^ 16) {mn mx rank : Nat} (hr : rank < 2 ^ 32) (hr1 : rank ≠ 1)
    (levelwise : Bool) {one u : Nat} (hone : one < 2 ^ 32) (hu : 2 ^ lg < u) (hu' : u < 2 ^ 32) {lists : List (List Nat)}
    (hl : ∀ l ∈ lists, l.length < 2 ^ 30) (hv : ∀ l ∈ kept mn mx lists, ValidSet l u) (hn : (kept mn mx lists).length < 2 ^ 32)
    (env : Nat → Env) (hw : ∀ i, (env i).hw ≠ 0 ∧ (env i).hw < 2 ^ 16)
    {queries : List (List Nat)} (hq : queries ≠ []) (hq0 : ∀ q ∈ queries, q ≠ [])
    (hq1 : ∀ q ∈ queries, q.length ≤ 16 → ∀ i ∈ q, i < (kept mn mx lists).length) :
    ∃ f as, buildFast B K pad junk mn mx rank false levelwise (2 ^ lg) (collectionBytes one u lists) = .ok (some f) ∧
      queryFast B K pad junk' true env queries f = .ok as ∧ List.Forall₂ (Answers (kept mn mx lists)) queries as := by
  have hlu : 2 ^ (lg - 1) < u := Nat.lt_of_le_of_lt (Nat.pow_le_pow_right (by decide) (by omega)) hu
  have hh : 2 ≤ fastHeight lg u := by
    have : lg ≤ Nat.log2 (u - 1) := (Nat.le_log2 (Nat.sub_ne_zero_of_lt (by have := Nat.two_pow_pos lg; omega))).2 (Nat.le_sub_one_of_lt hu)
    rw [fastHeight]; omega
  exact queryFast_ok B K hlg pad junk junk' hj hr hr1 false levelwise hone hlu hu' hl hv hn true env (P := IsIntersection)
    (fun sets Ts i h1 _ h3 h4 => by
      obtain ⟨R, e, -, e'⟩ := C13_fast_parallel_plain hlg hh (h1.imp fun _ _ h => h.uncoded) h3 h4 (env i) (env i) (hw i).1 (hw i).2 (hw i).1
      exact ⟨R, e, e'⟩) hq hq0 hq1

example : (buildFast Ex.bvIO (fun _ => Ex.rankIO) 0 (fun _ => Ex.junk) 1 100 0 false false 8 (collectionBytes 1 64 Ex.coll) >>= fun f =>
      queryFast Ex.bvIO (fun _ => Ex.rankIO) 0 (fun _ => Ex.junk) true (fun _ => ⟨4, [1, 0, 2], [1]⟩) [[2, 0], [1, 0], [1], List.replicate 17 0]
        (f.getD [])) = .ok [some [3, 4, 31], some [3, 17, 31], some [0, 3, 17, 31, 60], none] := by decide +kernel

/-- C35, what parallel run-aware queries still guarantee: no undefined behaviour, only common elements, none of them twice. -/
theorem C35_fast_parallel_runs_sound (B : BvIO) (K : Nat → RankIO) {lg : Nat} (hlg : 3 ≤ lg ∧ lg ≤ 6) (pad : Nat)
    (junk junk' : Nat → FastJunk) (hj : ∀ i, (junk i).heightWithRuns < 2 ^ 16) {mn mx rank : Nat} (hr : rank < 2 ^ 32) (hr1 : rank ≠ 1)
    (levelwise : Bool) {one u : Nat} (hone : one < 2 ^ 32) (hu : 2 ^ lg < u) (hu' : u < 2 ^ 32) {lists : List (List Nat)}
    (hl : ∀ l ∈ lists, l.length < 2 ^ 30) (hv : ∀ l ∈ kept mn mx lists, ValidSet l u) (hn : (kept mn mx lists).length < 2 ^ 32)
    (env : Nat → Env) (hw : ∀ i, (env i).hw ≠ 0 ∧ (env i).hw < 2 ^ 16)
    {queries : List (List Nat)} (hq : queries ≠ []) (hq0 : ∀ q ∈ queries, q ≠ [])
    (hq1 : ∀ q ∈ queries, q.length ≤ 16 → ∀ i ∈ q, i < (kept mn mx lists).length) :
    ∃ f as, buildFast B K pad junk mn mx rank true levelwise (2 ^ lg) (collectionBytes one u lists) = .ok (some f) ∧
      queryFast B K pad junk' true env queries f = .ok as ∧
      List.Forall₂ (fun q a => (q.length ≤ 16 → ∃ R, a = some R ∧
        ((∀ x ∈ R, ∀ S ∈ q.map fun i => (kept mn mx lists).getD i [], x ∈ S) ∧ R.Nodup)) ∧ (16 < q.length → a = none)) queries as := by
  have hlu : 2 ^ (lg - 1) < u := Nat.lt_of_le_of_lt (Nat.pow_le_pow_right (by decide) (by omega)) hu
  have hh : 2 ≤ fastHeight lg u := by
    have : lg ≤ Nat.log2 (u - 1) := (Nat.le_log2 (Nat.sub_ne_zero_of_lt (by have := Nat.two_pow_pos lg; omega))).2 (Nat.le_sub_one_of_lt hu)
    rw [fastHeight]; omega
  exact queryFast_ok B K hlg pad junk junk' hj hr hr1 true levelwise hone hlu hu' hl hv hn true env
    (P := fun sets R => (∀ x ∈ R, ∀ S ∈ sets, x ∈ S) ∧ R.Nodup)
    (fun sets Ts i h1 _ h3 h4 => C14_fast_parallel_runs_sound hlg hh (h1.imp fun _ _ h => h.toRuns) h3 h4 (env i) (hw i).1 (hw i).2) hq hq0 hq1

/-- C35 is false for parallel queries on files with runs: common elements are missing from the answer. -/
theorem C35_fast_parallel_runs_negation :
    (∀ l ∈ kept 1 100 Ex.coll, ValidSet l 64) ∧
    (buildFast Ex.bvIO (fun _ => Ex.rankIO) 0 (fun _ => Ex.junk) 1 100 0 true false 8 (collectionBytes 1 64 Ex.coll) >>= fun f =>
      queryFast Ex.bvIO (fun _ => Ex.rankIO) 0 (fun _ => Ex.junk) true (fun _ => ⟨4, [], []⟩) [[2, 0]] (f.getD [])) =
        .ok [some [31]] ∧
    ¬ List.Forall₂ (Answers (kept 1 100 Ex.coll)) [[2, 0]] [some [31]] := by
  refine ⟨Ex.coll_valid, by decide +kernel, fun h => ?_⟩
  cases h with
  | cons h _ =>
    obtain ⟨R, e, h⟩ := h.1 (by decide)
    injection e with e; subst e
    have := (h.mem 3).2 (by decide +kernel)
    exact absurd this (by decide)

/-- C35, why there have to be queries: without any set id in the queries, the query tool reads the first element of an empty
vector as soon as the file has a first trie. -/
theorem C35_fast_no_queries {T : Type} (load : Nat → Bytes → R (T × Bytes)) (n : Nat) (s : Bytes) {t : T} {s' : Bytes}
    (h : load 0 s = .ok (t, s')) : loadLoop load (n + 1) 0 (setIndexes []) s = .error .oob := by
  rw [loadLoop, h]; rfl

example : (buildFast Ex.bvIO (fun _ => Ex.rankIO) 0 (fun _ => Ex.junk) 1 100 0 true false 8 (collectionBytes 1 64 Ex.coll) >>= fun f =>
      queryFast Ex.bvIO (fun _ => Ex.rankIO) 0 (fun _ => Ex.junk) false (fun _ => ⟨8, [], []⟩) [] (f.getD [])) = .error .oob := by
  decide +kernel

/-- C35, why queries must not be empty and must name existing sets: an empty query makes `Intersect` read the first of no tries,
and a query of at most 16 sets, one of which is not among the loaded ones, hands a null pointer to `Intersect`. -/
theorem C35_fast_bad_queries {K : RankIO} (m : List (Nat × FastObj K)) (lg pad : Nat) (runs parallel : Bool) (env : Env) :
    answerQuery m (fun ts => fastIntersect lg (ts.map fun t => t.nav pad) runs parallel env) [] = .error .oob ∧
    ∀ q, q.length ≤ 16 → (∃ i ∈ q, ∀ p ∈ m, p.1 ≠ i) →
      answerQuery m (fun ts => fastIntersect lg (ts.map fun t => t.nav pad) runs parallel env) q = .error .null := by
  refine ⟨rfl, fun q hq hex => ?_⟩
  have : lookupAll m q = none := by
    clear hq
    induction q with
    | nil => obtain ⟨i, h, -⟩ := hex; simp at h
    | cons j q ih =>
      rw [lookupAll]
      obtain ⟨i, hi, hm⟩ := hex
      rcases List.mem_cons.1 hi with rfl | hi
      · have : m.lookup i = none := by
          rw [List.lookup_eq_none_iff]
          intro p hp
          simpa using fun h => hm p hp h.symm
        rw [this]; rfl
      · rw [ih ⟨i, hi, hm⟩]
        cases m.lookup j <;> rfl
  rw [answerQuery, if_pos hq, this]

/-! ## C43: end to end with flat and level-wise tries -/

/-- C43. A file built by `build_tries` (rank types 0 and 2 with both layouts, rank type 1 with the flat layout and block sizes
128, 256 and 512; with runs, flat tries must not collapse to nothing, see C05) is answered correctly by `intersection_query_log`
with `--parallel f`. `serialize` must write its two streams in the order in which `load` reads them (C19). -/
theorem C43_tries_end_to_end_partial (F : Formats) (pad : Nat) {mn mx rank block : Nat} (hr : rank < 2 ^ 32) (hb : block < 2 ^ 32)
    (runs levelwise : Bool) (hs : Supported rank block levelwise) {one u : Nat} (hone : one < 2 ^ 32) (hu : 3 ≤ u) (hu' : u < 2 ^ 32)
    {lists : List (List Nat)} (hl : ∀ l ∈ lists, l.length < 2 ^ 30) (hv : ∀ l ∈ kept mn mx lists, ValidSet l u)
    (hn : (kept mn mx lists).length < 2 ^ 32)
    (hc : runs = true → levelwise = false → ∀ l ∈ kept mn mx lists, ∃ x ∈ l, ∃ y, y / 4 = x / 4 ∧ y ∉ l)
    (env : Nat → Env) (hw : ∀ i, (env i).hw ≠ 0)
    {queries : List (List Nat)} (hq0 : ∀ q ∈ queries, q ≠ []) (hq1 : ∀ q ∈ queries, ∀ i ∈ q, i < (kept mn mx lists).length) :
    ∃ f as, buildTries F pad true mn mx rank block runs levelwise (collectionBytes one u lists) = .ok f ∧
      queryLog F pad false env queries f = .ok as ∧ List.Forall₂ (Answers (kept mn mx lists)) queries as :=
  queryLog_ok F pad hr hb hs hone hu hu' hl hv hn hc false env (P := IsIntersection)
    (fun sets Ts i h1 _ h3 h4 => by
      cases runs with
      | false => exact C07_seq_intersect_plain (h1.imp fun _ _ h => h.uncoded) h3 h4 (env i) (hw i)
      | true => exact C08_seq_intersect_runs_partial (h1.imp fun _ _ h => h.runs) h3 h4 (env i) (hw i)) hq0 hq1

example : (∀ l ∈ kept 1 100 Ex.coll, ∃ x ∈ l, ∃ y < 64, y / 4 = x / 4 ∧ y ∉ l) ∧
    (buildTries Ex.formats 0 true 1 100 1 256 true false (collectionBytes 1 64 Ex.coll) >>= fun f =>
      queryLog Ex.formats 0 false (fun _ => ⟨8, [], []⟩) [[2, 0], [1, 0], [1], List.replicate 17 0] f) =
        .ok [some [3, 4, 31], some [3, 17, 31], some [0, 3, 17, 31, 60], none] := ⟨by decide +kernel, by decide +kernel⟩

/-- C43 in the default mode, `--parallel t`, without runs. -/
theorem C43_tries_parallel_plain_partial (F : Formats) (pad : Nat) {mn mx rank block : Nat} (hr : rank < 2 ^ 32) (hb : block < 2 ^ 32)
    (levelwise : Bool) (hs : Supported rank block levelwise) {one u : Nat} (hone : one < 2 ^ 32) (hu : 3 ≤ u) (hu' : u < 2 ^ 32)
    {lists : List (List Nat)} (hl : ∀ l ∈ lists, l.length < 2 ^ 30) (hv : ∀ l ∈ kept mn mx lists, ValidSet l u)
    (hn : (kept mn mx lists).length < 2 ^ 32) (env : Nat → Env) (hw : ∀ i, (env i).hw ≠ 0 ∧ (env i).hw < 2 ^ 16)
    {queries : List (List Nat)} (hq0 : ∀ q ∈ queries, q ≠ []) (hq1 : ∀ q ∈ queries, ∀ i ∈ q, i < (kept mn mx lists).length) :
    ∃ f as, buildTries F pad true mn mx rank block false levelwise (collectionBytes one u lists) = .ok f ∧
      queryLog F pad true env queries f = .ok as ∧ List.Forall₂ (Answers (kept mn mx lists)) queries as := by
  have hh : 2 ≤ trieHeight u := by
    have : 1 ≤ Nat.log2 (u - 1) := (Nat.le_log2 (by omega)).2 (by omega)
    rw [trieHeight]; omega
  exact queryLog_ok F pad (runs := false) hr hb hs hone hu hu' hl hv hn (fun h => nomatch h) true env (P := IsIntersection)
    (fun sets Ts i h1 _ h3 h4 => by
      obtain ⟨R, e, -, e'⟩ := C11_parallel_plain hh (h1.imp fun _ _ h => h.uncoded) h3 h4 (env i) (env i) (hw i).1 (hw i).2 (hw i).1
      exact ⟨R, e, e'⟩) hq0 hq1

example : (buildTries Ex.formats 0 true 1 100 0 512 false true (collectionBytes 1 64 Ex.coll) >>= fun f =>
      queryLog Ex.formats 0 true (fun _ => ⟨4, [1, 0, 2], [1]⟩) [[2, 0], [1, 0], [1], List.replicate 17 0] f) =
        .ok [some [3, 4, 31], some [3, 17, 31], some [0, 3, 17, 31, 60], none] := by decide +kernel

/-- C43 in the default mode with runs: no undefined behaviour, only common elements, none of them twice. -/
theorem C43_tries_parallel_runs_sound_partial (F : Formats) (pad : Nat) {mn mx rank block : Nat} (hr : rank < 2 ^ 32)
    (hb : block < 2 ^ 32) (levelwise : Bool) (hs : Supported rank block levelwise) {one u : Nat} (hone : one < 2 ^ 32) (hu : 3 ≤ u)
    (hu' : u < 2 ^ 32) {lists : List (List Nat)} (hl : ∀ l ∈ lists, l.length < 2 ^ 30)
    (hv : ∀ l ∈ kept mn mx lists, ValidSet l u) (hn : (kept mn mx lists).length < 2 ^ 32)
    (hc : levelwise = false → ∀ l ∈ kept mn mx lists, ∃ x ∈ l, ∃ y, y / 4 = x / 4 ∧ y ∉ l)
    (env : Nat → Env) (hw : ∀ i, (env i).hw ≠ 0 ∧ (env i).hw < 2 ^ 16)
    {queries : List (List Nat)} (hq0 : ∀ q ∈ queries, q ≠ []) (hq1 : ∀ q ∈ queries, ∀ i ∈ q, i < (kept mn mx lists).length) :
    ∃ f as, buildTries F pad true mn mx rank block true levelwise (collectionBytes one u lists) = .ok f ∧
      queryLog F pad true env queries f = .ok as ∧
      List.Forall₂ (fun q a => (q.length ≤ 16 → ∃ R, a = some R ∧
        ((∀ x ∈ R, ∀ S ∈ q.map fun i => (kept mn mx lists).getD i [], x ∈ S) ∧ R.Nodup)) ∧ (16 < q.length → a = none)) queries as := by
  have hh : 2 ≤ trieHeight u := by
    have : 1 ≤ Nat.log2 (u - 1) := (Nat.le_log2 (by omega)).2 (by omega)
    rw [trieHeight]; omega
  exact queryLog_ok F pad hr hb hs hone hu hu' hl hv hn (fun _ => hc) true env
    (P := fun sets R => (∀ x ∈ R, ∀ S ∈ sets, x ∈ S) ∧ R.Nodup)
    (fun sets Ts i h1 _ h3 h4 => C14_parallel_runs_sound hh (h1.imp fun _ _ h => h.runs) h3 h4 (env i) (hw i).1 (hw i).2) hq0 hq1

/-- C43 is false in the default mode with runs: common elements are missing from the answer. -/
theorem C43_tries_parallel_runs_negation :
    (∀ l ∈ kept 1 100 Ex.coll, ValidSet l 64) ∧
    (buildTries Ex.formats 0 true 1 100 0 512 true true (collectionBytes 1 64 Ex.coll) >>= fun f =>
      queryLog Ex.formats 0 true (fun _ => ⟨4, [], []⟩) [[2, 0]] f) = .ok [some [31]] ∧
    ¬ List.Forall₂ (Answers (kept 1 100 Ex.coll)) [[2, 0]] [some [31]] := by
  refine ⟨Ex.coll_valid, by decide +kernel, fun h => ?_⟩
  cases h with
  | cons h _ =>
    obtain ⟨R, e, h⟩ := h.1 (by decide)
    injection e with e; subst e
    have := (h.mem 3).2 (by decide +kernel)
    exact absurd this (by decide)

/-- C43 is false for rank type 1 with the level-wise layout: `build_tries` dereferences a null pointer on the first kept list. -/
theorem C43_tries_level_il_negation (F : Formats) (pad : Nat) (ltr : Bool) {mn mx block one u : Nat} (runs : Bool)
    (hone : one < 2 ^ 32) (hu : u < 2 ^ 32) {lists : List (List Nat)} (hl : ∀ l ∈ lists, l.length < 2 ^ 30) (hx : ∀ l ∈ lists, ∀ x ∈ l, x < 2 ^ 32)
    (hn : (kept mn mx lists).length < 2 ^ 32) (h1 : kept mn mx lists ≠ []) (f : Bytes) :
    buildTries F pad ltr mn mx 1 block runs true (collectionBytes one u lists) ≠ .ok f := by
  intro h
  obtain ⟨parts, e1, e2, -⟩ := ((C34_tries F pad ltr runs true hone hu hl hx hn).2 f).1 h
  have hp : 0 < (kept mn mx lists).length := List.length_pos_iff.2 h1
  have := e2 0 hp (by omega)
  rw [makeTrie, if_pos rfl, if_pos rfl, makeLevelIl] at this
  obtain ⟨t, -, this⟩ := bind_ok this
  have jp : ∀ t : LevelTrie, (t.serializeIl >>= fun x => (.ok x.1 : R Bytes)) ≠ .ok parts[0] := fun t h => by
    obtain ⟨b, hb, -⟩ := bind_ok h
    exact nomatch hb
  cases runs with
  | false => exact jp t this
  | true =>
    obtain ⟨t', -, this⟩ := bind_ok this
    exact jp t' this

example : buildTries Ex.formats 0 true 1 100 1 256 false true (collectionBytes 1 64 Ex.coll) = .error .null := by decide +kernel

/-- C43 is false for rank type 1 with other block sizes than 128, 256 and 512: `build_tries` accepts them (and builds with 64),
but the query tool then uses an uninitialised pointer for the first trie. -/
theorem C43_tries_block_negation (F : Formats) (pad : Nat) {block one u n : Nat} (hb : block < 2 ^ 32)
    (h1 : block ≠ 128) (h2 : block ≠ 256) (h3 : block ≠ 512) (hn : n + 1 < 2 ^ 32) (hone : one < 2 ^ 32) (hu : u < 2 ^ 32)
    (runs levelwise parallel : Bool) (env : Nat → Env) (queries : List (List Nat)) (rest : Bytes) :
    queryLog F pad parallel env queries
      (triesFileHeader 1 block runs levelwise ++ (leBytes 4 (n + 1) ++ (leBytes 4 one ++ (leBytes 4 u ++ rest)))) = .error .uninit := by
  rw [queryLog, readTriesFileHeader_ok (by decide) hb, R_bind_ok]
  simp only [loadSequences]
  rw [readLE_leBytes _ _ _ hn, R_bind_ok]
  simp only
  rw [readLE_leBytes _ _ _ hone, R_bind_ok]
  simp only
  rw [readLE_leBytes _ _ _ hu, R_bind_ok]
  simp only [readMany, loadTrie, if_true, h1, h2, h3, or_self, if_false]
  rfl

example : (buildTries Ex.formats 0 true 1 100 1 64 false false (collectionBytes 1 64 Ex.coll) >>= fun f =>
    queryLog Ex.formats 0 false (fun _ => ⟨8, [], []⟩) [[2, 0]] f) = .error .uninit := by decide +kernel

/-- C43, why the ids of all queries have to exist, even those of queries of more than 16 sets. -/
theorem C43_tries_bad_queries (seqs : List Nav) (inter : Nat → List Nav → R (List Nat)) (i : Nat) (q : List Nat) (qs : List (List Nat))
    (h : ∃ x ∈ q, seqs.length ≤ x) : answerLog seqs inter i (q :: qs) = .error .oob := by
  have : getAll seqs q = .error .oob := by
    induction q with
    | nil => obtain ⟨i, h, -⟩ := h; simp at h
    | cons j q ih =>
      rw [getAll]
      by_cases hj : j < seqs.length
      · have hj' : vGet seqs j = .ok seqs[j] := by simp [vGet, List.getElem?_eq_getElem hj]
        obtain ⟨x, hx, hx'⟩ := h
        rcases List.mem_cons.1 hx with rfl | hx
        · omega
        · rw [hj', R_bind_ok, ih ⟨x, hx, hx'⟩]; rfl
      · have hj' : vGet seqs j = .error .oob := by simp [vGet, List.getElem?_eq_none (by omega : seqs.length ≤ j)]
        rw [hj']; rfl
  rw [answerLog, this]; rfl

example : (buildTries Ex.formats 0 true 1 100 0 512 false true (collectionBytes 1 64 Ex.coll) >>= fun f =>
      queryLog Ex.formats 0 false (fun _ => ⟨4, [], []⟩) [List.replicate 17 3] f) = .error .oob := by decide +kernel

end CBT
