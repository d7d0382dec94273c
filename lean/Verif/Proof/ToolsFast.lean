import Verif.Proof.Tools
import Verif.Props.Size
import Verif.Props.Serialize
import Verif.Props.Parallel
import Verif.Proof.Reach

/-!
# Fast tries through the tools
-/

namespace CBT

open Spec

theorem fast_encode_heights (lg : Nat) (t : FastTrie) (pad : Nat) :
    Post (t.encodeRuns lg pad) fun t' => t'.height = t.height ∧ t'.heightWithRuns ≤ t.height := by
  unfold FastTrie.encodeRuns
  refine Post.ite (fun _ => ?_) (fun h0 => ?_)
  · exact Post.bind (Q := fun _ => False) Post.error (fun _ h => h.elim)
  · refine (Post.any _).bind fun a _ => ?_
    obtain ⟨s, nl, b⟩ := a
    refine (Post.any _).bind fun b _ => Post.ok ⟨rfl, ?_⟩
    change lastNonEmpty (s.pos.take (t.height - 1)) 0 0 + 1 ≤ t.height
    have hl : (s.pos.take (t.height - 1)).length ≤ t.height - 1 := by rw [List.length_take]; omega
    rcases lastNonEmpty_le (s.pos.take (t.height - 1)) 0 0 (Nat.le_refl _) with h | h <;> omega

/-- The height of the fast tries over the universe `u`. -/
def fastHeight (lg u : Nat) : Nat := Nat.log2 (u - 1) + 1 - lg + 1

theorem fast_saved (B : BvIO) (K : RankIO) {lg : Nat} (hlg : 3 ≤ lg ∧ lg ≤ 6) {S : List Nat} {u : Nat} (hS : ValidSet S u)
    (hlen : S.length < 2 ^ 32) (hu : 2 ^ (lg - 1) < u) (hu' : u ≤ 2 ^ 62) (junk : Nat → FastJunk) (i : Nat)
    (hj : (junk i).heightWithRuns < 2 ^ 16) (pad : Nat) (runs : Bool) :
    ∃ (b : Bytes) (o : FastObj K), makeFast B K lg pad junk runs u i S = .ok b ∧
      (∀ t0 : FastTrie, t0.lastLevel = [] → ∀ rest, fastLoad B K lg t0 (b ++ rest) = .ok (o, rest)) ∧
      FastCoded lg pad (fastHeight lg u) (runs, S) (o.nav pad) := by
  obtain ⟨t, t', hc, he, h1, h2, h3, h4⟩ := C30_fast_size hlg hS hlen hu hu' (junk i) pad
  have hs := fastCtor_sound lg (junk i) S u t hc
  have hs' := fast_encode_sound hs pad t' he
  obtain ⟨g1, g2⟩ := fast_encode_heights lg t pad t' he
  obtain ⟨T, hc', -⟩ := fast_built hlg hS hlen hu hu' (junk i)
  obtain ⟨q0, q1, q2⟩ := fast_depth hlg hu hu'
  have hth : t.height = fastHeight lg u ∧ t.heightWithRuns = (junk i).heightWithRuns := by
    rw [hc] at hc'; injection hc' with e; subst e; exact ⟨rfl, rfl⟩
  have hht : t.height ≤ 63 := by rw [hth.1, fastHeight]; omega
  have hb : t.bTrie.length < 2 ^ 64 := by
    have : S.length * (t.height - 1) ≤ 2 ^ 32 * 62 := Nat.mul_le_mul (by omega) (by omega)
    omega
  have load : ∀ (x : FastTrie), x.Sound lg → x.height ≤ 63 → x.heightWithRuns < 2 ^ 16 → x.bTrie.length < 2 ^ 64 →
      x.lastLevel.length < 2 ^ 64 → ∀ t0 : FastTrie, t0.lastLevel = [] → ∀ rest,
      fastLoad B K lg t0 ((x.serialize B K lg).1 ++ rest) = .ok (⟨x, K.of x.bTrie⟩, rest) := by
    intro x hx hh hw hb hl t0 h0 rest
    have e := fastLoad_serialize B K hlg.1 t0 (by omega) hw hb hl hx.2 rest
    have hxu : x.heightU = (x.height + lg - 1) % 2 ^ 16 := by rw [Nat.mod_eq_of_lt (by omega)]; have := hx.1; omega
    rw [e]
    congr 3
    rw [← hxu, h0]; rfl
  cases runs with
  | false =>
    refine ⟨(t.serialize B K lg).1, ⟨t, K.of t.bTrie⟩, ?_, load t hs hht (by omega) hb (by omega), ?_⟩
    · simp only [makeFast, hc, R_bind_ok, Bool.false_eq_true, if_false]
    · rw [FastObj.nav_eq]; exact .plain (.mk hS hlen hu hu' hc hth.1)
  | true =>
    refine ⟨(t'.serialize B K lg).1, ⟨t', K.of t'.bTrie⟩, ?_, load t' hs' (by omega) (by omega) (by omega) (by omega), ?_⟩
    · simp only [makeFast, hc, R_bind_ok, if_true, he]
    · rw [FastObj.nav_eq]; exact .runs hS hlen hu hu' hc he (by rw [g1, hth.1])

theorem wordLg_pow {lg : Nat} (h : 3 ≤ lg ∧ lg ≤ 6) : wordLg (2 ^ lg) = some lg ∧ queryLg (2 ^ lg) = lg ∧ 2 ^ lg < 2 ^ 16 := by
  obtain rfl | rfl | rfl | rfl : lg = 3 ∨ lg = 4 ∨ lg = 5 ∨ lg = 6 := by omega
  all_goals decide

theorem readFastFileHeader_ok {rank wsize : Nat} {runs levelwise : Bool} (hr : rank < 2 ^ 32) (h1 : rank ≠ 1) (hw : wsize < 2 ^ 16)
    (rest : Bytes) : readFastFileHeader (fastFileHeader rank runs levelwise wsize ++ rest) =
      .ok (⟨rank, 512, runs, levelwise, wsize⟩, rest) := by
  simp only [fastFileHeader, List.append_assoc, readFastFileHeader]
  rw [readLE_leBytes 4 rank _ (by omega), R_bind_ok]
  simp only [if_neg h1, R_bind_ok]
  rw [readBool_boolByte, R_bind_ok]
  simp only
  rw [readBool_boolByte, R_bind_ok]
  simp only
  rw [readLE_leBytes 2 wsize _ (by omega), R_bind_ok]

/-- What `build_fastTries` writes, and what `loadTries` makes of it. -/
theorem buildFast_ok (B : BvIO) (K : Nat → RankIO) {lg : Nat} (hlg : 3 ≤ lg ∧ lg ≤ 6) (pad : Nat) (junk : Nat → FastJunk)
    (hj : ∀ i, (junk i).heightWithRuns < 2 ^ 16) {mn mx rank : Nat} (runs levelwise : Bool)
    {one u : Nat} (hone : one < 2 ^ 32) (hu : 2 ^ (lg - 1) < u) (hu' : u < 2 ^ 32) {lists : List (List Nat)}
    (hl : ∀ l ∈ lists, l.length < 2 ^ 30) (hv : ∀ l ∈ kept mn mx lists, ValidSet l u) (hn : (kept mn mx lists).length < 2 ^ 32) :
    ∃ (part : Nat → Bytes) (obj : Nat → FastObj (K (if rank = 0 then 0 else 2))),
      buildFast B K pad junk mn mx rank runs levelwise (2 ^ lg) (collectionBytes one u lists) =
        .ok (some (fastFileHeader rank runs levelwise (2 ^ lg) ++ (leBytes 4 (kept mn mx lists).length ++ (leBytes 4 one ++
          (leBytes 4 u ++ (List.range' 0 (kept mn mx lists).length).flatMap part))))) ∧
      ∀ j, j < (kept mn mx lists).length →
        (∀ t0 : FastTrie, t0.lastLevel = [] → ∀ rest, fastLoad B (K (if rank = 0 then 0 else 2)) lg t0 (part j ++ rest) =
          .ok (obj j, rest)) ∧
        FastCoded lg pad (fastHeight lg u) (runs, (kept mn mx lists).getD j []) ((obj j).nav pad) := by
  have hx : ∀ l ∈ kept mn mx lists, ∀ x ∈ l, x < 2 ^ 32 := fun l h x hx => by have := (hv l h).below x hx; omega
  have key : ∀ j, ∃ (b : Bytes) (o : FastObj (K (if rank = 0 then 0 else 2))), ∀ h : j < (kept mn mx lists).length,
      makeFast B (K (if rank = 0 then 0 else 2)) lg pad junk runs u j (kept mn mx lists)[j] = .ok b ∧
      (∀ t0 : FastTrie, t0.lastLevel = [] → ∀ rest, fastLoad B (K (if rank = 0 then 0 else 2)) lg t0 (b ++ rest) = .ok (o, rest)) ∧
      FastCoded lg pad (fastHeight lg u) (runs, (kept mn mx lists)[j]) (o.nav pad) := by
    intro j
    by_cases h : j < (kept mn mx lists).length
    · have hm := List.getElem_mem h
      have hll : (kept mn mx lists)[j].length < 2 ^ 30 := hl _ (List.mem_of_mem_filter hm)
      obtain ⟨b, o, e1, e2, e3⟩ := fast_saved B (K (if rank = 0 then 0 else 2)) hlg (hv _ hm) (by omega) hu (by omega) junk j (hj j)
        pad runs
      exact ⟨b, o, fun _ => ⟨e1, e2, e3⟩⟩
    · exact ⟨[], ⟨⟨0, 0, 0, false, false, [], []⟩, (K _).of []⟩, fun h' => absurd h' h⟩
  choose part obj hk using key
  refine ⟨part, obj, ?_, fun j hj => ?_⟩
  · rw [buildFast, (wordLg_pow hlg).1]
    simp only
    rw [buildFile_lists hone hu' hl hx hn, makeAll_ok (part := part) _ 0 (fun j h => by rw [Nat.zero_add]; exact (hk j h).1)]
    simp only [R_bind_ok, List.append_assoc]
  · have := hk j hj
    rw [List.getD_eq_getElem?_getD, List.getElem?_eq_getElem hj]
    exact this.2

theorem forall2_map {A C : Type} {P : List Nat → C → Prop} {g : A → List Nat} {f : A → C} : (q : List A) →
    (∀ x ∈ q, P (g x) (f x)) → List.Forall₂ P (q.map g) (q.map f)
  | [], _ => .nil
  | x :: q, h => .cons (h x (by simp)) (forall2_map q fun y hy => h y (List.mem_cons_of_mem _ hy))

/-- The query tool on a file built by `build_fastTries`, given what `Intersect` does on the tries of its lists. -/
theorem queryFast_ok (B : BvIO) (K : Nat → RankIO) {lg : Nat} (hlg : 3 ≤ lg ∧ lg ≤ 6) (pad : Nat) (junk junk' : Nat → FastJunk)
    (hj : ∀ i, (junk i).heightWithRuns < 2 ^ 16) {mn mx rank : Nat} (hr : rank < 2 ^ 32) (hr1 : rank ≠ 1) (runs levelwise : Bool)
    {one u : Nat} (hone : one < 2 ^ 32) (hu : 2 ^ (lg - 1) < u) (hu' : u < 2 ^ 32) {lists : List (List Nat)}
    (hl : ∀ l ∈ lists, l.length < 2 ^ 30) (hv : ∀ l ∈ kept mn mx lists, ValidSet l u) (hn : (kept mn mx lists).length < 2 ^ 32)
    (parallel : Bool) (env : Nat → Env) {P : List (List Nat) → List Nat → Prop}
    (hI : ∀ (sets : List (List Nat)) (Ts : List FNav) (i : Nat),
      List.Forall₂ (fun S n => FastCoded lg pad (fastHeight lg u) (runs, S) n) sets Ts → (∀ S ∈ sets, S ∈ kept mn mx lists) → Ts ≠ [] → Ts.length ≤ 16 →
      ∃ R, fastIntersect lg Ts runs parallel (env i) = .ok R ∧ P sets R)
    {queries : List (List Nat)} (hq : queries ≠ []) (hq0 : ∀ q ∈ queries, q ≠ [])
    (hq1 : ∀ q ∈ queries, q.length ≤ 16 → ∀ i ∈ q, i < (kept mn mx lists).length) :
    ∃ f as, buildFast B K pad junk mn mx rank runs levelwise (2 ^ lg) (collectionBytes one u lists) = .ok (some f) ∧
      queryFast B K pad junk' parallel env queries f = .ok as ∧
      List.Forall₂ (fun q a => (q.length ≤ 16 → ∃ R, a = some R ∧ P (q.map fun i => (kept mn mx lists).getD i []) R) ∧
        (16 < q.length → a = none)) queries as := by
  obtain ⟨part, obj, hb, hp⟩ := buildFast_ok B K (rank := rank) hlg pad junk hj runs levelwise hone hu hu' hl hv hn
  obtain ⟨hs1, hs2⟩ := setIndexes_spec queries
  have hsne : setIndexes queries ≠ [] := by
    obtain ⟨q, hqm⟩ := List.exists_mem_of_ne_nil _ hq
    obtain ⟨x, hx⟩ := List.exists_mem_of_ne_nil _ (hq0 q hqm)
    exact List.ne_nil_of_mem ((hs2 x).2 ⟨q, hqm, hx⟩)
  have hload := loadLoop_ok (load := fun i s => fastLoad B (K (if rank = 0 then 0 else 2)) lg (fastDefault (junk' i)) s)
    (part := part) (obj := obj) (kept mn mx lists).length 0 (setIndexes queries)
    (fun j _ hj2 rest => (hp j (by omega)).1 _ rfl rest) hsne hs1 (fun _ _ => Nat.zero_le _) []
  rw [List.append_nil] at hload
  have hlook : ∀ q ∈ queries, q.length ≤ 16 → ∀ x ∈ q, (((setIndexes queries).filter (· < 0 + (kept mn mx lists).length)).map
      fun j => (j, obj j)).lookup x = some (obj x) := by
    intro q hqm hle x hx
    refine lookup_map obj x _ (List.mem_filter.2 ⟨(hs2 x).2 ⟨q, hqm, hx⟩, ?_⟩)
    simpa using hq1 q hqm hle x hx
  obtain ⟨as, ha, hf⟩ := answerAll_ok (m := ((setIndexes queries).filter (· < 0 + (kept mn mx lists).length)).map
      fun j => (j, obj j)) (f := obj) (inter := fun i ts => fastIntersect lg (ts.map fun t => t.nav pad) runs parallel (env i))
    (P := fun q R => P (q.map fun i => (kept mn mx lists).getD i []) R) queries 0 hlook (fun q hqm hle j => by
      rw [List.map_map]
      refine hI _ _ j (forall2_map q fun x hx => (hp x (hq1 q hqm hle x hx)).2) (fun S hS => ?_) ?_ ?_
      · obtain ⟨x, hx, rfl⟩ := List.mem_map.1 hS
        have := hq1 q hqm hle x hx
        rw [List.getD_eq_getElem?_getD, List.getElem?_eq_getElem this]
        exact List.getElem_mem this
      · simpa using hq0 q hqm
      · simpa using hle)
  refine ⟨_, as, hb, ?_, hf⟩
  rw [queryFast, readFastFileHeader_ok hr hr1 (wordLg_pow hlg).2.2, R_bind_ok]
  simp only [(wordLg_pow hlg).2.1, loadTriesFast]
  rw [readLE_leBytes 4 _ _ (by omega), R_bind_ok]
  simp only
  rw [readLE_leBytes 4 one _ (by omega), R_bind_ok]
  simp only
  rw [readLE_leBytes 4 u _ (by omega), R_bind_ok]
  simp only
  rw [hload, R_bind_ok]
  exact ha

end CBT
