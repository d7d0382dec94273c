import Verif.Model.ToolsTries
import Verif.Proof.ToolsFast

/-!
# Flat and level-wise tries through the tools
-/

namespace CBT

open Spec

theorem flat_encode_heights (t : FlatTrie) (pad : Nat) :
    Post (t.encodeRuns pad) fun t' => t'.height = t.height ∧ t'.heightWithRuns ≤ t.height := by
  unfold FlatTrie.encodeRuns
  refine Post.ite (fun _ => ?_) (fun h0 => ?_)
  · exact Post.bind (Q := fun _ => False) Post.error (fun _ h => h.elim)
  · have h1 : RunSt.Sized t.height { ones := List.replicate t.height [], pos := List.replicate t.height 0 } := by
      simp [RunSt.Sized]
    refine (writeCompress_sized _ _ _ _ h1).bind fun a h => ?_
    obtain ⟨s, b⟩ := a
    obtain ⟨ho, hp⟩ : s.ones.length = t.height ∧ s.pos.length = t.height := h
    have hl : lastNonEmpty s.pos 0 0 + 1 ≤ t.height := by
      rcases lastNonEmpty_le s.pos 0 0 (Nat.le_refl _) with h | h <;> omega
    exact (Post.any _).bind fun p _ => (Post.any _).bind fun q _ => Post.ok ⟨rfl, hl⟩

/-- The height of the flat and level-wise tries over the universe `u`. -/
def trieHeight (u : Nat) : Nat := Nat.log2 (u - 1) + 1

/-- The trie that the options choose. -/
def codingOf (runs levelwise : Bool) : Coding := if runs then (if levelwise then .level else .flat) else .plain

theorem codingOf_runs (runs levelwise : Bool) : (codingOf runs levelwise).runs = runs := by
  cases runs <;> cases levelwise <;> rfl

theorem codingOf_flat {runs levelwise : Bool} : codingOf runs levelwise = .flat ↔ runs = true ∧ levelwise = false := by
  cases runs <;> cases levelwise <;> simp [codingOf]

/-- A trie that went through `serialize` and `load`: what was written, and the interface of what was loaded. -/
structure Saved (pad u : Nat) (S : List Nat) (runs levelwise : Bool) (load : Bytes → R (Nav × Bytes)) (b : Bytes) (n : Nav) : Prop where
  loads : ∀ rest, load (b ++ rest) = .ok (n, rest)
  known : KnownTrie pad (trieHeight u) (codingOf runs levelwise, S) n

theorem flat_saved (B L : BvIO) (K : RankIO) {S : List Nat} {u : Nat} (hS : ValidSet S u)
    (hlen : S.length < 2 ^ 32) (hu : 3 ≤ u) (hu' : u ≤ 2 ^ 62) (pad : Nat) (runs : Bool) :
    ∃ b n, makeFlat B L K pad true runs u S = .ok b ∧
      Saved pad u S runs false (fun s => flatLoad B L K s >>= fun p => .ok (p.1.nav pad, p.2)) b n := by
  obtain ⟨t, t', ht, he, h1, h2⟩ := C30_flat_size hS hlen hu hu' pad
  obtain ⟨T, ht', -⟩ := flat_built hS hlen hu hu'
  obtain ⟨g1, g2⟩ := flat_encode_heights t pad t' he
  have hd := log2_bounds hu hu'
  have hth : t.height = trieHeight u ∧ t.heightWithRuns = 0 := by
    rw [ht] at ht'; injection ht' with e; subst e; exact ⟨rfl, rfl⟩
  have hht : t.height ≤ 62 := by rw [hth.1, trieHeight]; omega
  have hb : t.bTrie.length + t.lastLevel.length < 2 ^ 64 := by
    have : S.length * (t.height - 1) ≤ 2 ^ 32 * 62 := Nat.mul_le_mul (by omega) (by omega)
    omega
  have load : ∀ (x : FlatTrie), x.height ≤ 62 → x.heightWithRuns ≤ 62 → x.bTrie.length + x.lastLevel.length < 2 ^ 64 → ∀ rest,
      (flatLoad B L K ((x.serialize B L K true).1 ++ rest) >>= fun p => .ok (p.1.nav pad, p.2)) = .ok (x.nav pad, rest) := by
    intro x a b c rest
    rw [flatLoad_serialize B L K (by omega) (by omega) (by omega) (by omega) rest, R_bind_ok]
    simp only [FlatObj.nav_eq]
  cases runs with
  | false =>
    have hp : PlainTrie pad (trieHeight u) S (t.nav pad) := .flat hS hlen hu hu' ht hth.1
    refine ⟨(t.serialize B L K true).1, t.nav pad, ?_, load t hht (by omega) hb, .plain hp⟩
    simp only [makeFlat, ht, R_bind_ok, Bool.false_eq_true, if_false]
  | true =>
    refine ⟨(t'.serialize B L K true).1, t'.nav pad, ?_, load t' (by omega) (by omega) (by omega),
      .flat hS hlen hu hu' ht he (by rw [g1, hth.1])⟩
    simp only [makeFlat, ht, R_bind_ok, if_true, he]

theorem level_saved (B : BvIO) (K : RankIO) {S : List Nat} {u : Nat} (hS : ValidSet S u)
    (hlen : S.length < 2 ^ 32) (hu : 2 ≤ u) (hu' : u ≤ 2 ^ 62) (pad : Nat) (runs : Bool) :
    ∃ b n, makeLevel B K pad runs u S = .ok b ∧
      Saved pad u S runs true (fun s => levelLoad B K s >>= fun p => .ok (p.1.nav pad, p.2)) b n := by
  obtain ⟨t, t', ht, he, h1, h2⟩ := C30_level_size hS (by omega) hu (by omega) false pad
  obtain ⟨T, ht', hne, -⟩ := level_built hS (by omega) hu (by omega)
  have hd := level_depth hu (show u ≤ 2 ^ 63 by omega)
  obtain ⟨k, hk, -, he'⟩ := levelOf_encode (pad := pad) (il := false) (hw := 0) (runs := false) (by omega) hne
  rw [ht] at ht'; injection ht' with e; subst e
  rw [he] at he'; injection he' with e; subst e
  have hb : ∀ x : LevelTrie, x.bTrie.flatten.length < 2 ^ 64 → ∀ v ∈ x.bTrie, v.length < 2 ^ 64 := by
    intro x hx v hv
    have := (List.sublist_flatten_of_mem hv).length_le
    omega
  have hlt : (levelOf _ T 0 false).bTrie.flatten.length < 2 ^ 64 := by
    have hh := levelOf_height (T := T) (hw := 0) (runs := false)
    have : S.length * ((levelOf _ T 0 false).height - 1) ≤ 2 ^ 32 * 62 := Nat.mul_le_mul (by omega) (by omega)
    omega
  have load : ∀ (x : LevelTrie), x.height = trieHeight u → x.heightWithRuns ≤ 63 → x.bTrie.flatten.length < 2 ^ 64 → ∀ rest,
      (levelLoad B K ((x.serialize B K).1 ++ rest) >>= fun p => .ok (p.1.nav pad, p.2)) = .ok (x.nav false pad, rest) := by
    intro x a b c rest
    have hl : x.bTrie.length = trieHeight u := a
    rw [trieHeight] at hl
    rw [levelLoad_serialize B K (by intro h; rw [h] at hl; simp at hl) (by omega) (by omega) (hb x c) rest, R_bind_ok]
    simp only [LevelObj.nav_eq]
  cases runs with
  | false =>
    have hp : PlainTrie pad (trieHeight u) S ((levelOf _ T 0 false).nav false pad) :=
      .level false hS (by omega) hu (by omega) ht levelOf_height
    refine ⟨_, _, ?_, load _ levelOf_height (by simp [levelOf]) hlt, .plain hp⟩
    simp only [makeLevel, ht, R_bind_ok, Bool.false_eq_true, if_false]
  | true =>
    refine ⟨_, _, ?_, load _ levelOf_height (by simp only [levelOf]; omega) (by omega),
      .level false hS (by omega) hu (by omega) ht he levelOf_height⟩
    simp only [makeLevel, ht, R_bind_ok, if_true, he]

/-- The option combinations whose files the query tool reads: not `binTrie_il`, and no block size other than 128, 256, 512. -/
def Supported (rank block : Nat) (levelwise : Bool) : Prop :=
  rank ≠ 1 ∨ levelwise = false ∧ (block = 128 ∨ block = 256 ∨ block = 512)

instance (rank block : Nat) (levelwise : Bool) : Decidable (Supported rank block levelwise) := by
  unfold Supported; infer_instance

theorem trie_saved (F : Formats) {rank block : Nat} {runs levelwise : Bool} (hs : Supported rank block levelwise) {S : List Nat}
    {u : Nat} (hS : ValidSet S u) (hlen : S.length < 2 ^ 32) (hu : 3 ≤ u) (hu' : u ≤ 2 ^ 62) (pad i : Nat) :
    ∃ b n, makeTrie F pad true rank block runs levelwise u i S = .ok b ∧
      Saved pad u S runs levelwise (loadTrie F pad ⟨rank, if rank = 1 then block else 512, runs, levelwise⟩) b n := by
  by_cases h1 : rank = 1
  · subst h1
    obtain ⟨rfl, hb⟩ := hs.resolve_left (by simp)
    have e : builtBlock block = block := by
      rcases hb with rfl | rfl | rfl <;> rfl
    obtain ⟨b, n, hm, hsv⟩ := flat_saved (F.il block) F.bv (F.rankIl block) hS hlen hu hu' pad runs
    refine ⟨b, n, by simp only [makeTrie, if_true, Bool.false_eq_true, if_false, e]; exact hm, ⟨fun rest => ?_, hsv.known⟩⟩
    rw [← hsv.loads rest, loadTrie]
    simp only [if_true, Bool.false_eq_true, if_false, hb]
    rfl
  · cases levelwise with
    | false =>
      obtain ⟨b, n, hm, hsv⟩ := flat_saved F.bv F.bv (F.rank rank) hS hlen hu hu' pad runs
      refine ⟨b, n, by simp only [makeTrie, Bool.false_eq_true, if_false, h1]; exact hm, ⟨fun rest => ?_, hsv.known⟩⟩
      rw [← hsv.loads rest, loadTrie]
      simp only [Bool.false_eq_true, if_false, h1]
    | true =>
      obtain ⟨b, n, hm, hsv⟩ := level_saved F.bv (F.rank rank) hS hlen (by omega) hu' pad runs
      refine ⟨b, n, by simp only [makeTrie, if_false, if_true, h1]; exact hm, ⟨fun rest => ?_, hsv.known⟩⟩
      rw [← hsv.loads rest, loadTrie]
      simp only [if_false, if_true, h1]

theorem readTriesFileHeader_ok {rank block : Nat} {runs levelwise : Bool} (hr : rank < 2 ^ 32) (hb : block < 2 ^ 32)
    (rest : Bytes) : readTriesFileHeader (triesFileHeader rank block runs levelwise ++ rest) =
      .ok (⟨rank, if rank = 1 then block else 512, runs, levelwise⟩, rest) := by
  simp only [triesFileHeader, List.append_assoc, readTriesFileHeader]
  rw [readLE_leBytes 4 rank _ (by omega), R_bind_ok]
  by_cases h1 : rank = 1
  · simp only [if_pos h1]
    rw [readLE_leBytes 4 block _ (by omega), R_bind_ok]
    simp only
    rw [readBool_boolByte, R_bind_ok]
    simp only
    rw [readBool_boolByte, R_bind_ok]
  · simp only [if_neg h1, R_bind_ok, List.nil_append]
    rw [readBool_boolByte, R_bind_ok]
    simp only
    rw [readBool_boolByte, R_bind_ok]

theorem getAll_ok {seqs : List Nav} {f : Nat → Nav} : (q : List Nat) → (∀ i ∈ q, seqs[i]? = some (f i)) →
    getAll seqs q = .ok (q.map f)
  | [], _ => rfl
  | i :: q, h => by
    rw [getAll, vGet, h i (by simp)]
    simp only [R_bind_ok]
    rw [getAll_ok q fun j hj => h j (List.mem_cons_of_mem _ hj), R_bind_ok, List.map_cons]

theorem answerLog_ok {seqs : List Nav} {f : Nat → Nav} {inter : Nat → List Nav → R (List Nat)}
    {P : List Nat → List Nat → Prop} : (queries : List (List Nat)) → (i : Nat) →
    (∀ q ∈ queries, ∀ x ∈ q, seqs[x]? = some (f x)) →
    (∀ q ∈ queries, q.length ≤ 16 → ∀ j, ∃ R, inter j (q.map f) = .ok R ∧ P q R) →
    ∃ as, answerLog seqs inter i queries = .ok as ∧
      List.Forall₂ (fun q a => (q.length ≤ 16 → ∃ R, a = some R ∧ P q R) ∧ (16 < q.length → a = none)) queries as
  | [], _, _, _ => ⟨[], rfl, .nil⟩
  | q :: qs, i, h1, h2 => by
    obtain ⟨as, ha, hf⟩ := answerLog_ok qs (i + 1) (fun q hq => h1 q (List.mem_cons_of_mem _ hq))
      (fun q hq => h2 q (List.mem_cons_of_mem _ hq))
    rw [answerLog, getAll_ok q (h1 q (by simp)), R_bind_ok, List.length_map]
    by_cases hq : q.length ≤ 16
    · obtain ⟨R, hR, hP⟩ := h2 q (by simp) hq i
      refine ⟨some R :: as, ?_, .cons ⟨fun _ => ⟨R, rfl, hP⟩, fun h => by omega⟩ hf⟩
      simp only [if_pos hq, hR, R_bind_ok, ha, pure, Except.pure]
    · refine ⟨none :: as, ?_, .cons ⟨fun h => absurd h hq, fun _ => rfl⟩ hf⟩
      simp only [if_neg hq, R_bind_ok, ha, pure, Except.pure]

/-- The query tool on a file built by `build_tries`: it answers from the tries of the lists. -/
theorem queryLog_file (F : Formats) (pad : Nat) {mn mx rank block : Nat} {runs levelwise : Bool} (hr : rank < 2 ^ 32)
    (hbl : block < 2 ^ 32) (hs : Supported rank block levelwise)
    {one u : Nat} (hone : one < 2 ^ 32) (hu : 3 ≤ u) (hu' : u < 2 ^ 32) {lists : List (List Nat)}
    (hl : ∀ l ∈ lists, l.length < 2 ^ 30) (hv : ∀ l ∈ kept mn mx lists, ValidSet l u) (hn : (kept mn mx lists).length < 2 ^ 32) :
    ∃ f nav, buildTries F pad true mn mx rank block runs levelwise (collectionBytes one u lists) = .ok f ∧
      (∀ x, x < (kept mn mx lists).length →
        KnownTrie pad (trieHeight u) (codingOf runs levelwise, (kept mn mx lists).getD x []) (nav x)) ∧
      ∀ parallel env queries, queryLog F pad parallel env queries f =
        answerLog ((List.range' 0 (kept mn mx lists).length).map nav) (fun i ts => intersect ts runs parallel (env i)) 0 queries := by
  have hx : ∀ l ∈ kept mn mx lists, ∀ x ∈ l, x < 2 ^ 32 := fun l h x hx => by have := (hv l h).below x hx; omega
  have key : ∀ j, ∃ (b : Bytes) (n : Nav), ∀ h : j < (kept mn mx lists).length,
      makeTrie F pad true rank block runs levelwise u j (kept mn mx lists)[j] = .ok b ∧
      Saved pad u (kept mn mx lists)[j] runs levelwise (loadTrie F pad ⟨rank, if rank = 1 then block else 512, runs, levelwise⟩) b n := by
    intro j
    by_cases h : j < (kept mn mx lists).length
    · have hm := List.getElem_mem h
      have hll : (kept mn mx lists)[j].length < 2 ^ 30 := hl _ (List.mem_of_mem_filter hm)
      obtain ⟨b, n, e1, e2⟩ := trie_saved F hs (runs := runs) (hv _ hm) (by omega) hu (by omega) pad j
      exact ⟨b, n, fun _ => ⟨e1, e2⟩⟩
    · exact ⟨[], ⟨0, fun _ _ => .ok 0, fun _ _ => .ok 0, fun _ _ => .ok 0⟩, fun h' => absurd h' h⟩
  choose part nav hk using key
  have hsaved : ∀ x, x < (kept mn mx lists).length → Saved pad u ((kept mn mx lists).getD x []) runs levelwise
      (loadTrie F pad ⟨rank, if rank = 1 then block else 512, runs, levelwise⟩) (part x) (nav x) := by
    intro x hx
    rw [List.getD_eq_getElem?_getD, List.getElem?_eq_getElem hx]
    exact (hk x hx).2
  have hmany := readMany_flatMap (read := loadTrie F pad ⟨rank, if rank = 1 then block else 512, runs, levelwise⟩) (write := part)
    (f := nav) (List.range' 0 (kept mn mx lists).length) [] (fun x hx rest => (hsaved x (by
      rw [List.mem_range'_1] at hx; omega)).loads rest)
  rw [List.length_range', List.append_nil] at hmany
  refine ⟨triesFileHeader rank block runs levelwise ++ (leBytes 4 (kept mn mx lists).length ++ (leBytes 4 one ++
    (leBytes 4 u ++ (List.range' 0 (kept mn mx lists).length).flatMap part))), nav, ?_, fun x hx => (hsaved x hx).known,
    fun parallel env queries => ?_⟩
  · rw [buildTries, buildFile_lists hone hu' hl hx hn, makeAll_ok (part := part) _ 0 (fun j h => by rw [Nat.zero_add]; exact (hk j h).1)]
    simp only [R_bind_ok, List.append_assoc]
  · rw [queryLog, readTriesFileHeader_ok hr hbl, R_bind_ok]
    simp only [loadSequences]
    rw [readLE_leBytes 4 _ _ (by omega), R_bind_ok]
    simp only
    rw [readLE_leBytes 4 one _ (by omega), R_bind_ok]
    simp only
    rw [readLE_leBytes 4 u _ (by omega), R_bind_ok]
    simp only
    rw [hmany]
    rfl

/-- The query tool on a file built by `build_tries`, given what `Intersect` does on the tries of its lists. -/
theorem queryLog_ok (F : Formats) (pad : Nat) {mn mx rank block : Nat} {runs levelwise : Bool} (hr : rank < 2 ^ 32)
    (hbl : block < 2 ^ 32) (hs : Supported rank block levelwise)
    {one u : Nat} (hone : one < 2 ^ 32) (hu : 3 ≤ u) (hu' : u < 2 ^ 32) {lists : List (List Nat)}
    (hl : ∀ l ∈ lists, l.length < 2 ^ 30) (hv : ∀ l ∈ kept mn mx lists, ValidSet l u) (hn : (kept mn mx lists).length < 2 ^ 32)
    (hc : runs = true → levelwise = false → ∀ l ∈ kept mn mx lists, ∃ x ∈ l, ∃ y, y / 4 = x / 4 ∧ y ∉ l)
    (parallel : Bool) (env : Nat → Env) {P : List (List Nat) → List Nat → Prop}
    (hI : ∀ (sets : List (List Nat)) (Ts : List Nav) (i : Nat),
      List.Forall₂ (fun S n => CodedTrie pad (trieHeight u) (runs, S) n) sets Ts → (∀ S ∈ sets, S ∈ kept mn mx lists) → Ts ≠ [] → Ts.length ≤ 16 →
      ∃ R, intersect Ts runs parallel (env i) = .ok R ∧ P sets R)
    {queries : List (List Nat)} (hq0 : ∀ q ∈ queries, q ≠ []) (hq1 : ∀ q ∈ queries, ∀ i ∈ q, i < (kept mn mx lists).length) :
    ∃ f as, buildTries F pad true mn mx rank block runs levelwise (collectionBytes one u lists) = .ok f ∧
      queryLog F pad parallel env queries f = .ok as ∧
      List.Forall₂ (fun q a => (q.length ≤ 16 → ∃ R, a = some R ∧ P (q.map fun i => (kept mn mx lists).getD i []) R) ∧
        (16 < q.length → a = none)) queries as := by
  obtain ⟨f, nav, h1, h2, h3⟩ := queryLog_file F pad (runs := runs) hr hbl hs hone hu hu' hl hv hn
  have hget : ∀ q ∈ queries, ∀ x ∈ q, ((List.range' 0 (kept mn mx lists).length).map nav)[x]? = some (nav x) := by
    intro q hqm x hx
    rw [List.getElem?_map, List.getElem?_range' (hq1 q hqm x hx)]
    simp
  have hmem : ∀ x, x < (kept mn mx lists).length → (kept mn mx lists).getD x [] ∈ kept mn mx lists := by
    intro x this
    rw [List.getD_eq_getElem?_getD, List.getElem?_eq_getElem this]
    exact List.getElem_mem this
  obtain ⟨as, ha, hf⟩ := answerLog_ok (inter := fun i ts => intersect ts runs parallel (env i))
    (P := fun q R => P (q.map fun i => (kept mn mx lists).getD i []) R) queries 0 hget (fun q hqm hle j => by
      refine hI _ _ j (forall2_map q fun x hx => ?_) (fun S hS => ?_) ?_ ?_
      · have := (h2 x (hq1 q hqm x hx)).coded fun h => by
          obtain ⟨a, b⟩ := codingOf_flat.1 h
          exact hc a b _ (hmem x (hq1 q hqm x hx))
        rwa [codingOf_runs] at this
      · obtain ⟨x, hx, rfl⟩ := List.mem_map.1 hS
        exact hmem x (hq1 q hqm x hx)
      · simpa using hq0 q hqm
      · simpa using hle)
  exact ⟨f, as, h1, (h3 parallel env queries).trans ha, hf⟩

end CBT
