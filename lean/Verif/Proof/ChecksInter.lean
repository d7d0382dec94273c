import Verif.Proof.Checks
import Verif.Props.UnreadablePar
import Verif.SpecToolsRuns

/-!
# Lemmas about the intersection checkers
-/

namespace CBT

open Spec

/-! ## The loop over the queries -/

theorem diffsFrom_ok {b : List Nat} : (a : List Nat) → (i c : Nat) → c < 10 → i + a.length ≤ b.length →
    diffsFrom b i c a = .ok ((((a.zip (b.drop i)).zipIdx i).filter fun p => decide (p.1.1 ≠ p.1.2)).map
      (fun p => (p.2, p.1.1, p.1.2)) |>.take (10 - c))
  | [], i, c, _, _ => by simp [diffsFrom]
  | x :: xs, i, c, hc, h => by
    have hi : i < b.length := by simp only [List.length_cons] at h; omega
    have ih := fun c' hc' => diffsFrom_ok (b := b) xs (i + 1) c' hc' (by simp only [List.length_cons] at h; omega)
    have e : b.drop i = b[i] :: b.drop (i + 1) := List.drop_eq_getElem_cons hi
    rw [diffsFrom, vGet, List.getElem?_eq_getElem hi]
    simp only [R_bind_ok]
    rw [e, List.zip_cons_cons, List.zipIdx_cons]
    by_cases hx : x = b[i]
    · rw [if_neg (by simpa using hx), List.filter_cons_of_neg (by simpa using hx), ih c hc]
    · rw [if_pos hx, List.filter_cons_of_pos (by simpa using hx), List.map_cons]
      by_cases h9 : c + 1 = 10
      · rw [if_pos h9, show 10 - c = 1 by omega]; simp
      · rw [if_neg h9, ih (c + 1) (by omega), R_bind_ok, show 10 - c = 10 - (c + 1) + 1 by omega, List.take_succ_cons]

theorem diffsFrom_differences {a b : List Nat} (h : a.length ≤ b.length) : diffsFrom b 0 0 a = .ok ((differences a b).take 10) := by
  rw [diffsFrom_ok a 0 0 (by decide) (by omega)]; rfl

theorem decodeAll_ok {T : Type} {m : List (Nat × T)} {dec : T → R (List Nat)} {f : Nat → T} {D : Nat → List Nat} : (q : List Nat) →
    (∀ x ∈ q, m.lookup x = some (f x) ∧ dec (f x) = .ok (D x)) → decodeAll m dec q = .ok (q.map f, q.map D)
  | [], _ => rfl
  | x :: q, h => by
    obtain ⟨h1, h2⟩ := h x (by simp)
    rw [decodeAll, h1]
    simp only [h2, R_bind_ok]
    rw [decodeAll_ok q fun y hy => h y (List.mem_cons_of_mem _ hy), R_bind_ok]
    rfl

theorem decodeAll_bad {T : Type} {m : List (Nat × T)} {dec : T → R (List Nat)} {f : Nat → T} {D : Nat → List Nat} {Bad : Nat → Prop} :
    (q : List Nat) → (∀ x ∈ q, m.lookup x = some (f x) ∧ (¬ Bad x → dec (f x) = .ok (D x)) ∧ (Bad x → dec (f x) = .error .oob)) →
    (∃ x ∈ q, Bad x) → decodeAll m dec q = .error .oob
  | [], _, h => by simp at h
  | x :: q, h, hb => by
    obtain ⟨h1, h2, h3⟩ := h x (by simp)
    rw [decodeAll, h1]
    by_cases hx : Bad x
    · simp only [h3 hx]; rfl
    · simp only [h2 hx, R_bind_ok]
      rw [decodeAll_bad q (fun y hy => h y (List.mem_cons_of_mem _ hy)) (by
        obtain ⟨y, hy, hby⟩ := hb
        rcases List.mem_cons.1 hy with rfl | hy
        · exact (hx hby).elim
        · exact ⟨y, hy, hby⟩)]
      rfl

theorem checkQueries_append {T : Type} (m : List (Nat × T)) (dec : T → R (List Nat)) (inter : Nat → List T → R (List Nat))
    (brute : List (List Nat) → R (List Nat)) (qs2 : List (List Nat)) : (qs1 : List (List Nat)) → (j nq : Nat) →
    checkQueries m dec inter brute j nq (qs1 ++ qs2) = checkQueries m dec inter brute j nq qs1 >>= fun o =>
      if o.mismatch = none then checkQueries m dec inter brute (j + qs1.length) o.nq qs2 else .ok o
  | [], j, nq => by
    rw [checkQueries, R_bind_ok]
    simp
  | q :: qs1, j, nq => by
    have ih := checkQueries_append m dec inter brute qs2 qs1 (j + 1)
    simp only [List.cons_append, checkQueries, List.length_cons]
    rw [show j + (qs1.length + 1) = j + 1 + qs1.length by omega]
    cases decodeAll m dec q with
    | error e => rfl
    | ok r =>
      obtain ⟨ts, sets⟩ := r
      simp only [R_bind_ok]
      by_cases hl : ts.length ≤ 16
      · simp only [if_pos hl]
        cases inter j ts with
        | error e => rfl
        | ok r =>
          simp only [R_bind_ok]
          cases brute sets with
          | error e => rfl
          | ok fb =>
            simp only [R_bind_ok]
            by_cases hr : r = fb
            · simp only [hr, ne_eq, not_true_eq_false, if_false]
              exact ih _
            · simp only [ne_eq, hr, not_false_eq_true, if_true]
              cases diffsFrom fb 0 0 r with
              | error e => rfl
              | ok d => rfl
      · simp only [if_neg hl]
        exact ih _

/-- The answers to the queries from number `j` on, if `A i q` is the answer to the query `q` with number `i`. -/
def answersFrom (A : Nat → List Nat → List Nat) : Nat → List (List Nat) → List (Option (List Nat))
  | _, [] => []
  | j, q :: qs => (if q.length ≤ 16 then some (A j q) else none) :: answersFrom A (j + 1) qs

/-- The complaint as it is specified. -/
def CheckOutcome.complaint (o : CheckOutcome) : Option (Nat × Nat × Nat × List (Nat × Nat × Nat)) :=
  o.mismatch.map fun m => (m.query, m.trieSize, m.setSize, m.diffs)

theorem length_le_of_common {R S : List Nat} (hn : R.Nodup) (h : ∀ x ∈ R, x ∈ S) : R.length ≤ S.length :=
  (hn.subperm h).length_le

theorem isIntersection_unique {sets : List (List Nat)} {R S : List Nat} (hR : IsIntersection sets R) (hS : IsIntersection sets S) : R = S := by
  refine List.Perm.eq_of_pairwise (le := (· < ·)) ?_ hR.increasing hS.increasing ?_
  · intro a b _ _ h1 h2; omega
  · refine (List.perm_ext_iff_of_nodup ?_ ?_).2 fun x => by rw [hR.mem, hS.mem]
    · exact hR.increasing.imp (by intros; omega)
    · exact hS.increasing.imp (by intros; omega)

theorem checkQueries_verdict {T : Type} {m : List (Nat × T)} {dec : T → R (List Nat)} {inter : Nat → List T → R (List Nat)}
    {sort : List (List Nat) → List (List Nat)} (hsort : ∀ S, SortedBySize S (sort S)) {f : Nat → T} {sets : List (List Nat)}
    {A : Nat → List Nat → List Nat} : (queries : List (List Nat)) → (j nq : Nat) →
    (∀ q ∈ queries, ∀ x ∈ q, m.lookup x = some (f x) ∧ dec (f x) = .ok (sets.getD x []) ∧ (sets.getD x []).Pairwise (· < ·)) →
    (∀ q ∈ queries, q ≠ []) →
    (∀ q ∈ queries, q.length ≤ 16 → ∀ j, inter j (q.map f) = .ok (A j q) ∧
      (∀ x ∈ A j q, ∀ S ∈ q.map fun i => sets.getD i [], x ∈ S) ∧ (A j q).Nodup) →
    ∃ o, checkQueries m dec inter (brute sort) j nq queries = .ok o ∧
      Verdict sets nq queries (answersFrom A j queries) o.complaint o.nq
  | [], j, nq, _, _, _ => ⟨_, rfl, .done⟩
  | q :: qs, j, nq, h1, h0, h2 => by
    have ih := fun nq' => checkQueries_verdict hsort (sets := sets) (A := A) qs (j + 1) nq' (fun q hq => h1 q (List.mem_cons_of_mem _ hq))
      (fun q hq => h0 q (List.mem_cons_of_mem _ hq)) (fun q hq => h2 q (List.mem_cons_of_mem _ hq))
    have hd := decodeAll_ok (m := m) (dec := dec) (f := f) (D := fun i => sets.getD i []) q fun x hx =>
      ⟨(h1 q (by simp) x hx).1, (h1 q (by simp) x hx).2.1⟩
    rw [checkQueries, hd, R_bind_ok, answersFrom]
    simp only [List.length_map]
    by_cases hq : q.length ≤ 16
    · obtain ⟨hi, hc, hn⟩ := h2 q (by simp) hq j
      obtain ⟨S, hb, hS⟩ := C23_force_brute (S := q.map fun i => sets.getD i []) (by simpa using h0 q (by simp))
        (by rw [List.length_map]; omega) (by
          intro s hs
          obtain ⟨x, hx, rfl⟩ := List.mem_map.1 hs
          exact (h1 q (by simp) x hx).2.2) (hsort _)
      have hbr : brute sort (q.map fun i => sets.getD i []) = .ok S := hb _ (Nat.le_refl _)
      rw [if_pos hq, if_pos hq, hi, R_bind_ok, hbr, R_bind_ok]
      by_cases he : A j q = S
      · obtain ⟨o, ho, hv⟩ := ih (nq + 1)
        rw [if_neg (by simpa using he)]
        exact ⟨o, ho, .right hq (he ▸ hS) hv⟩
      · rw [if_pos he, diffsFrom_differences (length_le_of_common hn fun x hx => (hS.mem x).2 (hc x hx)), R_bind_ok]
        exact ⟨_, rfl, .wrong hq (fun h => he (isIntersection_unique h hS)) hS⟩
    · obtain ⟨o, ho, hv⟩ := ih nq
      rw [if_neg hq, if_neg hq]
      exact ⟨o, ho, .long (by omega) hv⟩

/-! What a verdict says. -/

theorem verdict_none {sets : List (List Nat)} {nq : Nat} {queries : List (List Nat)} {as : List (Option (List Nat))} {c count}
    (h : Verdict sets nq queries as c count) :
    (c = none ↔ List.Forall₂ (Answers sets) queries as) ∧
    (c = none → count = nq + (queries.filter fun q => decide (q.length ≤ 16)).length) := by
  induction h with
  | done => exact ⟨⟨fun _ => .nil, fun _ => rfl⟩, fun _ => by simp⟩
  | long h _ ih =>
    refine ⟨ih.1.trans ⟨fun h' => .cons ⟨fun h'' => by omega, fun _ => rfl⟩ h', fun h' => by cases h' with | cons _ h => exact h⟩, fun hc => ?_⟩
    rw [List.filter_cons_of_neg (by simpa using h)]; exact ih.2 hc
  | right h hR _ ih =>
    refine ⟨ih.1.trans ⟨fun h' => .cons ⟨fun _ => ⟨_, rfl, hR⟩, fun h'' => by omega⟩ h', fun h' => by cases h' with | cons _ h => exact h⟩, fun hc => ?_⟩
    rw [List.filter_cons_of_pos (by simpa using h), List.length_cons]; have := ih.2 hc; omega
  | wrong h hR hS =>
    refine ⟨⟨fun h' => (nomatch h'), fun h' => ?_⟩, fun h' => (nomatch h')⟩
    cases h' with
    | cons ha _ =>
      obtain ⟨R', e, hR'⟩ := ha.1 h
      injection e with e; subst e
      exact absurd hR' hR

/-! ## The query tools on the same files -/

theorem answerLog_eq {seqs : List Nav} {f : Nat → Nav} {inter : Nat → List Nav → R (List Nat)} {A : Nat → List Nat → List Nat} :
    (queries : List (List Nat)) → (i : Nat) → (∀ q ∈ queries, ∀ x ∈ q, seqs[x]? = some (f x)) →
    (∀ q ∈ queries, q.length ≤ 16 → ∀ j, inter j (q.map f) = .ok (A j q)) →
    answerLog seqs inter i queries = .ok (answersFrom A i queries)
  | [], _, _, _ => rfl
  | q :: qs, i, h1, h2 => by
    have ih := answerLog_eq (inter := inter) (A := A) qs (i + 1) (fun q hq => h1 q (List.mem_cons_of_mem _ hq))
      (fun q hq => h2 q (List.mem_cons_of_mem _ hq))
    rw [answerLog, getAll_ok q (h1 q (by simp)), R_bind_ok, List.length_map, answersFrom]
    by_cases hq : q.length ≤ 16
    · simp only [if_pos hq, h2 q (by simp) hq i, R_bind_ok, ih, pure, Except.pure]
    · simp only [if_neg hq, R_bind_ok, ih, pure, Except.pure]

theorem answerAll_eq {T : Type} {m : List (Nat × T)} {f : Nat → T} {inter : Nat → List T → R (List Nat)} {A : Nat → List Nat → List Nat} :
    (queries : List (List Nat)) → (i : Nat) → (∀ q ∈ queries, q.length ≤ 16 → ∀ x ∈ q, m.lookup x = some (f x)) →
    (∀ q ∈ queries, q.length ≤ 16 → ∀ j, inter j (q.map f) = .ok (A j q)) →
    answerAll m inter i queries = .ok (answersFrom A i queries)
  | [], _, _, _ => rfl
  | q :: qs, i, h1, h2 => by
    have ih := answerAll_eq (inter := inter) (A := A) qs (i + 1) (fun q hq => h1 q (List.mem_cons_of_mem _ hq))
      (fun q hq => h2 q (List.mem_cons_of_mem _ hq))
    by_cases hq : q.length ≤ 16
    · rw [answerAll, answerQuery, if_pos hq, lookupAll_ok q (h1 q (by simp) hq), answersFrom, if_pos hq]
      simp only [h2 q (by simp) hq i, R_bind_ok, ih]
    · rw [answerAll, answerQuery, if_neg hq, R_bind_ok, ih, R_bind_ok, answersFrom, if_neg hq]

/-! ## Saved tries with their `decode` -/

theorem flat_saved_obj (B L : BvIO) (K : RankIO) {S : List Nat} {u : Nat} (hS : ValidSet S u)
    (hlen : S.length < 2 ^ 32) (hu : 3 ≤ u) (hu' : u ≤ 2 ^ 62) (pad : Nat) (runs : Bool) :
    ∃ b t, makeFlat B L K pad true runs u S = .ok b ∧ (∀ rest, flatLoad B L K (b ++ rest) = .ok (⟨t, K.of t.bTrie⟩, rest)) ∧
      KnownTrie pad (trieHeight u) (codingOf runs false, S) (t.nav pad) ∧
      (¬ cannotDecode runs false pad (trieHeight u) S → t.decode pad [] = .ok S) ∧
      (cannotDecode runs false pad (trieHeight u) S → t.decode pad [] = .error .oob) := by
  obtain ⟨t, t', ht, he, h1, h2⟩ := C30_flat_size hS hlen hu hu' pad
  obtain ⟨T, ht', -⟩ := flat_built hS hlen hu hu'
  obtain ⟨g1, g2⟩ := flat_encode_heights t pad t' he
  have hd := log2_bounds hu hu'
  have hth : t.height = trieHeight u ∧ t.heightWithRuns = 0 := by
    rw [ht] at ht'; injection ht' with e; subst e; exact ⟨rfl, rfl⟩
  have hht : t.height ≤ 62 := by rw [hth.1, trieHeight]; omega
  have hb : t.bTrie.length + t.lastLevel.length < 2 ^ 64 := by
    have : S.length * (t.height - 1) ≤ 2 ^ 32 * 62 := Nat.mul_le_mul (by omega) (by omega)
    omega
  have load : ∀ (x : FlatTrie), x.height ≤ 62 → x.heightWithRuns ≤ 62 → x.bTrie.length + x.lastLevel.length < 2 ^ 64 → ∀ rest,
      flatLoad B L K ((x.serialize B L K true).1 ++ rest) = .ok (⟨x, K.of x.bTrie⟩, rest) := by
    intro x a b c rest
    exact flatLoad_serialize B L K (by omega) (by omega) (by omega) (by omega) rest
  cases runs with
  | false =>
    have hp : PlainTrie pad (trieHeight u) S (t.nav pad) := .flat hS hlen hu hu' ht hth.1
    refine ⟨(t.serialize B L K true).1, t, ?_, load t hht (by omega) hb, .plain hp, fun _ => ?_, fun h => by cases h.1⟩
    · simp only [makeFlat, ht, R_bind_ok, Bool.false_eq_true, if_false]
    · obtain ⟨t₁, q1, q2⟩ := C01_flat_build_decode hS hlen hu hu' pad []
      rw [ht] at q1; injection q1 with q1; subst q1; exact q2
  | true =>
    refine ⟨(t'.serialize B L K true).1, t', ?_, load t' (by omega) (by omega) (by omega),
      .flat hS hlen hu hu' ht he (by rw [g1, hth.1]), ?_⟩
    · simp only [makeFlat, ht, R_bind_ok, if_true, he]
    · obtain ⟨t₁, t₂, q1, q2, q3, q4⟩ := C04_flat_runs_decode_exact hS hlen hu hu' pad []
      rw [ht] at q1; injection q1 with q1; subst q1
      rw [he] at q2; injection q2 with q2; subst q2
      exact ⟨fun h => q3 fun j k hu => h ⟨rfl, rfl, j, k, hu⟩, fun h => q4 h.2.2⟩

theorem level_saved_obj (B : BvIO) (K : RankIO) {S : List Nat} {u : Nat} (hS : ValidSet S u)
    (hlen : S.length < 2 ^ 32) (hu : 2 ≤ u) (hu' : u ≤ 2 ^ 62) (pad : Nat) (runs : Bool) :
    ∃ b t, makeLevel B K pad runs u S = .ok b ∧ (∀ rest, levelLoad B K (b ++ rest) = .ok (⟨t, t.bTrie.dropLast.map K.of⟩, rest)) ∧
      KnownTrie pad (trieHeight u) (codingOf runs true, S) (t.nav false pad) ∧ t.decode false pad [] = .ok S := by
  obtain ⟨t, t', ht, he, h1, h2⟩ := C30_level_size hS (by omega) hu (by omega) false pad
  obtain ⟨T, ht', hne, -⟩ := level_built hS (by omega) hu (by omega)
  have hd := level_depth hu (show u ≤ 2 ^ 63 by omega)
  obtain ⟨k, hk, -, he'⟩ := levelOf_encode (pad := pad) (il := false) (hw := 0) (runs := false) (by omega) hne
  rw [ht] at ht'; injection ht' with e; subst e
  rw [he] at he'; injection he' with e; subst e
  have hb : ∀ x : LevelTrie, x.bTrie.flatten.length < 2 ^ 64 → ∀ v ∈ x.bTrie, v.length < 2 ^ 64 := by
    intro x hx v hv
    have := (List.sublist_flatten_of_mem hv).length_le
    omega
  have hlt : (levelOf _ T 0 false).bTrie.flatten.length < 2 ^ 64 := by
    have hh := levelOf_height (T := T) (hw := 0) (runs := false)
    have : S.length * ((levelOf _ T 0 false).height - 1) ≤ 2 ^ 32 * 62 := Nat.mul_le_mul (by omega) (by omega)
    omega
  have load : ∀ (x : LevelTrie), x.height = trieHeight u → x.heightWithRuns ≤ 63 → x.bTrie.flatten.length < 2 ^ 64 → ∀ rest,
      levelLoad B K ((x.serialize B K).1 ++ rest) = .ok (⟨x, x.bTrie.dropLast.map K.of⟩, rest) := by
    intro x a b c rest
    have hl : x.bTrie.length = trieHeight u := a
    rw [trieHeight] at hl
    exact levelLoad_serialize B K (by intro h; rw [h] at hl; simp at hl) (by omega) (by omega) (hb x c) rest
  cases runs with
  | false =>
    have hp : PlainTrie pad (trieHeight u) S ((levelOf _ T 0 false).nav false pad) :=
      .level false hS (by omega) hu (by omega) ht levelOf_height
    refine ⟨_, _, ?_, load _ levelOf_height (by simp [levelOf]) hlt, .plain hp, ?_⟩
    · simp only [makeLevel, ht, R_bind_ok, Bool.false_eq_true, if_false]
    · obtain ⟨t₁, q1, q2⟩ := C02_level_build_decode hS (by omega) hu (by omega) false pad []
      rw [ht] at q1; injection q1 with q1; subst q1; exact q2
  | true =>
    refine ⟨_, _, ?_, load _ levelOf_height (by simp only [levelOf]; omega) (by omega),
      .level false hS (by omega) hu (by omega) ht he levelOf_height, ?_⟩
    · simp only [makeLevel, ht, R_bind_ok, if_true, he]
    · obtain ⟨t₁, t₂, q1, q2, q3⟩ := C05_level_runs_decode hS (by omega) hu (by omega) false pad []
      rw [ht] at q1; injection q1 with q1; subst q1
      rw [he] at q2; injection q2 with q2; subst q2; exact q3

/-- A trie that went through `serialize` and `load`, as `test_intersection` and `intersection_query_log` load it. -/
structure SavedAny (F : Formats) (pad u : Nat) (S : List Nat) (o : TriesFileOpts) (b : Bytes) (a : AnyTrie) : Prop where
  loads : ∀ rest, loadAny F pad o (b ++ rest) = .ok (a, rest)
  loads' : ∀ rest, loadTrie F pad o (b ++ rest) = .ok (a.nav, rest)
  known : KnownTrie pad (trieHeight u) (codingOf o.runs o.levelwise, S) a.nav
  decodes : ¬ cannotDecode o.runs o.levelwise pad (trieHeight u) S → a.decode [] = .ok S
  stuck : cannotDecode o.runs o.levelwise pad (trieHeight u) S → a.decode [] = .error .oob

theorem any_saved (F : Formats) {rank block : Nat} {runs levelwise : Bool} (hs : Supported rank block levelwise) {S : List Nat}
    {u : Nat} (hS : ValidSet S u) (hlen : S.length < 2 ^ 32) (hu : 3 ≤ u) (hu' : u ≤ 2 ^ 62) (pad i : Nat) :
    ∃ b a, makeTrie F pad true rank block runs levelwise u i S = .ok b ∧
      SavedAny F pad u S ⟨rank, if rank = 1 then block else 512, runs, levelwise⟩ b a := by
  by_cases h1 : rank = 1
  · subst h1
    obtain ⟨rfl, hb⟩ := hs.resolve_left (by simp)
    have e : builtBlock block = block := by
      rcases hb with rfl | rfl | rfl <;> rfl
    rw [if_pos rfl]
    obtain ⟨b, t, hm, hl, hcd, hdec, hst⟩ := flat_saved_obj (F.il block) F.bv (F.rankIl block) hS hlen hu hu' pad runs
    refine ⟨b, ⟨t.nav pad, t.decode pad⟩, by simp only [makeTrie, if_true, Bool.false_eq_true, if_false, e]; exact hm,
      ⟨fun rest => ?_, fun rest => ?_, hcd, hdec, hst⟩⟩
    · simp only [loadAny, if_true, Bool.false_eq_true, if_false, hb]
      rw [hl rest, R_bind_ok]
      simp only [FlatObj.nav_eq, show FlatObj.decode (K := F.rankIl block) ⟨t, (F.rankIl block).of t.bTrie⟩ pad = t.decode pad from
        funext fun out => FlatObj.decode_eq t pad out]
    · simp only [loadTrie, if_true, Bool.false_eq_true, if_false, hb]
      rw [hl rest, R_bind_ok]
      simp only [FlatObj.nav_eq]
  · cases levelwise with
    | false =>
      obtain ⟨b, t, hm, hl, hcd, hdec, hst⟩ := flat_saved_obj F.bv F.bv (F.rank rank) hS hlen hu hu' pad runs
      refine ⟨b, ⟨t.nav pad, t.decode pad⟩, by simp only [makeTrie, Bool.false_eq_true, if_false, h1]; exact hm,
        ⟨fun rest => ?_, fun rest => ?_, hcd, hdec, hst⟩⟩
      · simp only [loadAny, Bool.false_eq_true, if_false, h1]
        rw [hl rest, R_bind_ok]
        simp only [FlatObj.nav_eq, show FlatObj.decode (K := F.rank rank) ⟨t, (F.rank rank).of t.bTrie⟩ pad = t.decode pad from
          funext fun out => FlatObj.decode_eq t pad out]
      · simp only [loadTrie, Bool.false_eq_true, if_false, h1]
        rw [hl rest, R_bind_ok]
        simp only [FlatObj.nav_eq]
    | true =>
      obtain ⟨b, t, hm, hl, hcd, hdec⟩ := level_saved_obj F.bv (F.rank rank) hS hlen (by omega) hu' pad runs
      refine ⟨b, ⟨t.nav false pad, t.decode false pad⟩, by simp only [makeTrie, if_false, if_true, h1]; exact hm,
        ⟨fun rest => ?_, fun rest => ?_, hcd, fun _ => hdec, fun h => by cases h.2.1⟩⟩
      · simp only [loadAny, if_false, if_true, h1]
        rw [hl rest, R_bind_ok]
        simp only [LevelObj.nav_eq, show LevelObj.decode (K := F.rank rank) ⟨t, t.bTrie.dropLast.map (F.rank rank).of⟩ pad =
          t.decode false pad from funext fun out => LevelObj.decode_eq t pad out]
      · simp only [loadTrie, if_false, if_true, h1]
        rw [hl rest, R_bind_ok]
        simp only [LevelObj.nav_eq]

/-! ## Whole files -/

theorem kept_getD_mem {mn mx : Nat} {lists : List (List Nat)} {x : Nat} (h : x < (kept mn mx lists).length) :
    (kept mn mx lists).getD x [] ∈ kept mn mx lists := by
  rw [List.getD_eq_getElem?_getD, List.getElem?_eq_getElem h]
  exact List.getElem_mem h

theorem setIndexes_ne {queries : List (List Nat)} (hq : queries ≠ []) (hq0 : ∀ q ∈ queries, q ≠ []) : setIndexes queries ≠ [] := by
  obtain ⟨q, hqm⟩ := List.exists_mem_of_ne_nil _ hq
  obtain ⟨x, hx⟩ := List.exists_mem_of_ne_nil _ (hq0 q hqm)
  exact List.ne_nil_of_mem (((setIndexes_spec queries).2 x).2 ⟨q, hqm, hx⟩)

/-- `test_intersection` and `intersection_query_log` on a file built by `build_tries`, given what `Intersect` does on readable tries of its
lists, up to the first query with an unreadable trie. -/
theorem testIntersection_exact (F : Formats) (pad : Nat) {mn mx rank block : Nat} {runs levelwise : Bool} (hr : rank < 2 ^ 32)
    (hbl : block < 2 ^ 32) (hs : Supported rank block levelwise)
    {one u : Nat} (hone : one < 2 ^ 32) (hu : 3 ≤ u) (hu' : u < 2 ^ 32) {lists : List (List Nat)}
    (hl : ∀ l ∈ lists, l.length < 2 ^ 30) (hv : ∀ l ∈ kept mn mx lists, ValidSet l u) (hn : (kept mn mx lists).length < 2 ^ 32)
    {sort : List (List Nat) → List (List Nat)} (hsort : ∀ S, SortedBySize S (sort S)) (env : Nat → Env)
    (hI : ∀ (sets : List (List Nat)) (Ts : List Nav) (i : Nat),
      List.Forall₂ (fun S n => CodedTrie pad (trieHeight u) (runs, S) n) sets Ts → Ts ≠ [] → Ts.length ≤ 16 →
      ∃ R, intersect Ts runs true (env i) = .ok R ∧ (∀ x ∈ R, ∀ S ∈ sets, x ∈ S) ∧ R.Nodup)
    {qs1 qs2 : List (List Nat)} (hq : qs1 ++ qs2 ≠ []) (hq0 : ∀ q ∈ qs1 ++ qs2, q ≠ [])
    (hq1 : ∀ q ∈ qs1 ++ qs2, ∀ i ∈ q, i < (kept mn mx lists).length)
    (hq2 : ∀ q ∈ qs1, ∀ i ∈ q, ¬ cannotDecode runs levelwise pad (trieHeight u) ((kept mn mx lists).getD i [])) :
    ∃ f as o, buildTries F pad true mn mx rank block runs levelwise (collectionBytes one u lists) = .ok f ∧
      queryLog F pad true env qs1 f = .ok as ∧ Verdict (kept mn mx lists) 0 qs1 as o.complaint o.nq ∧
      (o.complaint ≠ none ∨ qs2 = [] → testIntersection F pad sort env (qs1 ++ qs2) f = .ok o) ∧
      (o.complaint = none → (∃ q qs, qs2 = q :: qs ∧ ∃ i ∈ q, cannotDecode runs levelwise pad (trieHeight u) ((kept mn mx lists).getD i [])) →
        testIntersection F pad sort env (qs1 ++ qs2) f = .error .oob) := by
  have hx : ∀ l ∈ kept mn mx lists, ∀ x ∈ l, x < 2 ^ 32 := fun l h x hx => by have := (hv l h).below x hx; omega
  have key : ∀ j, ∃ (b : Bytes) (a : AnyTrie), ∀ h : j < (kept mn mx lists).length,
      makeTrie F pad true rank block runs levelwise u j (kept mn mx lists)[j] = .ok b ∧
      SavedAny F pad u (kept mn mx lists)[j] ⟨rank, if rank = 1 then block else 512, runs, levelwise⟩ b a := by
    intro j
    by_cases h : j < (kept mn mx lists).length
    · have hm := List.getElem_mem h
      have hll : (kept mn mx lists)[j].length < 2 ^ 30 := hl _ (List.mem_of_mem_filter hm)
      obtain ⟨b, n, e1, e2⟩ := any_saved F hs (runs := runs) (hv _ hm) (by omega) hu (by omega) pad j
      exact ⟨b, n, fun _ => ⟨e1, e2⟩⟩
    · exact ⟨[], ⟨⟨0, fun _ _ => .ok 0, fun _ _ => .ok 0, fun _ _ => .ok 0⟩, fun _ => .ok []⟩, fun h' => absurd h' h⟩
  choose part obj hk using key
  have hsaved : ∀ x, x < (kept mn mx lists).length → SavedAny F pad u ((kept mn mx lists).getD x [])
      ⟨rank, if rank = 1 then block else 512, runs, levelwise⟩ (part x) (obj x) := by
    intro x hx
    rw [List.getD_eq_getElem?_getD, List.getElem?_eq_getElem hx]
    exact (hk x hx).2
  have hmany := readMany_flatMap (read := loadTrie F pad ⟨rank, if rank = 1 then block else 512, runs, levelwise⟩) (write := part)
    (f := fun x => (obj x).nav) (List.range' 0 (kept mn mx lists).length) [] (fun x hx rest => (hsaved x (by
      rw [List.mem_range'_1] at hx; omega)).loads' rest)
  rw [List.length_range', List.append_nil] at hmany
  obtain ⟨hs1, hs2⟩ := setIndexes_spec (qs1 ++ qs2)
  have hload := loadLoop_ok (load := fun _ s => loadAny F pad ⟨rank, if rank = 1 then block else 512, runs, levelwise⟩ s)
    (part := part) (obj := obj) (kept mn mx lists).length 0 (setIndexes (qs1 ++ qs2))
    (fun j _ hj2 rest => (hsaved j (by omega)).loads rest) (setIndexes_ne hq hq0) hs1 (fun _ _ => Nat.zero_le _) []
  rw [List.append_nil] at hload
  have hget : ∀ q ∈ qs1, ∀ x ∈ q, ((List.range' 0 (kept mn mx lists).length).map fun x => (obj x).nav)[x]? = some (obj x).nav := by
    intro q hqm x hx
    rw [List.getElem?_map, List.getElem?_range' (hq1 q (List.mem_append_left _ hqm) x hx)]
    simp
  have hlook : ∀ q ∈ qs1 ++ qs2, ∀ x ∈ q, (((setIndexes (qs1 ++ qs2)).filter (· < 0 + (kept mn mx lists).length)).map
      fun j => (j, obj j)).lookup x = some (obj x) := by
    intro q hqm x hx
    refine lookup_map obj x _ (List.mem_filter.2 ⟨(hs2 x).2 ⟨q, hqm, hx⟩, ?_⟩)
    simpa using hq1 q hqm x hx
  have hA : ∀ (j : Nat) (q : List Nat), ∃ R, q ∈ qs1 → q.length ≤ 16 →
      intersect (q.map fun x => (obj x).nav) runs true (env j) = .ok R ∧
      (∀ x ∈ R, ∀ S ∈ q.map fun i => (kept mn mx lists).getD i [], x ∈ S) ∧ R.Nodup := by
    intro j q
    by_cases h : q ∈ qs1 ∧ q.length ≤ 16
    · obtain ⟨R, hR⟩ := hI _ _ j (forall2_map q fun x hx => by
          have := (hsaved x (hq1 q (List.mem_append_left _ h.1) x hx)).known.readable fun hf j k hu =>
            hq2 q h.1 x hx ⟨(codingOf_flat.1 hf).1, (codingOf_flat.1 hf).2, j, k, hu⟩
          rwa [codingOf_runs] at this) (by simpa using hq0 q (List.mem_append_left _ h.1)) (by simpa using h.2)
      exact ⟨R, fun _ _ => hR⟩
    · exact ⟨[], fun h1 h2 => absurd ⟨h1, h2⟩ h⟩
  choose A hA using hA
  have hlog := answerLog_eq (inter := fun i ts => intersect ts runs true (env i)) (A := A) qs1 0 hget
    (fun q hqm hle j => (hA j q hqm hle).1)
  obtain ⟨o, ho, hvd⟩ := checkQueries_verdict (m := ((setIndexes (qs1 ++ qs2)).filter (· < 0 + (kept mn mx lists).length)).map
      fun j => (j, obj j)) (dec := fun t => t.decode []) (inter := fun j ts => intersect (ts.map AnyTrie.nav) runs true (env j))
    hsort (f := obj) (sets := kept mn mx lists) (A := A) qs1 0 0
    (fun q hqm x hx => ⟨hlook q (List.mem_append_left _ hqm) x hx, (hsaved x (hq1 q (List.mem_append_left _ hqm) x hx)).decodes (hq2 q hqm x hx),
      (hv _ (kept_getD_mem (hq1 q (List.mem_append_left _ hqm) x hx))).increasing⟩) (fun q h => hq0 q (List.mem_append_left _ h))
    (fun q hqm hle j => by rw [List.map_map]; exact hA j q hqm hle)
  have htest : testIntersection F pad sort env (qs1 ++ qs2) (triesFileHeader rank block runs levelwise ++
      (leBytes 4 (kept mn mx lists).length ++ (leBytes 4 one ++ (leBytes 4 u ++ (List.range' 0 (kept mn mx lists).length).flatMap part)))) =
      if o.mismatch = none then checkQueries (((setIndexes (qs1 ++ qs2)).filter (· < 0 + (kept mn mx lists).length)).map
          fun j => (j, obj j)) (fun t => t.decode []) (fun j ts => intersect (ts.map AnyTrie.nav) runs true (env j)) (brute sort)
          (0 + qs1.length) o.nq qs2
      else .ok o := by
    rw [testIntersection, readTriesFileHeader_ok hr hbl, R_bind_ok]
    simp only
    rw [readLE_leBytes 4 _ _ (by omega), R_bind_ok]
    simp only
    rw [readLE_leBytes 4 one _ (by omega), R_bind_ok]
    simp only
    rw [readLE_leBytes 4 u _ (by omega), R_bind_ok]
    simp only
    rw [hload, R_bind_ok, checkQueries_append, ho, R_bind_ok]
  have hcn : o.complaint = none ↔ o.mismatch = none := by rw [CheckOutcome.complaint, Option.map_eq_none_iff]
  refine ⟨triesFileHeader rank block runs levelwise ++ (leBytes 4 (kept mn mx lists).length ++ (leBytes 4 one ++
    (leBytes 4 u ++ (List.range' 0 (kept mn mx lists).length).flatMap part))), _, o, ?_, ?_, hvd, ?_, ?_⟩
  · rw [buildTries, buildFile_lists hone hu' hl hx hn, makeAll_ok (part := part) _ 0 (fun j h => by rw [Nat.zero_add]; exact (hk j h).1)]
    simp only [R_bind_ok, List.append_assoc]
  · rw [queryLog, readTriesFileHeader_ok hr hbl, R_bind_ok]
    simp only [loadSequences]
    rw [readLE_leBytes 4 _ _ (by omega), R_bind_ok]
    simp only
    rw [readLE_leBytes 4 one _ (by omega), R_bind_ok]
    simp only
    rw [readLE_leBytes 4 u _ (by omega), R_bind_ok]
    simp only
    rw [hmany, R_bind_ok]
    exact hlog
  · intro h
    rw [htest]
    split
    · next hm =>
      have := h.resolve_left (fun h' => h' (hcn.2 hm))
      subst this
      rw [checkQueries]
      obtain ⟨m, n⟩ := o
      simp only at hm
      rw [hm]
    · rfl
  · rintro h ⟨q, qs, rfl, hb⟩
    rw [htest, if_pos (hcn.1 h), checkQueries, decodeAll_bad (f := obj) (D := fun i => (kept mn mx lists).getD i [])
      (Bad := fun i => cannotDecode runs levelwise pad (trieHeight u) ((kept mn mx lists).getD i [])) q
      (fun x hx => ⟨hlook q (by simp) x hx, (hsaved x (hq1 q (by simp) x hx)).decodes, (hsaved x (hq1 q (by simp) x hx)).stuck⟩) hb]
    rfl

/-! ## Fast tries -/

theorem fast_saved_obj (B : BvIO) (K : RankIO) {lg : Nat} (hlg : 3 ≤ lg ∧ lg ≤ 6) {S : List Nat} {u : Nat} (hS : ValidSet S u)
    (hlen : S.length < 2 ^ 32) (hu : 2 ^ (lg - 1) < u) (hu' : u ≤ 2 ^ 62) (junk : Nat → FastJunk) (i : Nat)
    (hj : (junk i).heightWithRuns < 2 ^ 16) (pad : Nat) (runs : Bool) :
    ∃ (x : FastTrie), (∃ t, fastCtor lg (junk i) S u = .ok t ∧ (if runs then t.encodeRuns lg pad else .ok t) = .ok x) ∧
      makeFast B K lg pad junk runs u i S = .ok (x.serialize B K lg).1 ∧
      (∀ t0 : FastTrie, t0.lastLevel = [] → ∀ rest, fastLoad B K lg t0 ((x.serialize B K lg).1 ++ rest) = .ok (⟨x, K.of x.bTrie⟩, rest)) ∧
      FastCoded lg pad (fastHeight lg u) (runs, S) (x.nav pad) ∧
      ((runs = true → (junk i).emptyTrie = false) → x.decode lg pad [] = .ok S) := by
  obtain ⟨t, t', hc, he, h1, h2, h3, h4⟩ := C30_fast_size hlg hS hlen hu hu' (junk i) pad
  have hs := fastCtor_sound lg (junk i) S u t hc
  have hs' := fast_encode_sound hs pad t' he
  obtain ⟨g1, g2⟩ := fast_encode_heights lg t pad t' he
  obtain ⟨T, hc', -⟩ := fast_built hlg hS hlen hu hu' (junk i)
  obtain ⟨q0, q1, q2⟩ := fast_depth hlg hu hu'
  have hth : t.height = fastHeight lg u ∧ t.heightWithRuns = (junk i).heightWithRuns := by
    rw [hc] at hc'; injection hc' with e; subst e; exact ⟨rfl, rfl⟩
  have hht : t.height ≤ 63 := by rw [hth.1, fastHeight]; omega
  have hb : t.bTrie.length < 2 ^ 64 := by
    have : S.length * (t.height - 1) ≤ 2 ^ 32 * 62 := Nat.mul_le_mul (by omega) (by omega)
    omega
  have load : ∀ (x : FastTrie), x.Sound lg → x.height ≤ 63 → x.heightWithRuns < 2 ^ 16 → x.bTrie.length < 2 ^ 64 →
      x.lastLevel.length < 2 ^ 64 → ∀ t0 : FastTrie, t0.lastLevel = [] → ∀ rest,
      fastLoad B K lg t0 ((x.serialize B K lg).1 ++ rest) = .ok (⟨x, K.of x.bTrie⟩, rest) := by
    intro x hx hh hw hb hl t0 h0 rest
    have e := fastLoad_serialize B K hlg.1 t0 (by omega) hw hb hl hx.2 rest
    have hxu : x.heightU = (x.height + lg - 1) % 2 ^ 16 := by rw [Nat.mod_eq_of_lt (by omega)]; have := hx.1; omega
    rw [e]
    congr 3
    rw [← hxu, h0]; rfl
  cases runs with
  | false =>
    refine ⟨t, ⟨t, hc, rfl⟩, ?_, load t hs hht (by omega) hb (by omega), .plain (.mk hS hlen hu hu' hc hth.1), fun _ => ?_⟩
    · simp only [makeFast, hc, R_bind_ok, Bool.false_eq_true, if_false]
    · obtain ⟨t₁, q1, q2⟩ := C03_fast_build_decode hlg hS hlen hu hu' (junk i) pad []
      rw [hc] at q1; injection q1 with q1; subst q1; exact q2
  | true =>
    refine ⟨t', ⟨t, hc, he⟩, ?_, load t' hs' (by omega) (by omega) (by omega) (by omega),
      .runs hS hlen hu hu' hc he (by rw [g1, hth.1]), fun hje => ?_⟩
    · simp only [makeFast, hc, R_bind_ok, if_true, he]
    · obtain ⟨t₁, t₂, q1, q2, q3⟩ := C06_fast_runs_decode_partial hlg hS hlen hu hu' (junk i) (hje rfl) pad []
      rw [hc] at q1; injection q1 with q1; subst q1
      rw [he] at q2; injection q2 with q2; subst q2; exact q3

/-- What `build_fastTries` writes, with the tries. -/
theorem buildFast_objs (B : BvIO) (K : Nat → RankIO) {lg : Nat} (hlg : 3 ≤ lg ∧ lg ≤ 6) (pad : Nat) (junk : Nat → FastJunk)
    (hj : ∀ i, (junk i).heightWithRuns < 2 ^ 16) {mn mx rank : Nat} (runs levelwise : Bool)
    {one u : Nat} (hone : one < 2 ^ 32) (hu : 2 ^ (lg - 1) < u) (hu' : u < 2 ^ 32) {lists : List (List Nat)}
    (hl : ∀ l ∈ lists, l.length < 2 ^ 30) (hv : ∀ l ∈ kept mn mx lists, ValidSet l u) (hn : (kept mn mx lists).length < 2 ^ 32) :
    ∃ x : Nat → FastTrie,
      buildFast B K pad junk mn mx rank runs levelwise (2 ^ lg) (collectionBytes one u lists) =
        .ok (some (fastFileHeader rank runs levelwise (2 ^ lg) ++ (leBytes 4 (kept mn mx lists).length ++ (leBytes 4 one ++
          (leBytes 4 u ++ (List.range' 0 (kept mn mx lists).length).flatMap fun j =>
            ((x j).serialize B (K (if rank = 0 then 0 else 2)) lg).1))))) ∧
      ∀ j, j < (kept mn mx lists).length →
        (∃ t, fastCtor lg (junk j) ((kept mn mx lists).getD j []) u = .ok t ∧ (if runs then t.encodeRuns lg pad else .ok t) = .ok (x j)) ∧
        (∀ t0 : FastTrie, t0.lastLevel = [] → ∀ rest, fastLoad B (K (if rank = 0 then 0 else 2)) lg t0
          (((x j).serialize B (K (if rank = 0 then 0 else 2)) lg).1 ++ rest) = .ok (⟨x j, (K _).of (x j).bTrie⟩, rest)) ∧
        FastCoded lg pad (fastHeight lg u) (runs, (kept mn mx lists).getD j []) ((x j).nav pad) ∧
        ((runs = true → (junk j).emptyTrie = false) → (x j).decode lg pad [] = .ok ((kept mn mx lists).getD j [])) := by
  have hx : ∀ l ∈ kept mn mx lists, ∀ x ∈ l, x < 2 ^ 32 := fun l h x hx => by have := (hv l h).below x hx; omega
  have key : ∀ j, ∃ x : FastTrie, j < (kept mn mx lists).length →
      (∃ t, fastCtor lg (junk j) ((kept mn mx lists).getD j []) u = .ok t ∧ (if runs then t.encodeRuns lg pad else .ok t) = .ok x) ∧
      makeFast B (K (if rank = 0 then 0 else 2)) lg pad junk runs u j ((kept mn mx lists).getD j []) =
        .ok (x.serialize B (K (if rank = 0 then 0 else 2)) lg).1 ∧
      (∀ t0 : FastTrie, t0.lastLevel = [] → ∀ rest, fastLoad B (K (if rank = 0 then 0 else 2)) lg t0
          ((x.serialize B (K (if rank = 0 then 0 else 2)) lg).1 ++ rest) = .ok (⟨x, (K _).of x.bTrie⟩, rest)) ∧
      FastCoded lg pad (fastHeight lg u) (runs, (kept mn mx lists).getD j []) (x.nav pad) ∧
      ((runs = true → (junk j).emptyTrie = false) → x.decode lg pad [] = .ok ((kept mn mx lists).getD j [])) := by
    intro j
    by_cases h : j < (kept mn mx lists).length
    · have hm := kept_getD_mem h
      have hll : ((kept mn mx lists).getD j []).length < 2 ^ 30 := hl _ (List.mem_of_mem_filter hm)
      obtain ⟨x, e⟩ := fast_saved_obj B (K (if rank = 0 then 0 else 2)) hlg (hv _ hm) (by omega) hu (by omega) junk j (hj j) pad runs
      exact ⟨x, fun _ => e⟩
    · exact ⟨⟨0, 0, 0, false, false, [], []⟩, fun h' => absurd h' h⟩
  choose x hk using key
  refine ⟨x, ?_, fun j hj => ⟨(hk j hj).1, (hk j hj).2.2⟩⟩
  rw [buildFast, (wordLg_pow hlg).1]
  simp only
  rw [buildFile_lists hone hu' hl hx hn, makeAll_ok (part := fun j => ((x j).serialize B (K (if rank = 0 then 0 else 2)) lg).1) _ 0
    (fun j h => by
      rw [Nat.zero_add]
      have := (hk j h).2.1
      rwa [List.getD_eq_getElem?_getD, List.getElem?_eq_getElem h] at this)]
  simp only [R_bind_ok, List.append_assoc]

/-- `test_intersection_fastTrie` on a file of 64-bit tries without the word size, and `intersection_querylog_fastTrie` on the file itself,
given what `Intersect` does on the tries of its lists. -/
theorem testIntersectionFast_ok (B : BvIO) (K : Nat → RankIO) (pad : Nat) (junk junk' : Nat → FastJunk)
    (hj : ∀ i, (junk i).heightWithRuns < 2 ^ 16) {mn mx rank : Nat} (hr : rank < 2 ^ 32) (hr1 : rank ≠ 1) (runs levelwise : Bool)
    (hje : runs = true → ∀ i, (junk i).emptyTrie = false)
    {one u : Nat} (hone : one < 2 ^ 32) (hu : 2 ^ 5 < u) (hu' : u < 2 ^ 32) {lists : List (List Nat)}
    (hl : ∀ l ∈ lists, l.length < 2 ^ 30) (hv : ∀ l ∈ kept mn mx lists, ValidSet l u) (hn : (kept mn mx lists).length < 2 ^ 32)
    {sort : List (List Nat) → List (List Nat)} (hsort : ∀ S, SortedBySize S (sort S)) (env : Nat → Env)
    (hI : ∀ (sets : List (List Nat)) (Ts : List FNav) (i : Nat),
      List.Forall₂ (fun S n => FastCoded 6 pad (fastHeight 6 u) (runs, S) n) sets Ts → Ts ≠ [] → Ts.length ≤ 16 →
      ∃ R, fastIntersect 6 Ts runs true (env i) = .ok R ∧ (∀ x ∈ R, ∀ S ∈ sets, x ∈ S) ∧ R.Nodup)
    {queries : List (List Nat)} (hq : queries ≠ []) (hq0 : ∀ q ∈ queries, q ≠ [])
    (hq1 : ∀ q ∈ queries, ∀ i ∈ q, i < (kept mn mx lists).length) :
    ∃ body as o, buildFast B K pad junk mn mx rank runs levelwise 64 (collectionBytes one u lists) =
        .ok (some (fastFileHeader rank runs levelwise 64 ++ body)) ∧
      queryFast B K pad junk' true env queries (fastFileHeader rank runs levelwise 64 ++ body) = .ok as ∧
      testIntersectionFast B K pad junk' sort env queries (leBytes 4 rank ++ boolByte runs ++ boolByte levelwise ++ body) = .ok o ∧
      Verdict (kept mn mx lists) 0 queries as o.complaint o.nq := by
  obtain ⟨x, hb, hp⟩ := buildFast_objs B K (lg := 6) (rank := rank) (by decide) pad junk hj runs levelwise hone hu hu' hl hv hn
  obtain ⟨hs1, hs2⟩ := setIndexes_spec queries
  have hload := loadLoop_ok (load := fun i s => fastLoad B (K (if rank = 0 then 0 else 2)) 6 (fastDefault (junk' i)) s)
    (part := fun j => ((x j).serialize B (K (if rank = 0 then 0 else 2)) 6).1)
    (obj := fun j => (⟨x j, (K _).of (x j).bTrie⟩ : FastObj (K (if rank = 0 then 0 else 2)))) (kept mn mx lists).length 0 (setIndexes queries)
    (fun j _ hj2 rest => (hp j (by omega)).2.1 _ rfl rest) (setIndexes_ne hq hq0) hs1 (fun _ _ => Nat.zero_le _) []
  rw [List.append_nil] at hload
  have hlook : ∀ q ∈ queries, ∀ i ∈ q, (((setIndexes queries).filter (· < 0 + (kept mn mx lists).length)).map
      fun j => (j, (⟨x j, (K _).of (x j).bTrie⟩ : FastObj (K (if rank = 0 then 0 else 2))))).lookup i = some ⟨x i, (K _).of (x i).bTrie⟩ := by
    intro q hqm i hi
    refine lookup_map _ i _ (List.mem_filter.2 ⟨(hs2 i).2 ⟨q, hqm, hi⟩, ?_⟩)
    simpa using hq1 q hqm i hi
  have hA : ∀ (j : Nat) (q : List Nat), ∃ R, q ∈ queries → q.length ≤ 16 →
      fastIntersect 6 (q.map fun i => (x i).nav pad) runs true (env j) = .ok R ∧
      (∀ x ∈ R, ∀ S ∈ q.map fun i => (kept mn mx lists).getD i [], x ∈ S) ∧ R.Nodup := by
    intro j q
    by_cases h : q ∈ queries ∧ q.length ≤ 16
    · obtain ⟨R, hR⟩ := hI _ _ j (forall2_map q fun i hi => (hp i (hq1 q h.1 i hi)).2.2.1) (by simpa using hq0 q h.1) (by simpa using h.2)
      exact ⟨R, fun _ _ => hR⟩
    · exact ⟨[], fun h1 h2 => absurd ⟨h1, h2⟩ h⟩
  choose A hA using hA
  have hnav : ∀ q : List Nat, (q.map fun i => (⟨x i, (K _).of (x i).bTrie⟩ : FastObj (K (if rank = 0 then 0 else 2)))).map
      (fun t => t.nav pad) = q.map fun i => (x i).nav pad := by
    intro q
    rw [List.map_map]
    exact List.map_congr_left fun i _ => FastObj.nav_eq (x i) pad
  have hlog := answerAll_eq (m := ((setIndexes queries).filter (· < 0 + (kept mn mx lists).length)).map
      fun j => (j, (⟨x j, (K _).of (x j).bTrie⟩ : FastObj (K (if rank = 0 then 0 else 2)))))
    (inter := fun i ts => fastIntersect 6 (ts.map fun t => t.nav pad) runs true (env i)) (A := A) queries 0 (fun q hqm _ => hlook q hqm)
    (fun q hqm hle j => by rw [hnav]; exact (hA j q hqm hle).1)
  obtain ⟨o, ho, hvd⟩ := checkQueries_verdict (m := ((setIndexes queries).filter (· < 0 + (kept mn mx lists).length)).map
      fun j => (j, (⟨x j, (K _).of (x j).bTrie⟩ : FastObj (K (if rank = 0 then 0 else 2))))) (dec := fun t => t.decode 6 pad [])
    (inter := fun j ts => fastIntersect 6 (ts.map fun t => t.nav pad) runs true (env j))
    hsort (sets := kept mn mx lists) (A := A) queries 0 0
    (fun q hqm i hi => ⟨hlook q hqm i hi, by
        rw [FastObj.decode_eq]
        exact (hp i (hq1 q hqm i hi)).2.2.2 fun h => hje h i, (hv _ (kept_getD_mem (hq1 q hqm i hi))).increasing⟩) hq0
    (fun q hqm hle j => by rw [hnav]; exact hA j q hqm hle)
  refine ⟨_, _, o, hb, ?_, ?_, hvd⟩
  · rw [queryFast, readFastFileHeader_ok hr hr1 (by decide), R_bind_ok]
    simp only [show queryLg 64 = 6 from rfl, loadTriesFast]
    rw [readLE_leBytes 4 _ _ (by omega), R_bind_ok]
    simp only
    rw [readLE_leBytes 4 one _ (by omega), R_bind_ok]
    simp only
    rw [readLE_leBytes 4 u _ (by omega), R_bind_ok]
    simp only
    rw [hload, R_bind_ok]
    exact hlog
  · have hh := fun rest => readTriesFileHeader_ok (block := 512) (runs := runs) (levelwise := levelwise) hr (by decide) rest
    simp only [triesFileHeader, if_neg hr1, List.append_nil] at hh
    rw [testIntersectionFast, readCheckFastHeader, hh, R_bind_ok]
    simp only [loadTriesFast]
    rw [readLE_leBytes 4 _ _ (by omega), R_bind_ok]
    simp only
    rw [readLE_leBytes 4 one _ (by omega), R_bind_ok]
    simp only
    rw [readLE_leBytes 4 u _ (by omega), R_bind_ok]
    simp only
    rw [hload, R_bind_ok]
    exact ho

end CBT
