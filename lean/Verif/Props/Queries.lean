import Verif.Proof.Queries
import Verif.Props.QueryText

/-!
# C105: a query is answered as if it were alone in the log
-/

namespace CBT

open Spec

/-- C105, `intersection_query_log`: on a file with any contents, the tool answers a log if and only if it answers each query of the log in a
run of its own, and the answers are the same. The `j`-th query is given the same machine and schedule in both runs. -/
theorem C105_tries (F : Formats) (pad : Nat) (parallel : Bool) (env : Nat → Env) (s : Bytes) {qs : List (List Nat)} (hq : qs ≠ [])
    (as : List (Option (List Nat))) :
    queryLog F pad parallel env qs s = .ok as ↔ as.length = qs.length ∧
      ∀ j (h : j < qs.length) (h' : j < as.length), queryLog F pad parallel (fun _ => env j) [qs[j]] s = .ok [as[j]] := by
  simp only [queryLog]
  cases e : readTriesFileHeader s with
  | error x =>
    constructor
    · intro h; cases h
    · rintro ⟨hl, h⟩
      have hq' := List.length_pos_iff.2 hq
      cases h 0 hq' (by omega)
  | ok p =>
    obtain ⟨o, s'⟩ := p
    simp only [R_bind_ok]
    cases e' : loadSequences F pad o s' with
    | error x =>
      constructor
      · intro h; cases h
      · rintro ⟨hl, h⟩
        have hq' := List.length_pos_iff.2 hq
        cases h 0 hq' (by omega)
    | ok seqs =>
      simp only [R_bind_ok]
      rw [answerLog_iff]
      simp only [answerLog_one, Nat.zero_add]

/-- C105, `intersection_querylog_fastTrie`. The tool loads only the tries up to the greatest number in the log, so the files read up to a
different place; the answers are the same. -/
theorem C105_fast (B : BvIO) (K : Nat → RankIO) (pad : Nat) (junk : Nat → FastJunk) (parallel : Bool) (env : Nat → Env) (s : Bytes)
    {qs : List (List Nat)} (hq : qs ≠ []) (as : List (Option (List Nat))) :
    queryFast B K pad junk parallel env qs s = .ok as ↔ as.length = qs.length ∧
      ∀ j (h : j < qs.length) (h' : j < as.length), queryFast B K pad junk parallel (fun _ => env j) [qs[j]] s = .ok [as[j]] := by
  have hpos := List.length_pos_iff.2 hq
  simp only [queryFast]
  cases e : readFastFileHeader s with
  | error x =>
    constructor
    · intro h; cases h
    · rintro ⟨hl, h⟩
      cases h 0 hpos (by omega)
  | ok p =>
    obtain ⟨o, s'⟩ := p
    simp only [R_bind_ok, loadTriesFast]
    cases e1 : readLE 4 s' with
    | error x =>
      constructor
      · intro h; cases h
      · rintro ⟨hl, h⟩
        cases h 0 hpos (by omega)
    | ok p =>
    obtain ⟨n, s1⟩ := p
    simp only [R_bind_ok]
    cases e2 : readLE 4 s1 with
    | error x =>
      constructor
      · intro h; cases h
      · rintro ⟨hl, h⟩
        cases h 0 hpos (by omega)
    | ok p =>
    obtain ⟨w, s2⟩ := p
    simp only [R_bind_ok]
    cases e3 : readLE 4 s2 with
    | error x =>
      constructor
      · intro h; cases h
      · rintro ⟨hl, h⟩
        cases h 0 hpos (by omega)
    | ok p =>
    obtain ⟨u, s3⟩ := p
    simp only [R_bind_ok]
    generalize hload : (fun i s => fastLoad B (K (if o.rank = 0 then 0 else 2)) (queryLg o.wsize) (fastDefault (junk i)) s) = load
    obtain ⟨hs1, hs2⟩ := setIndexes_spec qs
    have hnil : ∀ (m : List (Nat × FastObj (K (if o.rank = 0 then 0 else 2)))) (E : Env),
        answerQuery m (fun ts => fastIntersect (queryLg o.wsize) (ts.map fun t => t.nav pad) o.runs parallel E) [] = .error .oob :=
      fun m E => (C35_fast_bad_queries m (queryLg o.wsize) pad o.runs parallel E).1
    have hmem : ∀ (q : List Nat) x, x ∈ setIndexes [q] ↔ x ∈ q := fun q x => by
      rw [(setIndexes_spec [q]).2]; simp
    have hne : ∀ q : List Nat, q ≠ [] → setIndexes [q] ≠ [] := fun q h => by
      obtain ⟨x, hx⟩ := List.exists_mem_of_ne_nil _ h
      exact List.ne_nil_of_mem ((hmem q x).2 hx)
    constructor
    · intro h
      obtain ⟨m, hm, ha⟩ := bind_ok h
      obtain ⟨hl, ha⟩ := (answerAll_iff qs 0 as).1 ha
      refine ⟨hl, fun j hj hj' => ?_⟩
      have h1 := ha j hj hj'
      rw [Nat.zero_add] at h1
      have hqj : qs[j] ≠ [] := by
        intro hc
        rw [hc, hnil] at h1
        cases h1
      have hsub : ∀ x ∈ setIndexes [qs[j]], x ∈ setIndexes qs := fun x hx =>
        (hs2 x).2 ⟨qs[j], List.getElem_mem hj, (hmem _ x).1 hx⟩
      obtain ⟨m', hm', hlk⟩ := loadLoop_less n 0 s3 (setIndexes qs) (setIndexes [qs[j]]) (hne _ hqj) hs1 (setIndexes_spec [qs[j]]).1
        (fun _ _ => Nat.zero_le _) (fun _ _ => Nat.zero_le _) (fun x hx => ⟨x, hsub x hx, Nat.le_refl _⟩) m hm
      rw [hm', R_bind_ok, answerAll_one, answerQuery_congr (fun x hx => hlk x ((hmem _ x).2 hx) (hsub x ((hmem _ x).2 hx)))]
      exact h1
    · rintro ⟨hl, h⟩
      have hq0 : ∀ j (hj : j < qs.length), qs[j] ≠ [] := by
        intro j hj hc
        obtain ⟨m, -, ha⟩ := bind_ok (h j hj (by omega))
        rw [answerAll_one, hc, hnil] at ha
        cases ha
      have hsne : setIndexes qs ≠ [] := by
        obtain ⟨x, hx⟩ := List.exists_mem_of_ne_nil _ (hq0 0 hpos)
        exact List.ne_nil_of_mem ((hs2 x).2 ⟨qs[0], List.getElem_mem hpos, hx⟩)
      obtain ⟨L, hL, hmax⟩ := exists_max _ hsne
      obtain ⟨q, hqm, hLq⟩ := (hs2 L).1 hL
      obtain ⟨j, hj, rfl⟩ := List.getElem_of_mem hqm
      obtain ⟨mj, hmj, -⟩ := bind_ok (h j hj (by omega))
      obtain ⟨m, hm, -⟩ := loadLoop_less n 0 s3 (setIndexes [qs[j]]) (setIndexes qs) hsne (setIndexes_spec [qs[j]]).1 hs1
        (fun _ _ => Nat.zero_le _) (fun _ _ => Nat.zero_le _) (fun x hx => ⟨L, (hmem _ L).2 hLq, hmax x hx⟩) mj hmj
      rw [hm, R_bind_ok, answerAll_iff]
      refine ⟨hl, fun k hk hk' => ?_⟩
      have hsub : ∀ x ∈ setIndexes [qs[k]], x ∈ setIndexes qs := fun x hx =>
        (hs2 x).2 ⟨qs[k], List.getElem_mem hk, (hmem _ x).1 hx⟩
      obtain ⟨m', hm', hlk⟩ := loadLoop_less n 0 s3 (setIndexes qs) (setIndexes [qs[k]]) (hne _ (hq0 k hk)) hs1 (setIndexes_spec [qs[k]]).1
        (fun _ _ => Nat.zero_le _) (fun _ _ => Nat.zero_le _) (fun x hx => ⟨x, hsub x hx, Nat.le_refl _⟩) m hm
      have h1 := h k hk hk'
      rw [hm', R_bind_ok, answerAll_one, answerQuery_congr (fun x hx => hlk x ((hmem _ x).2 hx) (hsub x ((hmem _ x).2 hx)))] at h1
      rw [Nat.zero_add]
      exact h1

/-- The file of the examples: three queries in one log, and each in a log of its own. -/
example : (buildFast Ex.bvIO (fun _ => Ex.rankIO) 0 (fun _ => Ex.junk) 1 100 0 true false 8 (collectionBytes 1 64 Ex.coll) >>= fun f =>
      queryFast Ex.bvIO (fun _ => Ex.rankIO) 0 (fun _ => Ex.junk) false (fun _ => ⟨8, [], []⟩) [[2, 0], [1], List.replicate 17 0]
        (f.getD [])) = .ok [some [3, 4, 31], some [0, 3, 17, 31, 60], none] ∧
    (buildFast Ex.bvIO (fun _ => Ex.rankIO) 0 (fun _ => Ex.junk) 1 100 0 true false 8 (collectionBytes 1 64 Ex.coll) >>= fun f =>
      queryFast Ex.bvIO (fun _ => Ex.rankIO) 0 (fun _ => Ex.junk) false (fun _ => ⟨8, [], []⟩) [[1]] (f.getD [])) =
        .ok [some [0, 3, 17, 31, 60]] := by
  decide +kernel

/-- C105, on one machine with one schedule: the answers to any selection of the queries of a log, in any order and with any repetitions, are
the same selection of the answers. -/
theorem C105_selection (F : Formats) (B : BvIO) (K : Nat → RankIO) (pad : Nat) (junk : Nat → FastJunk) (parallel : Bool) (env : Env) (s : Bytes)
    {qs : List (List Nat)} {as : List (Option (List Nat))} {ps : List Nat} (hps : ps ≠ []) (hp : ∀ p ∈ ps, p < qs.length) :
    (queryLog F pad parallel (fun _ => env) qs s = .ok as →
      queryLog F pad parallel (fun _ => env) (ps.map fun p => qs.getD p []) s = .ok (ps.map fun p => as.getD p none)) ∧
    (queryFast B K pad junk parallel (fun _ => env) qs s = .ok as →
      queryFast B K pad junk parallel (fun _ => env) (ps.map fun p => qs.getD p []) s = .ok (ps.map fun p => as.getD p none)) := by
  have hq : qs ≠ [] := by
    obtain ⟨p, h⟩ := List.exists_mem_of_ne_nil _ hps
    have := hp p h
    intro hc
    rw [hc] at this
    simp at this
  have hne : (ps.map fun p => qs.getD p []) ≠ [] := by simpa using hps
  constructor
  · intro h
    obtain ⟨hl, h⟩ := (C105_tries F pad parallel _ s hq as).1 h
    refine (C105_tries F pad parallel _ s hne _).2 ⟨by simp, fun j hj hj' => ?_⟩
    have hj0 : j < ps.length := by simpa using hj
    have hb := hp _ (List.getElem_mem hj0)
    have := h ps[j] hb (by omega)
    rw [List.getElem_map, List.getElem_map, List.getD_eq_getElem?_getD, List.getD_eq_getElem?_getD, List.getElem?_eq_getElem hb,
      List.getElem?_eq_getElem (by omega)]
    exact this
  · intro h
    obtain ⟨hl, h⟩ := (C105_fast B K pad junk parallel _ s hq as).1 h
    refine (C105_fast B K pad junk parallel _ s hne _).2 ⟨by simp, fun j hj hj' => ?_⟩
    have hj0 : j < ps.length := by simpa using hj
    have hb := hp _ (List.getElem_mem hj0)
    have := h ps[j] hb (by omega)
    rw [List.getElem_map, List.getElem_map, List.getD_eq_getElem?_getD, List.getD_eq_getElem?_getD, List.getElem?_eq_getElem hb,
      List.getElem?_eq_getElem (by omega)]
    exact this

/-- C105 for the texts of logs: what a tool makes of a log is what it makes of logs with one line each. -/
theorem C105_texts (F : Formats) (B : BvIO) (K : Nat → RankIO) (pad : Nat) (junk : Nat → FastJunk) (parallel : Bool) (env : Nat → Env)
    (s : Bytes) {qs : List (List Nat)} (hq : qs ≠ []) {text : Str} (ht : LogText text qs) {one : Nat → Str}
    (h1 : ∀ j (h : j < qs.length), LogText (one j) [qs[j]]) (as : List (Option (List Nat))) :
    ((∀ q ∈ qs, ∀ n ∈ q, n < 2 ^ 31) → (queryLogText F pad parallel env (some text) s = .ok as ↔ as.length = qs.length ∧
      ∀ j (h : j < as.length), queryLogText F pad parallel (fun _ => env j) (some (one j)) s = .ok [as[j]])) ∧
    ((∀ q ∈ qs, ∀ n ∈ q, n < 2 ^ 64) → (queryFastText B K pad junk parallel env (some text) s = .ok as ↔ as.length = qs.length ∧
      ∀ j (h : j < as.length), queryFastText B K pad junk parallel (fun _ => env j) (some (one j)) s = .ok [as[j]])) := by
  constructor
  · intro hb
    rw [(C50_tools ht s pad parallel env as).1 F hb, C105_tries F pad parallel env s hq]
    refine and_congr_right fun hl => ⟨fun h j hj => ?_, fun h j hj hj' => ?_⟩
    · exact ((C50_tools (h1 j (by omega)) s pad parallel _ _).1 F (fun q hq => by
        rw [List.mem_singleton.1 hq]; exact hb _ (List.getElem_mem _))).2 (h j (by omega) hj)
    · exact ((C50_tools (h1 j hj) s pad parallel _ _).1 F (fun q hq => by
        rw [List.mem_singleton.1 hq]; exact hb _ (List.getElem_mem _))).1 (h j hj')
  · intro hb
    rw [(C50_tools ht s pad parallel env as).2 B K junk hb, C105_fast B K pad junk parallel env s hq]
    refine and_congr_right fun hl => ⟨fun h j hj => ?_, fun h j hj hj' => ?_⟩
    · exact ((C50_tools (h1 j (by omega)) s pad parallel _ _).2 B K junk (fun q hq => by
        rw [List.mem_singleton.1 hq]; exact hb _ (List.getElem_mem _))).2 (h j (by omega) hj)
    · exact ((C50_tools (h1 j hj) s pad parallel _ _).2 B K junk (fun q hq => by
        rw [List.mem_singleton.1 hq]; exact hb _ (List.getElem_mem _))).1 (h j hj')

/-- The lines of a log as the tools' own texts. -/
example : LogText (queriesText [[2, 0], [1]]) [[2, 0], [1]] ∧ LogText (queriesText [[2, 0]]) [[2, 0]] ∧ LogText (queriesText [[1]]) [[1]] :=
  ⟨logText_queries _, logText_queries _, logText_queries _⟩

end CBT
