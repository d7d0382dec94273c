import Verif.Proof.QueryText
import Verif.Props.Tools

/-!
# C50: the text of the query logs
-/

namespace CBT

open Spec

/-- C50, `intersection_query_log`: a log in which every line lists numbers of sets in decimal, separated by blanks, is read as these
queries if all numbers are below `2^31`; otherwise the tool ends with an exception. -/
theorem C50_tries_log {text : Str} {qs : List (List Nat)} (h : LogText text qs) :
    loadQueryLog stoiU32 (some text) = if ∀ q ∈ qs, ∀ n ∈ q, n < 2 ^ 31 then .ok qs else .error .exc :=
  loadQueryLog_text (fun _ _ => stoiU32_decimal) h

/-- C50, `intersection_querylog_fastTrie`: likewise, with the bound `2^64`. -/
theorem C50_fast_log {text : Str} {qs : List (List Nat)} (h : LogText text qs) :
    loadQueryLog stoull (some text) = if ∀ q ∈ qs, ∀ n ∈ q, n < 2 ^ 64 then .ok qs else .error .exc :=
  loadQueryLog_text (fun _ _ => stoull_decimal) h

/-- C50: both tools read back the queries from a log in the format of the README. -/
theorem C50_readme_format (qs : List (List Nat)) :
    loadQueryLog stoiU32 (some (queriesText qs)) = (if ∀ q ∈ qs, ∀ n ∈ q, n < 2 ^ 31 then .ok qs else .error .exc) ∧
    loadQueryLog stoull (some (queriesText qs)) = (if ∀ q ∈ qs, ∀ n ∈ q, n < 2 ^ 64 then .ok qs else .error .exc) :=
  ⟨C50_tries_log (logText_queries qs), C50_fast_log (logText_queries qs)⟩

example : loadQueryLog stoiU32 (some (queriesText [[3, 14], [], [2147483647]])) = .ok [[3, 14], [], [2147483647]] := by decide +kernel
example : loadQueryLog stoiU32 (some (queriesText [[3], [2147483648]])) = .error .exc := by decide +kernel
example : loadQueryLog stoull (some [' ', '0', '7', '\t', '\t', '1', '\r', '\n', '5']) = .ok [[7, 1], [5]] := by decide +kernel

/-- C50, the tools: on such a log they do what they do for its queries. -/
theorem C50_tools {text : Str} {qs : List (List Nat)} (h : LogText text qs) (s : Bytes) (pad : Nat) (parallel : Bool) (env : Nat → Env)
    (as : List (Option (List Nat))) :
    (∀ F : Formats, (∀ q ∈ qs, ∀ n ∈ q, n < 2 ^ 31) →
      (queryLogText F pad parallel env (some text) s = .ok as ↔ queryLog F pad parallel env qs s = .ok as)) ∧
    (∀ (B : BvIO) (K : Nat → RankIO) (junk : Nat → FastJunk), (∀ q ∈ qs, ∀ n ∈ q, n < 2 ^ 64) →
      (queryFastText B K pad junk parallel env (some text) s = .ok as ↔ queryFast B K pad junk parallel env qs s = .ok as)) := by
  refine ⟨fun F hq => ?_, fun B K junk hq => ?_⟩
  · rw [queryLogText, queryLog, C50_tries_log h, if_pos hq]; rfl
  · rw [queryFastText, queryFast, C50_fast_log h, if_pos hq]; rfl

/-- C50, what is not a number: a word without a digit anywhere in the log ends both tools with an exception, whatever the rest. -/
theorem C50_not_a_number {ls : List Str} (hn : ∀ l ∈ ls, '\n' ∉ l) {line : Str} (hl : line ∈ ls) {ws : List Str} (hw : HasWords line ws)
    {w : Str} (hm : w ∈ ws) (hd : ∀ c ∈ w, ¬ c.isDigit) :
    loadQueryLog stoiU32 (some (ls.flatMap fun l => l ++ ['\n'])) = .error .exc ∧
    loadQueryLog stoull (some (ls.flatMap fun l => l ++ ['\n'])) = .error .exc := by
  have f1 : ∀ a e, stoiU32 a = .error e → e = .exc := fun a e h => by
    rw [stoiU32] at h; split at h <;> first | (split at h <;> first | (injection h with h; exact h.symm) | exact nomatch h)
                                            | (injection h with h; exact h.symm)
  have f2 : ∀ a e, stoull a = .error e → e = .exc := fun a e h => by
    rw [stoull] at h; split at h <;> first | (split at h <;> first | (injection h with h; exact h.symm) | exact nomatch h)
                                           | (injection h with h; exact h.symm)
  have key : ∀ f : Str → R Nat, (∀ a e, f a = .error e → e = .exc) → f w = .error .exc →
      loadQueryLog f (some (ls.flatMap fun l => l ++ ['\n'])) = .error .exc := fun f hf hfw => by
    rw [loadQueryLog, textLines_lines hn]
    refine mapR_exc (fun a e h => mapR_error hf _ e h) hl (e := .exc) ?_
    rw [tokens_words hw]
    exact mapR_exc hf hm hfw
  exact ⟨key _ f1 (by rw [stoiU32, scanNumber_none hd]), key _ f2 (by rw [stoull, scanNumber_none hd])⟩

example : HasWords ['1', ' ', 'x'] [['1'], ['x']] :=
  .word (b := []) (w := ['1']) (rest := [' ', 'x']) (by simp) (by simp) (by decide) (.inr ⟨' ', ['x'], by decide, rfl⟩)
    (.word (b := [' ']) (w := ['x']) (rest := []) (by decide) (by simp) (by decide) (.inl rfl) (.done (by simp)))

/-- C50, blank lines: if some line of the log lists no set, neither tool gets through, whatever the collection and the other lines. -/
theorem C50_blank_line_negation {text : Str} {qs : List (List Nat)} (h : LogText text qs) (hb : [] ∈ qs) (s : Bytes) (pad : Nat)
    (parallel : Bool) (env : Nat → Env) (as : List (Option (List Nat))) :
    (∀ F : Formats, queryLogText F pad parallel env (some text) s ≠ .ok as) ∧
    (∀ (B : BvIO) (K : Nat → RankIO) (junk : Nat → FastJunk), queryFastText B K pad junk parallel env (some text) s ≠ .ok as) := by
  have t : ∀ (seqs : List Nav) (runs : Bool) (qs : List (List Nat)) (i : Nat) (as : List (Option (List Nat))), [] ∈ qs →
      answerLog seqs (fun i ts => intersect ts runs parallel (env i)) i qs ≠ .ok as := by
    intro seqs runs qs
    induction qs with
    | nil => intro i as h; simp at h
    | cons q qs ih =>
      intro i as hm he
      rcases List.mem_cons.1 hm with rfl | hm
      · exact nomatch he
      · rw [answerLog] at he
        obtain ⟨ts, -, he⟩ := bind_ok he
        split at he
        · obtain ⟨r, -, he⟩ := bind_ok he
          obtain ⟨a, -, he⟩ := bind_ok he
          obtain ⟨as', h', -⟩ := bind_ok he
          exact ih _ _ hm h'
        · obtain ⟨a, -, he⟩ := bind_ok he
          obtain ⟨as', h', -⟩ := bind_ok he
          exact ih _ _ hm h'
  have t' : ∀ {K : RankIO} (m : List (Nat × FastObj K)) (lg : Nat) (runs : Bool) (qs : List (List Nat)) (i : Nat) (as : List (Option (List Nat))),
      [] ∈ qs → answerAll m (fun i ts => fastIntersect lg (ts.map fun t => t.nav pad) runs parallel (env i)) i qs ≠ .ok as := by
    intro K m lg runs qs
    induction qs with
    | nil => intro i as h; simp at h
    | cons q qs ih =>
      intro i as hm he
      rw [answerAll] at he
      obtain ⟨a, ha, he⟩ := bind_ok he
      rcases List.mem_cons.1 hm with rfl | hm
      · exact nomatch ha
      · obtain ⟨as', h', -⟩ := bind_ok he
        exact ih _ _ hm h'
  refine ⟨fun F he => ?_, fun B K junk he => ?_⟩
  · rw [queryLogText] at he
    obtain ⟨⟨o, s'⟩, -, he⟩ := bind_ok he
    obtain ⟨seqs, -, he⟩ := bind_ok he
    obtain ⟨q, hq, he⟩ := bind_ok he
    rw [C50_tries_log h] at hq
    split at hq
    · injection hq with hq; subst hq; exact t _ _ _ _ _ hb he
    · exact nomatch hq
  · rw [queryFastText] at he
    obtain ⟨⟨o, s'⟩, -, he⟩ := bind_ok he
    obtain ⟨q, hq, he⟩ := bind_ok he
    obtain ⟨m, -, he⟩ := bind_ok he
    rw [C50_fast_log h] at hq
    split at hq
    · injection hq with hq; subst hq; exact t' _ _ _ _ _ _ hb he
    · exact nomatch hq

example : LogText (queriesText [[3, 14], [], [7]]) [[3, 14], [], [7]] := logText_queries _

/-- C50, what is taken for a number nevertheless: digits followed by anything, and negative numbers, which wrap around. -/
theorem C50_lenient_negation :
    loadQueryLog stoiU32 (some ['1', '2', 'x', ' ', '-', '1', '\n']) = .ok [[12, 4294967295]] ∧
    loadQueryLog stoull (some ['1', ',', '2', ' ', '-', '1', '\n']) = .ok [[1, 18446744073709551615]] := by decide +kernel

end CBT
