import Verif.Model.ResultsFile
import Verif.SpecResults
import Verif.Proof.CommandLine

/-!
# Lemmas on the results file
-/

namespace CBT

open Spec

theorem getAll_length {seqs : List Nav} {q : List Nat} {ts : List Nav} (h : getAll seqs q = .ok ts) : ts.length = q.length := by
  induction q generalizing ts with
  | nil => cases h; rfl
  | cons i q ih =>
    rw [getAll] at h
    obtain ⟨t, -, h⟩ := bind_ok h
    obtain ⟨ts', h', h⟩ := bind_ok h
    injection h with h
    rw [← h, List.length_cons, List.length_cons, ih h']

theorem header_line : resultsHeader = "elements_per_query,time execution,size_intersection".toList ++ ['\n'] := by decide +kernel

/-- The answers do not depend on the writing. -/
theorem answerWriting_answers (seqs : List Nav) (inter : Nat → List Nav → R (List Nat)) (time : Nat → Str) (i : Nat)
    (queries : List (List Nat)) : (answerWriting seqs inter time i queries).2 = answerLog seqs inter i queries := by
  induction queries generalizing i with
  | nil => rfl
  | cons q qs ih =>
    rw [answerWriting, answerLog]
    cases hg : getAll seqs q with
    | error e => rfl
    | ok ts =>
      rw [R_bind_ok]
      by_cases hl : ts.length ≤ 16
      · simp only [if_pos hl]
        cases hi : inter i ts with
        | error e => rfl
        | ok r =>
          simp only [R_bind_ok, ih]
          rfl
      · simp only [if_neg hl, ih]
        rfl

/-- The lines are those of the answers. -/
theorem answerWriting_lines {sets : List (List Nat)} (seqs : List Nav) (inter : Nat → List Nav → R (List Nat)) (time : Nat → Str) (i : Nat)
    (ht : ∀ i, ',' ∉ time i ∧ '\n' ∉ time i) {queries : List (List Nat)} {as : List (Option (List Nat))}
    (ha : answerLog seqs inter i queries = .ok as) (h : List.Forall₂ (Answers sets) queries as) :
    ∃ lines : List Str, (answerWriting seqs inter time i queries).1 = lines.flatMap (fun l => l ++ ['\n']) ∧
      List.Forall₂ (IsResultLine sets) (queries.filter fun q => decide (q.length ≤ 16)) lines := by
  induction queries generalizing i as with
  | nil => exact ⟨[], rfl, .nil⟩
  | cons q qs ih =>
    rw [answerLog] at ha
    obtain ⟨ts, hg, ha⟩ := bind_ok ha
    have hlen := getAll_length hg
    rw [answerWriting, hg]
    by_cases hl : ts.length ≤ 16
    · simp only [if_pos hl] at ha ⊢
      cases hi : inter i ts with
      | error e => rw [hi] at ha; exact nomatch ha
      | ok r =>
        rw [hi] at ha
        simp only [R_bind_ok] at ha
        have ha2 : (answerLog seqs inter (i + 1) qs >>= fun as' => .ok (some r :: as')) = .ok as := ha
        obtain ⟨as', ha', ha⟩ := bind_ok ha2
        obtain rfl : some r :: as' = as := Except.ok.inj (ha : (.ok (some r :: as') : R (List (Option (List Nat)))) = .ok as)
        cases h with
        | cons hq h =>
          obtain ⟨lines, e1, e2⟩ := ih (i + 1) ha' h
          obtain ⟨R, eR, hR⟩ := hq.1 (by omega)
          injection eR with eR
          subst eR
          refine ⟨(Nat.toDigits 10 ts.length ++ ',' :: (time i ++ ',' :: Nat.toDigits 10 r.length)) :: lines, ?_, ?_⟩
          · simp [e1, resultsLine, List.flatMap_cons]
          · rw [List.filter_cons_of_pos (by simp; omega)]
            refine .cons ⟨_, time i, _, rfl, ?_, ht i, r, hR, decimal_toDigits _⟩ e2
            rw [hlen]
            exact decimal_toDigits _
    · simp only [if_neg hl] at ha ⊢
      have ha2 : (answerLog seqs inter (i + 1) qs >>= fun as' => .ok (none :: as')) = .ok as := ha
      obtain ⟨as', ha', ha⟩ := bind_ok ha2
      obtain rfl : none :: as' = as := Except.ok.inj (ha : (.ok (none :: as') : R (List (Option (List Nat)))) = .ok as)
      cases h with
      | cons hq h =>
        rw [List.filter_cons_of_neg (by simp; omega)]
        exact ih (i + 1) ha' h

/-- The lines have the numbers of `resultRows`. -/
theorem answerWriting_rows (seqs : List Nav) (inter : Nat → List Nav → R (List Nat)) (time : Nat → Str) (i : Nat)
    (ht : ∀ i, ',' ∉ time i ∧ '\n' ∉ time i) {queries : List (List Nat)} {as : List (Option (List Nat))}
    (ha : answerLog seqs inter i queries = .ok as) :
    IsRowsText (resultRows queries as) (resultsHeader ++ (answerWriting seqs inter time i queries).1) := by
  suffices h : ∃ lines : List Str, (answerWriting seqs inter time i queries).1 = lines.flatMap (fun l => l ++ ['\n']) ∧
      List.Forall₂ (fun (row : Nat × Nat) line => ∃ a t b, line = a ++ ',' :: (t ++ ',' :: b) ∧ Decimal a row.1 ∧ (',' ∉ t ∧ '\n' ∉ t) ∧
        Decimal b row.2) (resultRows queries as) lines by
    obtain ⟨lines, e1, e2⟩ := h
    exact ⟨lines, by rw [e1, header_line, List.flatMap_cons], e2⟩
  induction queries generalizing i as with
  | nil =>
    injection ha with ha
    subst ha
    exact ⟨[], rfl, .nil⟩
  | cons q qs ih =>
    rw [answerLog] at ha
    obtain ⟨ts, hg, ha⟩ := bind_ok ha
    have hlen := getAll_length hg
    rw [answerWriting, hg]
    by_cases hl : ts.length ≤ 16
    · simp only [if_pos hl] at ha ⊢
      cases hi : inter i ts with
      | error e => rw [hi] at ha; exact nomatch ha
      | ok r =>
        rw [hi] at ha
        have ha2 : (answerLog seqs inter (i + 1) qs >>= fun as' => .ok (some r :: as')) = .ok as := ha
        obtain ⟨as', ha', ha⟩ := bind_ok ha2
        obtain rfl : some r :: as' = as := Except.ok.inj (ha : (.ok (some r :: as') : R (List (Option (List Nat)))) = .ok as)
        obtain ⟨lines, e1, e2⟩ := ih (i + 1) ha'
        refine ⟨(Nat.toDigits 10 ts.length ++ ',' :: (time i ++ ',' :: Nat.toDigits 10 r.length)) :: lines, ?_, ?_⟩
        · simp [e1, resultsLine, List.flatMap_cons]
        · rw [resultRows]
          exact .cons ⟨_, time i, _, rfl, by rw [hlen]; exact decimal_toDigits _, ht i, decimal_toDigits _⟩ e2
    · simp only [if_neg hl] at ha ⊢
      have ha2 : (answerLog seqs inter (i + 1) qs >>= fun as' => .ok (none :: as')) = .ok as := ha
      obtain ⟨as', ha', ha⟩ := bind_ok ha2
      obtain rfl : none :: as' = as := Except.ok.inj (ha : (.ok (none :: as') : R (List (Option (List Nat)))) = .ok as)
      exact ih (i + 1) ha'

theorem Texts.put_other (texts : Texts) {name n : Str} (h : n ≠ name) (text : Str) : texts.put name text n = texts n := if_neg h

theorem Texts.put_same (texts : Texts) (name text : Str) : texts.put name text name = some text := if_pos rfl

/-- Only the results file changes. -/
theorem performFiles_other (load : R (List Nav)) (inter : Nat → List Nav → R (List Nat)) (time : Nat → Str) (writable : Str → Bool)
    (texts : Texts) (log out : Str) {n : Str} (h : out ≠ [] → writable out = true → n ≠ out) :
    (performFiles load inter time writable texts log out).1 n = texts n := by
  have key : ∀ text, (if (decide (out ≠ []) && writable out) = true then texts.put out text else texts) n = texts n := fun text => by
    by_cases ho : (decide (out ≠ []) && writable out) = true
    · rw [if_pos ho]
      simp only [Bool.and_eq_true, decide_eq_true_eq] at ho
      exact texts.put_other (h ho.1 ho.2) text
    · rw [if_neg ho]
  unfold performFiles
  cases load with
  | error e => exact key _
  | ok seqs =>
    simp only
    cases hq : loadQueryLog stoiU32 ((if (decide (out ≠ []) && writable out) = true then texts.put out resultsHeader else texts) log) with
    | error e => exact key _
    | ok queries =>
      simp only
      by_cases ho : (decide (out ≠ []) && writable out) = true
      · rw [if_pos ho]
        simp only [Bool.and_eq_true, decide_eq_true_eq] at ho
        exact texts.put_other (h ho.1 ho.2) _
      · rw [if_neg ho, if_neg ho]

/-- The header cannot be read as a query log. -/
theorem header_log : loadQueryLog stoiU32 (some resultsHeader) = .error .exc := by decide +kernel

end CBT
