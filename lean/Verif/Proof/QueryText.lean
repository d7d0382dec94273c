import Verif.SpecText
import Verif.Model.QueryText
import Verif.Proof.ToolsTries

/-!
# Reading query logs
-/

namespace CBT

open Spec

theorem isSpace_blank {c : Char} (h : c ∈ blanks) : isSpace c = true := by
  simp only [blanks, List.mem_cons, List.not_mem_nil, or_false] at h
  rcases h with rfl | rfl | rfl | rfl | rfl <;> decide

theorem newline_not_blank : '\n' ∉ blanks := by decide

theorem isSpace_word {c : Char} (h : c ∉ blanks ∧ c ≠ '\n') : isSpace c = false := by
  obtain ⟨h, h'⟩ := h
  simp only [blanks, List.mem_cons, List.not_mem_nil, or_false, not_or] at h
  obtain ⟨h1, h2, h3, h4, h5⟩ := h
  have h6 : c.toNat ≠ 11 := fun e => h4 (by rw [← e, Char.ofNat_toNat])
  have h7 : c.toNat ≠ 12 := fun e => h5 (by rw [← e, Char.ofNat_toNat])
  simp [isSpace, h1, h2, h3, h', h6, h7]

/-! ## Words -/

theorem tokensFrom_blanks {b : Str} (hb : ∀ c ∈ b, c ∈ blanks) (s : Str) : tokensFrom [] (b ++ s) = tokensFrom [] s := by
  induction b with
  | nil => rfl
  | cons c b ih =>
    rw [List.cons_append, tokensFrom, isSpace_blank (hb c (by simp)), if_pos rfl, if_pos rfl]
    exact ih fun c h => hb c (List.mem_cons_of_mem _ h)

theorem tokensFrom_word {w : Str} (hw : ∀ c ∈ w, c ∉ blanks ∧ c ≠ '\n') (cur s : Str) :
    tokensFrom cur (w ++ s) = tokensFrom (cur ++ w) s := by
  induction w generalizing cur with
  | nil => simp
  | cons c w ih =>
    rw [List.cons_append, tokensFrom, isSpace_word (hw c (by simp)), if_neg (by decide),
      ih (fun c h => hw c (List.mem_cons_of_mem _ h)), List.append_assoc]
    rfl

theorem tokens_words {line : Str} {ws : List Str} (h : HasWords line ws) : tokens line = ws := by
  rw [tokens]
  induction h with
  | done hb =>
    have := tokensFrom_blanks hb []
    rw [List.append_nil] at this
    rw [this]; rfl
  | @word b w rest ws hb hw hw' hr h ih =>
    rw [tokensFrom_blanks hb, tokensFrom_word hw', List.nil_append]
    rcases hr with rfl | ⟨c, r, hc, rfl⟩
    · rw [tokensFrom, if_neg hw, ← ih]; rfl
    · rw [tokensFrom, isSpace_blank hc, if_pos rfl, if_neg hw]
      rw [tokensFrom, isSpace_blank hc, if_pos rfl, if_pos rfl] at ih
      rw [ih]

theorem words_no_newline {line : Str} {ws : List Str} (h : HasWords line ws) : '\n' ∉ line := by
  induction h with
  | done hb => exact fun h => newline_not_blank (hb _ h)
  | word hb hw hw' hr h ih =>
    simp only [List.mem_append, not_or]
    exact ⟨fun h => newline_not_blank (hb _ h), fun h => (hw' _ h).2 rfl, ih⟩

/-! ## Lines -/

theorem textLines_line {line : Str} (h : '\n' ∉ line) (text : Str) : textLines (line ++ '\n' :: text) = line :: textLines text := by
  induction line with
  | nil => rw [List.nil_append, textLines, if_pos rfl]
  | cons c line ih =>
    simp only [List.mem_cons, not_or] at h
    rw [List.cons_append, textLines, if_neg (fun e => h.1 e.symm), ih h.2]

theorem textLines_last {line : Str} (h : '\n' ∉ line) (hl : line ≠ []) : textLines line = [line] := by
  induction line with
  | nil => exact absurd rfl hl
  | cons c line ih =>
    simp only [List.mem_cons, not_or] at h
    rw [textLines, if_neg (fun e => h.1 e.symm)]
    cases line with
    | nil => rfl
    | cons d line => rw [ih h.2 (by simp)]

/-! ## Numbers -/

theorem digit_range {c : Char} (h : c.isDigit) : 48 ≤ c.toNat ∧ c.toNat ≤ 57 := by
  simp only [Char.isDigit, Bool.and_eq_true, decide_eq_true_eq] at h
  exact h

theorem isSpace_digit {c : Char} (h : c.isDigit) : isSpace c = false := by
  have h := digit_range h
  have : ∀ d : Char, d.toNat < 48 → (c == d) = false := fun d hd => by
    rw [beq_eq_false_iff_ne]; rintro rfl; omega
  rw [isSpace, this ' ' (by decide), this '\t' (by decide), this '\n' (by decide), this '\r' (by decide)]
  simp; omega

theorem scanNumber_decimal {w : Str} {n : Nat} (h : Decimal w n) : scanNumber w = some (false, n) := by
  obtain ⟨h1, h2, h3⟩ := h
  cases w with
  | nil => exact absurd rfl h1
  | cons c w =>
    have hc := h2 c (by simp)
    have hr := digit_range hc
    have e1 : c ≠ '-' := by rintro rfl; exact absurd hr.1 (by decide)
    have e2 : c ≠ '+' := by rintro rfl; exact absurd hr.1 (by decide)
    have e3 : List.takeWhile Char.isDigit (c :: w) = c :: w := by
      rw [List.takeWhile_eq_self_iff]; exact h2
    rw [scanNumber, List.dropWhile_cons_of_neg (by rw [isSpace_digit hc]; decide)]
    simp only [e1, e2, if_false, e3]
    rw [if_neg (by simp), ← h3]
    rfl

theorem stoiU32_decimal {w : Str} {n : Nat} (h : Decimal w n) : stoiU32 w = if n < 2 ^ 31 then .ok n else .error .exc := by
  rw [stoiU32, scanNumber_decimal h]

theorem stoull_decimal {w : Str} {n : Nat} (h : Decimal w n) : stoull w = if n < 2 ^ 64 then .ok n else .error .exc := by
  rw [stoull, scanNumber_decimal h]; rfl

/-! ## The whole log -/

theorem mapR_words {f : Str → R Nat} {lim : Nat} (hf : ∀ w n, Decimal w n → f w = if n < lim then .ok n else .error .exc)
    {ws : List Str} {q : List Nat} (h : List.Forall₂ Decimal ws q) :
    mapR f ws = if ∀ n ∈ q, n < lim then .ok q else .error .exc := by
  induction h with
  | nil => simp [mapR]
  | @cons w n ws q hw h ih =>
    rw [mapR, hf w n hw]
    by_cases hn : n < lim
    · rw [if_pos hn, R_bind_ok, ih]
      by_cases hq : ∀ n ∈ q, n < lim
      · rw [if_pos hq, if_pos (by simpa [hn] using hq)]; rfl
      · rw [if_neg hq, if_neg (by simpa [hn] using hq)]; rfl
    · rw [if_neg hn, if_neg (fun h => hn (h n (by simp)))]; rfl

theorem loadQueryLog_text {f : Str → R Nat} {lim : Nat} (hf : ∀ w n, Decimal w n → f w = if n < lim then .ok n else .error .exc)
    {text : Str} {qs : List (List Nat)} (h : LogText text qs) :
    loadQueryLog f (some text) = if ∀ q ∈ qs, ∀ n ∈ q, n < lim then .ok qs else .error .exc := by
  rw [loadQueryLog]
  have one : ∀ {line : Str} {q : List Nat}, HasNumbers line q →
      '\n' ∉ line ∧ mapR f (tokens line) = if ∀ n ∈ q, n < lim then .ok q else .error .exc := by
    rintro line q ⟨ws, h1, h2⟩
    exact ⟨words_no_newline h1, by rw [tokens_words h1, mapR_words hf h2]⟩
  have step : ∀ (line : Str) (ls : List Str) (q : List Nat) (qs : List (List Nat)),
      (mapR f (tokens line) = if ∀ n ∈ q, n < lim then .ok q else .error .exc) →
      (mapR (fun line => mapR f (tokens line)) ls = if ∀ q ∈ qs, ∀ n ∈ q, n < lim then .ok qs else .error .exc) →
      mapR (fun line => mapR f (tokens line)) (line :: ls) = if ∀ q' ∈ q :: qs, ∀ n ∈ q', n < lim then .ok (q :: qs) else .error .exc := by
    intro line ls q qs e1 e2
    rw [mapR, e1]
    by_cases hq : ∀ n ∈ q, n < lim
    · rw [if_pos hq, R_bind_ok, e2]
      by_cases hqs : ∀ q ∈ qs, ∀ n ∈ q, n < lim
      · rw [if_pos hqs, if_pos (by simpa [List.forall_mem_cons] using ⟨hq, hqs⟩)]; rfl
      · rw [if_neg hqs, if_neg (fun h => hqs (List.forall_mem_cons.1 h).2)]; rfl
    · rw [if_neg hq, if_neg (fun h => hq (List.forall_mem_cons.1 h).1)]; rfl
  induction h with
  | nil => simp [textLines, mapR]
  | last hne hl =>
    obtain ⟨h1, h2⟩ := one hl
    rw [textLines_last h1 hne]
    exact step _ [] _ [] h2 (by simp [mapR])
  | line hl _ ih =>
    obtain ⟨h1, h2⟩ := one hl
    rw [textLines_line h1]
    exact step _ _ _ _ h2 ih

/-! ## The canonical text -/

theorem decimal_toDigits (n : Nat) : Decimal (Nat.toDigits 10 n) n :=
  ⟨Nat.toDigits_ne_nil, fun _ h => Nat.isDigit_of_mem_toDigits (by decide) (by decide) h, Nat.ofDigitChars_ten_toDigits⟩

theorem digit_word {c : Char} (h : c.isDigit) : c ∉ blanks ∧ c ≠ '\n' := by
  have h := digit_range h
  have : ∀ d : Char, d.toNat < 48 → c ≠ d := fun d hd => by rintro rfl; omega
  refine ⟨fun hm => ?_, this _ (by decide)⟩
  simp only [blanks, List.mem_cons, List.not_mem_nil, or_false] at hm
  rcases hm with e | e | e | e | e <;> exact this _ (by decide) e

theorem hasNumbers_line (q : List Nat) : HasNumbers (numbersLine q) q := by
  have word : ∀ (n : Nat) (rest : Str) (ws : List Str), (rest = [] ∨ ∃ c r, c ∈ blanks ∧ rest = c :: r) → HasWords rest ws →
      HasWords (Nat.toDigits 10 n ++ rest) (Nat.toDigits 10 n :: ws) := fun n rest ws h h' =>
    HasWords.word (b := []) (by simp) (decimal_toDigits n).1 (fun c hc => digit_word ((decimal_toDigits n).2.1 c hc)) h h'
  have key : ∀ q : List Nat, HasWords (numbersLine q) (q.map (Nat.toDigits 10)) := by
    intro q
    induction q with
    | nil => exact .done (by simp [numbersLine])
    | cons n q ih =>
      cases q with
      | nil =>
        have := word n [] [] (.inl rfl) (.done (by simp))
        rw [List.append_nil] at this
        exact this
      | cons m q =>
        refine word n _ _ (.inr ⟨' ', _, by decide, rfl⟩) ?_
        have hb : ∀ {l ws}, HasWords l ws → HasWords (' ' :: l) ws := by
          intro l ws h
          cases h with
          | done hb => exact .done (by
              intro c hc
              rcases List.mem_cons.1 hc with rfl | hc
              · decide
              · exact hb c hc)
          | @word b w rest ws hb hw hw' hr h =>
            exact HasWords.word (b := ' ' :: b) (by
              intro c hc
              rcases List.mem_cons.1 hc with rfl | hc
              · decide
              · exact hb c hc) hw hw' hr h
        exact hb ih
  refine ⟨_, key q, ?_⟩
  induction q with
  | nil => exact .nil
  | cons n q ih => exact .cons (decimal_toDigits n) ih

theorem logText_queries (qs : List (List Nat)) : LogText (queriesText qs) qs := by
  induction qs with
  | nil => exact .nil
  | cons q qs ih =>
    have : queriesText (q :: qs) = numbersLine q ++ '\n' :: queriesText qs := by simp [queriesText]
    rw [this]
    exact .line (hasNumbers_line q) ih

/-! ## Failures -/

theorem mapR_exc {α β : Type} {f : α → R β} (hf : ∀ a e, f a = .error e → e = .exc) {l : List α} {a : α} (ha : a ∈ l) {e : UB}
    (h : f a = .error e) : mapR f l = .error .exc := by
  induction l with
  | nil => simp at ha
  | cons x l ih =>
    rw [mapR]
    rcases List.mem_cons.1 ha with rfl | ha
    · rw [h, hf _ _ h]; rfl
    · cases hx : f x with
      | error e' => rw [hf _ _ hx]; rfl
      | ok b => rw [R_bind_ok, ih ha]; rfl

theorem mapR_error {α β : Type} {f : α → R β} (hf : ∀ a e, f a = .error e → e = .exc) (l : List α) (e : UB)
    (h : mapR f l = .error e) : e = .exc := by
  induction l with
  | nil => exact nomatch h
  | cons x l ih =>
    rw [mapR] at h
    cases hx : f x with
    | error e' =>
      rw [hx] at h
      have : e' = e := by injection h
      exact this ▸ hf _ _ hx
    | ok b =>
      rw [hx, R_bind_ok] at h
      cases hl : mapR f l with
      | error e' =>
        rw [hl] at h ih
        have : e' = e := by injection h
        exact ih (by rw [this])
      | ok bs => rw [hl, R_bind_ok] at h; exact nomatch h

theorem textLines_lines {ls : List Str} (h : ∀ l ∈ ls, '\n' ∉ l) : textLines (ls.flatMap fun l => l ++ ['\n']) = ls := by
  induction ls with
  | nil => rfl
  | cons l ls ih =>
    have : ((l :: ls).flatMap fun l => l ++ ['\n']) = l ++ '\n' :: (ls.flatMap fun l => l ++ ['\n']) := by simp
    rw [this, textLines_line (h l (by simp)), ih fun l hl => h l (List.mem_cons_of_mem _ hl)]

theorem scanNumber_none {w : Str} (h : ∀ c ∈ w, ¬ c.isDigit) : scanNumber w = none := by
  have key : ∀ r : Str, (∀ c ∈ r, c ∈ w) → List.takeWhile Char.isDigit r = [] := fun r hr => by
    cases r with
    | nil => rfl
    | cons c r => exact List.takeWhile_cons_of_neg (h c (hr c (by simp)))
  have hsub : ∀ c ∈ w.dropWhile isSpace, c ∈ w := fun c hc => (List.dropWhile_sublist _).subset hc
  rw [scanNumber]
  cases hd : w.dropWhile isSpace with
  | nil => simp
  | cons c r =>
    have hr : ∀ d ∈ r, d ∈ w := fun d hd' => hsub d (by rw [hd]; simp [hd'])
    have hc : ∀ d ∈ c :: r, d ∈ w := fun d hd' => hsub d (by rw [hd]; exact hd')
    by_cases h1 : c = '-'
    · simp [h1, key r hr]
    · by_cases h2 : c = '+'
      · simp [h2, key r hr]
      · simp [h1, h2, key (c :: r) hc]

end CBT
