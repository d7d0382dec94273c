import Verif.SpecArgs
import Verif.Proof.QueryText

/-!
# Reading the command line
-/

namespace CBT

open Spec

/-- The strings of the specification are those of the model. -/
theorem names_eq : "--min_size".toList = sMinSize ∧ "--max_size".toList = sMaxSize ∧ "--rank".toList = sRank ∧
    "--runs".toList = sRuns ∧ "--levelwise".toList = sLevelwise ∧ "--out".toList = sOut ∧ "--wsize".toList = sWsize ∧
    "--verbose".toList = sVerbose ∧ "--parallel".toList = sParallel ∧ "v".toList = sV ∧ "il".toList = sIl ∧
    "v5".toList = ['v', '5'] := by
  simp [sMinSize, sMaxSize, sRank, sRuns, sLevelwise, sOut, sWsize, sVerbose, sParallel, sV, sIl]

theorem argGet_some {argv : List Str} {i : Nat} {a : Str} (h : argv[i]? = some a) : argGet argv i = .ok a := by
  rw [argGet, h]

theorem argGet_end (argv : List Str) : argGet argv argv.length = .error .null := by
  rw [argGet, List.getElem?_eq_none (Nat.le_refl _)]; simp

/-! ## Loops -/

section
variable {S O : Type} (words : O → List Str) (apply : S → O → S) (Ok : O → Prop) (round : List Str → S × Nat → R (S × Nat))

/-- The options `opts`, which follow `pre`, are read one by one. -/
theorem argLoop_steps (hw : ∀ o, words o ≠ [])
    (hr : ∀ pre o rest s, Ok o → round (pre ++ (words o ++ rest)) (s, pre.length) = .ok (apply s o, pre.length + (words o).length - 1))
    (argv : List Str) (opts : List O) (ho : ∀ o ∈ opts, Ok o) (pre rest : List Str)
    (he : argv = pre ++ (opts.flatMap words ++ rest)) (s : S) (fuel : Nat)
    (hf : (opts.flatMap words).length + rest.length < fuel) :
    ∃ fuel', rest.length < fuel' ∧ argLoop (round argv) argv.length fuel (s, pre.length) =
      argLoop (round argv) argv.length fuel' (opts.foldl apply s, (pre ++ opts.flatMap words).length) := by
  induction opts generalizing pre s fuel with
  | nil => exact ⟨fuel, by simpa using hf, by simp⟩
  | cons o opts ih =>
    have hw' := List.length_pos_iff.2 (hw o)
    obtain ⟨fuel, rfl⟩ : ∃ k, fuel = k + 1 := ⟨fuel - 1, by omega⟩
    have e : argv = pre ++ (words o ++ (opts.flatMap words ++ rest)) := by simpa using he
    have hlt : pre.length < argv.length := by rw [e]; simp; omega
    have h1 := hr pre o (opts.flatMap words ++ rest) s (ho o (by simp))
    rw [← e] at h1
    simp only [List.flatMap_cons, List.length_append] at hf
    obtain ⟨fuel', h2, h3⟩ := ih (fun o h => ho o (List.mem_cons_of_mem _ h)) (pre ++ words o) (by simpa using e) (apply s o) fuel (by omega)
    refine ⟨fuel', h2, ?_⟩
    rw [argLoop, if_pos hlt, h1, R_bind_ok]
    have e' : pre.length + (words o).length - 1 + 1 = (pre ++ words o).length := by simp; omega
    simp only [e', h3]
    simp

theorem argLoop_ok (hw : ∀ o, words o ≠ [])
    (hr : ∀ pre o rest s, Ok o → round (pre ++ (words o ++ rest)) (s, pre.length) = .ok (apply s o, pre.length + (words o).length - 1))
    (opts : List O) (ho : ∀ o ∈ opts, Ok o) (pre : List Str) (s : S) :
    argLoop (round (pre ++ opts.flatMap words)) (pre ++ opts.flatMap words).length ((pre ++ opts.flatMap words).length + 1)
      (s, pre.length) = .ok (opts.foldl apply s) := by
  obtain ⟨fuel', h1, h2⟩ := argLoop_steps words apply Ok round hw hr (pre ++ opts.flatMap words) opts ho pre [] (by simp) s
    ((pre ++ opts.flatMap words).length + 1) (by simp; omega)
  obtain ⟨k, rfl⟩ : ∃ k, fuel' = k + 1 := ⟨fuel' - 1, by omega⟩
  rw [h2, argLoop, if_neg (by simp)]

/-- If the last argument makes a round fail, the loop fails likewise. -/
theorem argLoop_fail (hw : ∀ o, words o ≠ [])
    (hr : ∀ pre o rest s, Ok o → round (pre ++ (words o ++ rest)) (s, pre.length) = .ok (apply s o, pre.length + (words o).length - 1))
    (opts : List O) (ho : ∀ o ∈ opts, Ok o) (pre rest : List Str) (hrest : rest ≠ []) (s : S) (e : UB)
    (hfail : ∀ pre s, round (pre ++ rest) (s, pre.length) = .error e) :
    argLoop (round (pre ++ (opts.flatMap words ++ rest))) (pre ++ (opts.flatMap words ++ rest)).length
      ((pre ++ (opts.flatMap words ++ rest)).length + 1) (s, pre.length) = .error e := by
  obtain ⟨fuel', h1, h2⟩ := argLoop_steps words apply Ok round hw hr (pre ++ (opts.flatMap words ++ rest)) opts ho pre rest rfl s
    ((pre ++ (opts.flatMap words ++ rest)).length + 1) (by simp; omega)
  obtain ⟨k, rfl⟩ : ∃ k, fuel' = k + 1 := ⟨fuel' - 1, by omega⟩
  have := List.length_pos_iff.2 hrest
  rw [h2, argLoop, if_pos (by simp; omega)]
  have h3 := hfail (pre ++ opts.flatMap words) (opts.foldl apply s)
  rw [List.append_assoc] at h3
  rw [h3]; rfl

end

/-! ## Rounds -/

theorem digits_ne_dash (n : Nat) (s : Str) : Nat.toDigits 10 n ≠ '-' :: s := by
  intro h
  have := Nat.isDigit_of_mem_toDigits (b := 10) (n := n) (c := '-') (by decide) (by decide) (by rw [h]; simp)
  exact absurd this (by decide)

theorem atoi_digits {bits n : Nat} (h : n < 2 ^ 31) (h' : n < 2 ^ bits) : atoi bits (Nat.toDigits 10 n) = .ok n := by
  rw [atoi, scanNumber_decimal (decimal_toDigits n)]
  simp only [if_pos h, Nat.mod_eq_of_lt h']

theorem stoull_digits {n : Nat} (h : n < 2 ^ 64) : stoull (Nat.toDigits 10 n) = .ok n := by
  rw [stoull_decimal (decimal_toDigits n), if_pos h]

theorem argGet_append (pre l : List Str) (k : Nat) {a : Str} (h : l[k]? = some a) : argGet (pre ++ l) (pre.length + k) = .ok a :=
  argGet_some (by rw [List.getElem?_append_right (by omega)]; simpa using h)

theorem buildWords_ne (fast : Bool) (o : BuildOption) : o.words fast ≠ [] := by
  cases o with
  | verbose => cases fast <;> exact List.cons_ne_nil _ _
  | _ => exact List.cons_ne_nil _ _

theorem buildRound_ok (fast : Bool) (pre : List Str) (o : BuildOption) (rest : List Str) (s : BuildSettings) (h : o.Ok fast) :
    buildRound fast (pre ++ (o.words fast ++ rest)) (s, pre.length) = .ok (o.apply s, pre.length + (o.words fast).length - 1) := by
  obtain ⟨e1, e2, e3, e4, e5, e6, e7, e8, -, e9, e10, e11⟩ := names_eq
  have flag : ∀ b : Bool, flagWord b = ['t'] ∨ flagWord b = ['f'] := fun b => by cases b <;> simp [flagWord]
  have g0 : ∀ {a : Str} {l : List Str}, o.words fast = a :: l → argGet (pre ++ (o.words fast ++ rest)) pre.length = .ok a := fun e =>
    argGet_append pre _ 0 (by rw [e]; rfl)
  have g1 : ∀ {a b : Str} {l : List Str}, o.words fast = a :: b :: l → argGet (pre ++ (o.words fast ++ rest)) (pre.length + 1) = .ok b :=
    fun e => argGet_append pre _ 1 (by rw [e]; rfl)
  have g2 : ∀ {a b c : Str} {l : List Str}, o.words fast = a :: b :: c :: l →
      argGet (pre ++ (o.words fast ++ rest)) (pre.length + 1 + 1) = .ok c :=
    fun e => argGet_append pre _ 2 (by rw [e]; rfl)
  generalize hargv : pre ++ (o.words fast ++ rest) = argv at g0 g1 g2 ⊢
  cases o with
  | minSize n =>
    have h0 := g0 rfl; have h1 := g1 rfl
    have hd : ∀ s, (Nat.toDigits 10 n = '-' :: s) = False := fun s => by simp [digits_ne_dash]
    rw [e1] at h0
    cases fast <;>
      simp [buildRound, roundCommon, clause, h0, h1, actMinSize, stoull_digits h, BuildOption.apply, BuildOption.words, hd, sMinSize,
        sMaxSize, sRank, sRuns, sLevelwise, sOut, sWsize, sVerbose, R_bind_ok]
  | maxSize n =>
    have h0 := g0 rfl; have h1 := g1 rfl
    have hd : ∀ s, (Nat.toDigits 10 n = '-' :: s) = False := fun s => by simp [digits_ne_dash]
    rw [e2] at h0
    cases fast <;>
      simp [buildRound, roundCommon, clause, h0, h1, actMaxSize, stoull_digits h, BuildOption.apply, BuildOption.words, hd, sMinSize,
        sMaxSize, sRank, sRuns, sLevelwise, sOut, sWsize, sVerbose, R_bind_ok]
  | rankV =>
    have h0 := g0 rfl; have h1 := g1 rfl
    rw [e3] at h0; rw [e9] at h1
    cases fast <;>
      simp [buildRound, roundCommon, clause, h0, h1, actRank, BuildOption.apply, BuildOption.words, sMinSize,
        sMaxSize, sRank, sRuns, sLevelwise, sOut, sWsize, sVerbose, sV, sIl, R_bind_ok]
  | rankIl n =>
    have h0 := g0 rfl; have h1 := g1 rfl; have h2 := g2 rfl
    have hd : ∀ s, (Nat.toDigits 10 n = '-' :: s) = False := fun s => by simp [digits_ne_dash]
    rw [e3] at h0; rw [e10] at h1
    have ha : atoi 32 (Nat.toDigits 10 n) = .ok n := atoi_digits h (Nat.lt_trans h (by decide))
    cases fast <;>
      simp [buildRound, roundCommon, clause, h0, h1, h2, ha, hd, actRank, BuildOption.apply, BuildOption.words, sMinSize,
        sMaxSize, sRank, sRuns, sLevelwise, sOut, sWsize, sVerbose, sV, sIl, R_bind_ok]
  | rankV5 =>
    have h0 := g0 rfl; have h1 := g1 rfl
    rw [e3] at h0; rw [e11] at h1
    cases fast <;>
      simp [buildRound, roundCommon, clause, h0, h1, actRank, BuildOption.apply, BuildOption.words, sMinSize,
        sMaxSize, sRank, sRuns, sLevelwise, sOut, sWsize, sVerbose, sV, sIl, R_bind_ok]
  | runs b =>
    have h0 := g0 rfl; have h1 := g1 rfl
    rw [e4] at h0
    cases fast <;> cases b <;>
      simp [buildRound, roundCommon, clause, h0, h1, actRuns, BuildOption.apply, BuildOption.words, sMinSize, flagWord, sT,
        sMaxSize, sRank, sRuns, sLevelwise, sOut, sWsize, sVerbose, R_bind_ok]
  | levelwise b =>
    have h0 := g0 rfl; have h1 := g1 rfl
    rw [e5] at h0
    cases fast <;> cases b <;>
      simp [buildRound, roundCommon, clause, h0, h1, actLevelwise, BuildOption.apply, BuildOption.words, sMinSize, flagWord, sT,
        sMaxSize, sRank, sRuns, sLevelwise, sOut, sWsize, sVerbose, R_bind_ok]
  | out name =>
    have h0 := g0 rfl; have h1 := g1 rfl
    rw [e6] at h0
    obtain ⟨n1, n2, n3⟩ := h
    rw [e5] at n1; rw [e7] at n2; rw [e8] at n3
    have t1 : clause argv sOut (actOut argv) (s, pre.length) = .ok ({ s with out := name }, pre.length + 1) := by
      simp [clause, h0, actOut, h1, R_bind_ok]
    have t2 : ∀ (x : BuildSettings) n act, name ≠ n → clause argv n act (x, pre.length + 1) = .ok (x, pre.length + 1) := fun x n act hn => by
      simp [clause, h1, hn, R_bind_ok]
    have t3 : ∀ (x : BuildSettings) n act, sOut ≠ n → clause argv n act (x, pre.length) = .ok (x, pre.length) := fun x n act hn => by
      simp [clause, h0, hn, R_bind_ok]
    rw [buildRound, roundCommon, t3 _ _ _ (by decide), R_bind_ok, t3 _ _ _ (by decide), R_bind_ok, t3 _ _ _ (by decide), R_bind_ok,
      t3 _ _ _ (by decide), R_bind_ok, t1, R_bind_ok, t2 _ _ _ n1, R_bind_ok]
    cases fast with
    | true => rw [if_pos rfl, t2 _ _ _ n2, R_bind_ok, t2 _ _ _ n3]; simp [BuildOption.apply, BuildOption.words]
    | false => rw [if_neg (by decide), t2 _ _ _ n3]; simp [BuildOption.apply, BuildOption.words]
  | wsize w =>
    obtain ⟨rfl, h⟩ := h
    have h0 := g0 rfl; have h1 := g1 rfl
    have hd : ∀ s, (Nat.toDigits 10 w = '-' :: s) = False := fun s => by simp [digits_ne_dash]
    rw [e7] at h0
    have ha : atoi 16 (Nat.toDigits 10 w) = .ok w := atoi_digits (Nat.lt_trans h (by decide)) h
    simp [buildRound, roundCommon, clause, h0, h1, ha, hd, actWsize, BuildOption.apply, BuildOption.words, sMinSize,
      sMaxSize, sRank, sRuns, sLevelwise, sOut, sWsize, sVerbose, R_bind_ok]
  | verbose =>
    cases fast with
    | true =>
      have h0 := g0 rfl
      rw [e8] at h0
      simp [buildRound, roundCommon, clause, h0, actVerboseFast, BuildOption.apply, BuildOption.words, sMinSize,
        sMaxSize, sRank, sRuns, sLevelwise, sOut, sWsize, sVerbose, R_bind_ok]
    | false =>
      have h0 := g0 rfl; have h1 := g1 rfl
      rw [e8] at h0
      simp [buildRound, roundCommon, clause, h0, h1, actVerbose, flagWord, sT, BuildOption.apply, BuildOption.words, sMinSize,
        sMaxSize, sRank, sRuns, sLevelwise, sOut, sVerbose, R_bind_ok]

theorem queryWords_ne (fast : Bool) (o : QueryOption) : o.words fast ≠ [] := by
  cases o with
  | verbose => cases fast <;> exact List.cons_ne_nil _ _
  | _ => exact List.cons_ne_nil _ _

theorem queryRound_ok (fast : Bool) (pre : List Str) (o : QueryOption) (rest : List Str) (s : QuerySettings) (h : o.Ok fast) :
    queryRound fast (pre ++ (o.words fast ++ rest)) (s, pre.length) = .ok (o.apply s, pre.length + (o.words fast).length - 1) := by
  obtain ⟨-, -, -, -, -, e6, -, e8, e9, -, -, -⟩ := names_eq
  have g0 : ∀ {a : Str} {l : List Str}, o.words fast = a :: l → argGet (pre ++ (o.words fast ++ rest)) pre.length = .ok a := fun e =>
    argGet_append pre _ 0 (by rw [e]; rfl)
  have g1 : ∀ {a b : Str} {l : List Str}, o.words fast = a :: b :: l → argGet (pre ++ (o.words fast ++ rest)) (pre.length + 1) = .ok b :=
    fun e => argGet_append pre _ 1 (by rw [e]; rfl)
  generalize hargv : pre ++ (o.words fast ++ rest) = argv at g0 g1 ⊢
  cases o with
  | file name =>
    have h0 := g0 rfl
    obtain ⟨n1, n2, n3⟩ := h
    rw [e6] at n1; rw [e8] at n2; rw [e9] at n3
    cases fast <;> simp [queryRound, clause, h0, n1, n2, n3, QueryOption.apply, QueryOption.words, R_bind_ok]
  | parallel b =>
    have h0 := g0 rfl; have h1 := g1 rfl
    rw [e9] at h0
    cases fast <;> cases b <;>
      simp [queryRound, clause, h0, h1, qActParallel, flagWord, sT, QueryOption.apply, QueryOption.words, sOut, sVerbose, sParallel, R_bind_ok]
  | out name =>
    obtain ⟨rfl, n2, n3⟩ := h
    have h0 := g0 rfl; have h1 := g1 rfl
    rw [e6] at h0; rw [e8] at n2; rw [e9] at n3
    simp [queryRound, clause, h0, h1, n2, n3, qActOut, QueryOption.apply, QueryOption.words, R_bind_ok]
  | verbose =>
    cases fast with
    | true =>
      have h0 := g0 rfl
      rw [e8] at h0
      simp [queryRound, clause, h0, qActVerboseFast, QueryOption.apply, QueryOption.words, sVerbose, sParallel, R_bind_ok]
    | false =>
      have h0 := g0 rfl; have h1 := g1 rfl
      rw [e8] at h0
      simp [queryRound, clause, h0, h1, qActVerbose, flagWord, sT, QueryOption.apply, QueryOption.words, sOut, sVerbose, sParallel, R_bind_ok]

/-! ## Sessions -/

theorem kept_getD {mn mx : Nat} (lists : List (List Nat)) (k i : Nat) (hk : ∀ l ∈ lists.take k, mn < l.length ∧ l.length ≤ mx) (hi : i < k) :
    (kept mn mx lists).getD i [] = lists.getD i [] := by
  induction lists generalizing k i with
  | nil => rfl
  | cons l lists ih =>
    cases k with
    | zero => omega
    | succ k =>
      have hl := hk l (by simp)
      rw [kept, List.filter_cons_of_pos (by simpa using hl)]
      cases i with
      | zero => rfl
      | succ i => exact ih k i (fun l h => hk l (by simp [h])) (by omega)

theorem le_length_kept {mn mx : Nat} (lists : List (List Nat)) (k : Nat) (hk : ∀ l ∈ lists.take k, mn < l.length ∧ l.length ≤ mx)
    (hlen : k ≤ lists.length) : k ≤ (kept mn mx lists).length := by
  induction lists generalizing k with
  | nil => exact hlen
  | cons l lists ih =>
    cases k with
    | zero => omega
    | succ k =>
      have hl := hk l (by simp)
      rw [kept, List.filter_cons_of_pos (by simpa using hl), List.length_cons]
      exact Nat.succ_le_succ (ih k (fun l h => hk l (by simp [h])) (by simpa using hlen))

theorem answers_kept {mn mx : Nat} {lists : List (List Nat)} {k : Nat} (hk : ∀ l ∈ lists.take k, mn < l.length ∧ l.length ≤ mx)
    {q : List Nat} (hq : ∀ i ∈ q, i < k) {a : Option (List Nat)} : Answers (kept mn mx lists) q a ↔ Answers lists q a := by
  have : (q.map fun i => (kept mn mx lists).getD i []) = q.map fun i => lists.getD i [] :=
    List.map_congr_left fun i hi => kept_getD lists k i hk (hq i hi)
  rw [Answers, Answers, this]

theorem forall_answers_kept {mn mx : Nat} {lists : List (List Nat)} {k : Nat} (hk : ∀ l ∈ lists.take k, mn < l.length ∧ l.length ≤ mx)
    {qs : List (List Nat)} {as : List (Option (List Nat))} (hq : ∀ q ∈ qs, ∀ i ∈ q, i < k)
    (h : List.Forall₂ (Answers (kept mn mx lists)) qs as) : List.Forall₂ (Answers lists) qs as := by
  induction h with
  | nil => exact .nil
  | cons h _ ih =>
    exact .cons ((answers_kept hk (hq _ (List.mem_cons_self ..))).1 h) (ih fun q h => hq q (List.mem_cons_of_mem _ h))

theorem resultRows_ok {sets queries : List (List Nat)} {as : List (Option (List Nat))} (h : List.Forall₂ (Answers sets) queries as) :
    IsResults sets queries (resultRows queries as) := by
  rw [IsResults]
  induction h with
  | nil => exact .nil
  | @cons q a qs as hq h ih =>
    by_cases hl : q.length ≤ 16
    · obtain ⟨R, rfl, hR⟩ := hq.1 hl
      rw [List.filter_cons_of_pos (by simpa using hl), resultRows]
      exact .cons ⟨rfl, R, hR, rfl⟩ ih
    · have := hq.2 (by omega)
      subst this
      rw [List.filter_cons_of_neg (by simpa using hl), resultRows]
      exact ih

theorem settings_rank (opts : List BuildOption) (s : BuildSettings) (hs : s.rank < 2 ^ 32) :
    (opts.foldl BuildOption.apply s).rank < 2 ^ 32 := by
  induction opts generalizing s with
  | nil => exact hs
  | cons o opts ih => exact ih _ (by cases o <;> first | exact hs | simp [BuildOption.apply])

theorem settings_block (fast : Bool) (opts : List BuildOption) (h : ∀ o ∈ opts, o.Ok fast) (s : BuildSettings) (hs : s.block < 2 ^ 32) :
    (opts.foldl BuildOption.apply s).block < 2 ^ 32 := by
  induction opts generalizing s with
  | nil => exact hs
  | cons o opts ih =>
    have ho := h o (by simp)
    refine ih (fun o h' => h o (List.mem_cons_of_mem _ h')) _ ?_
    cases o <;> first | exact hs | exact Nat.lt_trans ho (by decide)

theorem flatMap_words_pos {O : Type} {words : O → List Str} (hw : ∀ o, words o ≠ []) {opts : List O} (h : opts ≠ []) :
    0 < (opts.flatMap words).length := by
  cases opts with
  | nil => exact absurd rfl h
  | cons o opts =>
    have := List.length_pos_iff.2 (hw o)
    rw [List.flatMap_cons, List.length_append]; omega

end CBT
