import Verif.Proof.ResultsFile
import Verif.Props.CommandLine

/-!
# C102: what a query tool does to files
-/

namespace CBT

open Spec

/-- C102, in every run, also one that fails: no file changes but the one given with `--out`. -/
theorem C102_other_files (F : Formats) (pad : Nat) (env : Nat → Env) (time : Nat → Str) (writable : Str → Bool) (fs : Files)
    (texts : Texts) (argv : List Str) {n : Str} (h : ∀ c, queryArgs false argv = .ok c → c.out ≠ [] → writable c.out = true → n ≠ c.out) :
    (mainQueryLogFiles F pad env time writable fs texts argv).1 n = texts n := by
  rw [mainQueryLogFiles]
  cases hs : queryLogStart F pad fs argv with
  | error e => rfl
  | ok x =>
    cases x with
    | none => rfl
    | some x =>
      obtain ⟨log, c, runs, load⟩ := x
      refine performFiles_other _ _ _ _ _ _ _ (h c ?_)
      rw [queryLogStart] at hs
      by_cases ha : argv.length < 3
      · rw [if_pos ha] at hs; exact nomatch hs
      · rw [if_neg ha] at hs
        obtain ⟨sq, -, hs⟩ := bind_ok hs
        obtain ⟨lg, -, hs⟩ := bind_ok hs
        obtain ⟨c', hc, hs⟩ := bind_ok hs
        rw [hc]
        cases hf : fs sq with
        | none =>
          rw [hf] at hs
          injection hs with hs
          injection hs with hs
          injection hs with _ hs
          injection hs with hs _
          rw [hs]
        | some s =>
          rw [hf] at hs
          obtain ⟨⟨o, s'⟩, -, hs⟩ := bind_ok hs
          injection hs with hs
          injection hs with hs
          injection hs with _ hs
          injection hs with hs _
          rw [hs]

/-- C102: if the results file is not the query log, the answers are those of `Model/CommandLine`, with which all other theorems deal. -/
theorem C102_same_answers (F : Formats) (pad : Nat) (env : Nat → Env) (time : Nat → Str) (writable : Str → Bool) (fs : Files)
    (texts : Texts) (argv : List Str)
    (h : ∀ c, queryArgs false argv = .ok c → c.out ≠ [] → writable c.out = true → argGet argv 2 ≠ .ok c.out) :
    (mainQueryLogFiles F pad env time writable fs texts argv).2 =
      mainQueryLog F pad env fs texts argv >>= fun r => .ok (match r with | .usage => none | .done as _ => some as) := by
  rw [mainQueryLogFiles, mainQueryLog, queryLogStart]
  by_cases ha : argv.length < 3
  · simp only [if_pos ha]; rfl
  simp only [if_neg ha]
  cases h1 : argGet argv 1 with
  | error e => rfl
  | ok sq =>
  cases h2 : argGet argv 2 with
  | error e => rfl
  | ok log =>
  cases h3 : queryArgs false argv with
  | error e => rfl
  | ok c =>
  have key : ∀ runs load, (performFiles load (fun i ts => intersect ts runs c.parallel (env i)) time writable texts log c.out).2 =
      load >>= fun seqs => loadQueryLog stoiU32 (texts log) >>= fun queries =>
        answerLog seqs (fun i ts => intersect ts runs c.parallel (env i)) 0 queries := fun runs load => by
    have ht : (if (decide (c.out ≠ []) && writable c.out) = true then texts.put c.out resultsHeader else texts) log = texts log := by
      by_cases ho : (decide (c.out ≠ []) && writable c.out) = true
      · rw [if_pos ho]
        simp only [Bool.and_eq_true, decide_eq_true_eq] at ho
        exact texts.put_other (fun e => h c h3 ho.1 ho.2 (by rw [h2, e])) _
      · rw [if_neg ho]
    unfold performFiles
    cases load with
    | error e => rfl
    | ok seqs =>
      simp only [ht, R_bind_ok]
      cases loadQueryLog stoiU32 (texts log) with
      | error e => rfl
      | ok queries => exact answerWriting_answers ..
  simp only [R_bind_ok]
  cases hf : fs sq with
  | none =>
    simp only [key, R_bind_ok]
    cases loadQueryLog stoiU32 (texts log) with
    | error e => rfl
    | ok queries =>
      simp only [R_bind_ok]
      cases answerLog [] (fun i ts => intersect ts false c.parallel (env i)) 0 queries <;> rfl
  | some s =>
    cases hr : readTriesFileHeader s with
    | error e => simp only [hr]; rfl
    | ok x =>
      obtain ⟨o, s'⟩ := x
      simp only [hr, R_bind_ok, key]
      cases loadSequences F pad o s' with
      | error e => rfl
      | ok seqs =>
        simp only [R_bind_ok]
        cases loadQueryLog stoiU32 (texts log) with
        | error e => rfl
        | ok queries =>
          simp only [R_bind_ok]
          cases answerLog seqs (fun i ts => intersect ts o.runs c.parallel (env i)) 0 queries <;> rfl

/-- C102, every run that ends normally, on whatever collection and log: the results file has the line of titles and a line for every
query of at most 16 sets, with the number of sets and the number of elements of what `Intersect` returned. -/
theorem C102_lines (F : Formats) (pad : Nat) (env : Nat → Env) {time : Nat → Str} (htime : ∀ i, ',' ∉ time i ∧ '\n' ∉ time i)
    {writable : Str → Bool} {fs : Files} {texts : Texts} {argv : List Str} {as : List (Option (List Nat))} {out : Str}
    {rows : List (Nat × Nat)} (hm : mainQueryLog F pad env fs texts argv = .ok (.done as (some (out, rows)))) (hw : writable out = true)
    (hlog : argGet argv 2 ≠ .ok out) (_hcol : argGet argv 1 ≠ .ok out) :
    ∃ results, (mainQueryLogFiles F pad env time writable fs texts argv).1 out = some results ∧ IsRowsText rows results := by
  rw [mainQueryLog] at hm
  by_cases ha : argv.length < 3
  · rw [if_pos ha] at hm; exact nomatch hm
  rw [if_neg ha] at hm
  cases h1 : argGet argv 1 with
  | error e => rw [h1] at hm; exact nomatch hm
  | ok sq =>
  cases h2 : argGet argv 2 with
  | error e => rw [h1, h2] at hm; exact nomatch hm
  | ok log =>
  cases h3 : queryArgs false argv with
  | error e => rw [h1, h2, h3] at hm; exact nomatch hm
  | ok c =>
  rw [h1, h2, h3] at hm
  simp only [R_bind_ok] at hm
  have key : ∀ runs seqs, queryLogStart F pad fs argv = .ok (some (log, c, runs, .ok seqs)) →
      (loadQueryLog stoiU32 (texts log) >>= fun queries =>
        answerLog seqs (fun i ts => intersect ts runs c.parallel (env i)) 0 queries >>= fun as =>
        .ok (.done as (if c.out = [] then none else some (c.out, resultRows queries as)))) = (.ok (.done as (some (out, rows))) : R QueryRun) →
      ∃ results, (mainQueryLogFiles F pad env time writable fs texts argv).1 out = some results ∧ IsRowsText rows results := by
    intro runs seqs es hm
    obtain ⟨queries, g3, hm⟩ := bind_ok hm
    obtain ⟨as', g4, hm⟩ := bind_ok hm
    injection hm with hm
    obtain ⟨rfl, ho⟩ := QueryRun.done.inj hm
    by_cases he : c.out = []
    · rw [if_pos he] at ho; exact nomatch ho
    rw [if_neg he] at ho
    obtain ⟨rfl, rfl⟩ := Prod.mk.inj (Option.some.inj ho)
    have eo : (decide (c.out ≠ []) && writable c.out) = true := by simp [he, hw]
    have hne : log ≠ c.out := fun e => hlog (by rw [h2, e])
    refine ⟨_, ?_, answerWriting_rows seqs (fun i ts => intersect ts runs c.parallel (env i)) time 0 htime g4⟩
    rw [mainQueryLogFiles, es]
    simp only [performFiles, eo, if_true, texts.put_other hne, g3, texts.put_same]
  cases hf : fs sq with
  | none =>
    simp only [hf] at hm
    refine key false [] ?_ hm
    rw [queryLogStart, if_neg ha, h1, R_bind_ok, h2, R_bind_ok, h3, R_bind_ok, hf]
  | some s =>
    simp only [hf] at hm
    cases g1 : readTriesFileHeader s with
    | error e => simp only [g1] at hm; exact nomatch hm
    | ok x =>
    obtain ⟨fo, s'⟩ := x
    simp only [g1, R_bind_ok] at hm
    cases g2 : loadSequences F pad fo s' with
    | error e => simp only [g2] at hm; exact nomatch hm
    | ok seqs =>
    simp only [g2, R_bind_ok] at hm
    refine key fo.runs seqs ?_ hm
    rw [queryLogStart, if_neg ha, h1, R_bind_ok, h2, R_bind_ok, h3, R_bind_ok, hf]
    simp only [g1, g2, R_bind_ok]

/-- A collection that cannot be opened and an empty log: only the line of titles is written. -/
example : mainQueryLog Ex.formats 0 (fun _ => ⟨4, [], []⟩) (fun _ => none) (fun _ => none) [['p'], ['o'], ['q'], sOut, ['r']] =
    .ok (.done [] (some (['r'], []))) ∧
    (mainQueryLogFiles Ex.formats 0 (fun _ => ⟨4, [], []⟩) (fun _ => "2.5".toList) (fun _ => true) (fun _ => none) (fun _ => none)
      [['p'], ['o'], ['q'], sOut, ['r']]).1 ['r'] = some "elements_per_query,time execution,size_intersection\n".toList := by
  decide +kernel

/-- C102, a session of `build_tries` and `intersection_query_log` as in C53: whatever was in the results file before, afterwards it has the
line of titles and a line for every query of at most 16 sets, and nothing else has changed. The results file must not be the query log or
the collection. -/
theorem C102_results_partial (F : Formats) (pad : Nat) (env : Nat → Env) (hw : ∀ i, (env i).hw ≠ 0 ∧ (env i).hw < 2 ^ 16)
    {opts : List BuildOption} (hopts : ∀ o ∈ opts, o.Ok false) {o : BuildSettings} (ho : o = opts.foldl BuildOption.apply .default)
    (hout : o.out ≠ []) (hs : Supported o.rank o.block o.levelwise)
    {one u : Nat} (hone : one < 2 ^ 32) (hu : 3 ≤ u) (hu' : u < 2 ^ 32) {lists : List (List Nat)}
    (hl : ∀ l ∈ lists, l.length < 2 ^ 30) (hv : ∀ l ∈ kept o.minSize o.maxSize lists, ValidSet l u)
    (hn : (kept o.minSize o.maxSize lists).length < 2 ^ 32)
    (hc : o.runs = true → o.levelwise = false → ∀ l ∈ kept o.minSize o.maxSize lists, ∃ x ∈ l, ∃ y, y / 4 = x / 4 ∧ y ∉ l)
    {fs : Files} {prog input : Str} (hio : o.out ≠ input) (hin : fs input = some (collectionBytes one u lists))
    {qopts : List QueryOption} {prog' log : Str} (hqopts : ∀ q ∈ QueryOption.file o.out :: .file log :: qopts, q.Ok false)
    {c : QuerySettings} (hqc : c = qopts.foldl QueryOption.apply ⟨false, true, []⟩) (hpar : c.parallel = true → o.runs = false)
    {text : Str} {queries : List (List Nat)} (ht : LogText text queries) (hq0 : ∀ q ∈ queries, q ≠ [])
    (hq1 : ∀ q ∈ queries, ∀ i ∈ q, i < (kept o.minSize o.maxSize lists).length ∧ i < 2 ^ 31)
    (time : Nat → Str) (htime : ∀ i, ',' ∉ time i ∧ '\n' ∉ time i) (writable : Str → Bool) (hwr : writable c.out = true)
    (hres : c.out ≠ []) (hlog : c.out ≠ log) (_hcol : c.out ≠ o.out) :
    ∃ f, mainBuildTries F pad true fs (prog :: input :: opts.flatMap (BuildOption.words false)) = .ok (some (o.out, f)) ∧
      ∀ (fs' : Files) (texts : Texts), fs' o.out = some f → texts log = some text →
        ∃ texts' as results,
          mainQueryLogFiles F pad env time writable fs' texts (prog' :: o.out :: log :: qopts.flatMap (QueryOption.words false)) =
            (texts', .ok (some as)) ∧
          List.Forall₂ (Answers (kept o.minSize o.maxSize lists)) queries as ∧
          texts' c.out = some results ∧ IsResultsText (kept o.minSize o.maxSize lists) queries results ∧
          ∀ n, n ≠ c.out → texts' n = texts n := by
  obtain ⟨f, hf, hq⟩ := C53_tries_session_partial F pad env hw hopts ho hout hs hone hu hu' hl hv hn hc hio hin hqopts hqc hpar ht hq0 hq1
    (prog := prog) (prog' := prog')
  refine ⟨f, hf, fun fs' texts hf' ht' => ?_⟩
  obtain ⟨as, rows, hm, hA, -⟩ := hq fs' texts hf' ht'
  have e1 : argGet (prog' :: o.out :: log :: qopts.flatMap (QueryOption.words false)) 1 = .ok o.out := rfl
  have e2 : argGet (prog' :: o.out :: log :: qopts.flatMap (QueryOption.words false)) 2 = .ok log := rfl
  have e3 : queryArgs false (prog' :: o.out :: log :: qopts.flatMap (QueryOption.words false)) = .ok c :=
    (C51_query_options_partial false prog' _ hqopts).trans (by rw [hqc]; rfl)
  have eo : (decide (c.out ≠ []) && writable c.out) = true := by simp [hres, hwr]
  have hoth : ∀ n, n ≠ c.out → (mainQueryLogFiles F pad env time writable fs' texts
      (prog' :: o.out :: log :: qopts.flatMap (QueryOption.words false))).1 n = texts n := fun n hn =>
    C102_other_files F pad env time writable fs' texts _ fun c' hc' _ _ => by
      rw [e3] at hc'
      injection hc' with hc'
      rw [← hc']
      exact hn
  rw [mainQueryLog, if_neg (by simp), e1, R_bind_ok, e2, R_bind_ok, e3, R_bind_ok, hf', ht'] at hm
  cases g1 : readTriesFileHeader f with
  | error e => simp only [g1] at hm; exact nomatch hm
  | ok x =>
  obtain ⟨fo, s⟩ := x
  simp only [g1, R_bind_ok] at hm
  cases g2 : loadSequences F pad fo s with
  | error e => simp only [g2] at hm; exact nomatch hm
  | ok seqs' =>
  simp only [g2, R_bind_ok] at hm
  obtain ⟨queries', g3, hm⟩ := bind_ok hm
  obtain ⟨as', g4, hm⟩ := bind_ok hm
  injection hm with hm
  obtain ⟨rfl, -⟩ := QueryRun.done.inj hm
  have g3' := g3
  rw [C50_tries_log ht, if_pos (fun q hq i hi => (hq1 q hq i hi).2)] at g3'
  injection g3' with g3'
  subst g3'
  obtain ⟨lines, l1, l2⟩ := answerWriting_lines seqs' (fun i ts => intersect ts fo.runs c.parallel (env i)) time 0 htime g4 hA
  refine ⟨_, as', resultsHeader ++ lines.flatMap (fun l => l ++ ['\n']), Prod.ext rfl ?_, hA, ?_, ⟨lines, ?_, l2⟩, hoth⟩
  · rw [C102_same_answers]
    · rw [mainQueryLog, if_neg (by simp), e1, R_bind_ok, e2, R_bind_ok, e3, R_bind_ok, hf', ht']
      simp only [g1, g2, g3, g4, R_bind_ok]
    · intro c' hc' _ _ h
      rw [e3] at hc'
      injection hc' with hc'
      rw [e2, ← hc'] at h
      injection h with h
      exact hlog h.symm
  · have es : queryLogStart F pad fs' (prog' :: o.out :: log :: qopts.flatMap (QueryOption.words false)) =
        .ok (some (log, c, fo.runs, .ok seqs')) := by
      rw [queryLogStart, if_neg (by simp), e1, R_bind_ok, e2, R_bind_ok, e3, R_bind_ok, hf']
      simp only [g1, g2, R_bind_ok]
    rw [mainQueryLogFiles, es]
    simp only [performFiles, eo, if_true, texts.put_other (Ne.symm hlog), ht', g3, texts.put_same, l1]
  · rw [header_line, List.flatMap_cons]

/-- `intersection_query_log o q --out r` on two queries. -/
example :
    (mainBuildTries Ex.formats 0 true (Ex.fileAt ['c'] (collectionBytes 1 64 Ex.coll)) [['b'], ['c'], sMinSize, ['1'], sOut, ['o']] >>=
      fun f => .ok ((mainQueryLogFiles Ex.formats 0 (fun _ => ⟨4, [], []⟩) (fun _ => "2.5".toList) (fun _ => true)
        (Ex.fileAt ['o'] (f.getD ([], [])).2)
        (fun n => if n = ['q'] then some ['1', ' ', '0', '\n', '2', '\n'] else none) [['p'], ['o'], ['q'], sOut, ['r']]).1 ['r'])) =
      .ok (some "elements_per_query,time execution,size_intersection\n2,2.5,3\n1,2.5,17\n".toList) := by
  decide +kernel

/-- C102 is false if the results file is the query log: whatever the log was and whatever tries have been loaded, the tool is ended by an
exception that nobody catches, and nothing is left of the log. -/
theorem C102_log_lost_negation (F : Formats) (pad : Nat) (env : Nat → Env) (time : Nat → Str) (writable : Str → Bool) {fs : Files}
    (texts : Texts) {argv : List Str} (h3 : 3 ≤ argv.length) {sequences log : Str} (h1 : argGet argv 1 = .ok sequences)
    (h2 : argGet argv 2 = .ok log) {c : QuerySettings} (hc : queryArgs false argv = .ok c) (hout : c.out = log) (hl : log ≠ [])
    (hw : writable log = true) {s s' : Bytes} (hs : fs sequences = some s) {o : TriesFileOpts} (ho : readTriesFileHeader s = .ok (o, s'))
    {seqs : List Nav} (hn : loadSequences F pad o s' = .ok seqs) :
    ∃ texts', mainQueryLogFiles F pad env time writable fs texts argv = (texts', .error .exc) ∧
      texts' log = some "elements_per_query,time execution,size_intersection\n".toList ∧ ∀ n, n ≠ log → texts' n = texts n := by
  have es : queryLogStart F pad fs argv = .ok (some (log, c, o.runs, .ok seqs)) := by
    rw [queryLogStart, if_neg (by omega), h1, R_bind_ok, h2, R_bind_ok, hc, R_bind_ok, hs]
    simp only [ho, hn, R_bind_ok]
  have eo : (decide (log ≠ []) && writable log) = true := by simp [hl, hw]
  refine ⟨texts.put log resultsHeader, ?_, texts.put_same _ _, fun n hn => texts.put_other hn _⟩
  rw [mainQueryLogFiles, es]
  simp only [performFiles, hout, eo, if_true, texts.put_same, header_log]
  rfl

/-- `intersection_query_log o q --out q`. -/
example :
    (mainBuildTries Ex.formats 0 true (Ex.fileAt ['c'] (collectionBytes 1 64 Ex.coll)) [['b'], ['c'], sMinSize, ['1'], sOut, ['o']] >>=
      fun f => (mainQueryLogFiles Ex.formats 0 (fun _ => ⟨4, [], []⟩) (fun _ => "2.5".toList) (fun _ => true)
        (Ex.fileAt ['o'] (f.getD ([], [])).2)
        (fun n => if n = ['q'] then some ['1', ' ', '0', '\n', '2', '\n'] else none) [['p'], ['o'], ['q'], sOut, ['q']]).2) =
      .error .exc := by
  decide +kernel

end CBT
