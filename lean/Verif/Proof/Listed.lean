import Verif.Proof.Access

/-!
# Every thread that finds or copies something is in the list of accesses
-/

namespace CBT

theorem access_mapM_mem {A B : Type} {f : A → R B} : {l : List A} → {m : List B} → l.mapM f = .ok m → ∀ a ∈ l, ∃ b ∈ m, f a = .ok b
  | [], _, _, a, ha => nomatch ha
  | x :: l, m, h, a, ha => by
    rw [List.mapM_cons] at h
    obtain ⟨y, hy, h⟩ := bind_ok h
    obtain ⟨ys, hys, h⟩ := bind_ok h
    cases h
    rcases List.mem_cons.1 ha with rfl | ha
    · exact ⟨y, by simp, hy⟩
    · obtain ⟨b, hb, e⟩ := access_mapM_mem hys a ha
      exact ⟨b, by simp [hb], e⟩

/-- Every index of the loop runs in one of the threads. -/
theorem threadAccesses_cover {nb k : Nat} {body : Nat → R (List Access)} {threads : List (List Access)}
    (h : threadAccesses nb k body = .ok threads) {t : Nat} (ht : t < nb) :
    ∃ l, body t = .ok l ∧ ∃ th ∈ threads, ∀ a ∈ l, a ∈ th := by
  rw [threadAccesses] at h
  obtain ⟨chunks, hc, h⟩ := bind_ok h
  have hk : 0 < k := by
    rcases Nat.eq_zero_or_pos k with rfl | hk
    · cases hc
    · exact hk
  obtain ⟨chunks', hc', -, -, hfl⟩ := parallelChunks_ok (n := nb) hk
  have : chunks' = chunks := by rw [hc] at hc'; injection hc' with e; exact e.symm
  subst this
  have hmem : t ∈ (chunks'.map chunkIndices).flatten := by rw [hfl]; exact List.mem_range.2 ht
  obtain ⟨idx, hidx, hti⟩ := List.mem_flatten.1 hmem
  obtain ⟨c, hcm, rfl⟩ := List.mem_map.1 hidx
  obtain ⟨th, hth, e⟩ := access_mapM_mem h c hcm
  obtain ⟨bs, hbs, e⟩ := bind_ok e
  cases e
  obtain ⟨l, hl, e⟩ := access_mapM_mem hbs t hti
  exact ⟨l, e, _, hth, fun a ha => List.mem_flatten.2 ⟨l, hl, ha⟩⟩

theorem threadAccesses_pos {nb k : Nat} {body : Nat → R (List Access)} {threads : List (List Access)}
    (h : threadAccesses nb k body = .ok threads) : 0 < k := by
  rcases Nat.eq_zero_or_pos k with rfl | hk
  · rw [threadAccesses] at h
    obtain ⟨chunks, hc, -⟩ := bind_ok h
    cases hc
  · exact hk

/-- Without runs the calling thread finds nothing itself. -/
theorem partialAND_finds_nothing (Ts : List Nav) (c : Cfg) : (rem level : Nat) → (roots : List (Option Nat)) → (active : List Bool) →
    (part : Nat) → (s s' : PSt) → partialAND Ts c false rem level roots active part s = .ok s' → s'.r = s.r
  | 0, level, roots, active, part, s, s', h => by
    rw [partialAND] at h
    split at h
    · cases h
    · cases h; rfl
  | rem + 1, level, roots, active, part, s, s', h => by
    rw [partialAND] at h
    obtain ⟨⟨tmp, res, n00⟩, _, h⟩ := bind_ok h
    simp only [Bool.not_false, true_and, Bool.false_eq_true, false_and, if_false] at h
    split at h
    · cases h; rfl
    split at h
    · obtain ⟨ln, _, h⟩ := bind_ok h
      exact partialAND_finds_nothing Ts c rem _ _ _ _ _ _ h
    split at h
    · obtain ⟨sh, _, h⟩ := bind_ok h
      obtain ⟨ln, _, h⟩ := bind_ok h
      exact partialAND_finds_nothing Ts c rem _ _ _ _ _ _ h
    split at h
    · obtain ⟨sh, _, h⟩ := bind_ok h
      obtain ⟨ln, _, h⟩ := bind_ok h
      obtain ⟨s1, h1, h⟩ := bind_ok h
      rw [partialAND_finds_nothing Ts c rem _ _ _ _ _ _ h, partialAND_finds_nothing Ts c rem _ _ _ _ _ _ h1]
    · cases h; rfl

theorem fillThreads_finds_nothing (Ts : List Nav) (c : Cfg) (cut nThreads total : Nat) : (todo : List Task) → (i used : Nat) →
    (s : PSt) → (x : List Task × Nat × PSt) → fillThreads Ts c false cut nThreads total todo i used s = .ok x → x.2.2.r = s.r
  | [], i, used, s, x, h => by rw [fillThreads] at h; cases h; rfl
  | t :: todo, i, used, s, x, h => by
    rw [fillThreads] at h
    split at h
    · obtain ⟨s1, h1, h⟩ := bind_ok h
      rw [fillThreads_finds_nothing Ts c cut nThreads total todo _ _ _ _ h, partialAND_finds_nothing Ts c _ _ _ _ _ _ _ h1]
    · cases h; rfl

/-- The position of an element of a concatenation. -/
theorem flatten_position : (vs : List (List Nat)) → (k : Nat) → k < (vs.map List.length).sum →
    ∃ t j, ∃ v, vs[t]? = some v ∧ j < v.length ∧ k = j + ((vs.take t).map List.length).sum
  | [], k, h => by simp at h
  | v :: vs, k, h => by
    by_cases hk : k < v.length
    · exact ⟨0, k, v, rfl, hk, by simp⟩
    · rw [List.map_cons, List.sum_cons] at h
      obtain ⟨t, j, w, hw, hj, e⟩ := flatten_position vs (k - v.length) (by omega)
      refine ⟨t + 1, j, w, by simpa using hw, hj, ?_⟩
      rw [List.take_succ_cons, List.map_cons, List.sum_cons]
      omega

theorem accessBody_listed {Ts : List Nav} {c : Cfg} {height : Nat} {runs : Bool} {env : Env} {R : List Nat}
    {sections : List (List (List Access))} (h : accessBody Ts c height runs true env = .ok (R, sections)) (hw : env.hw ≠ 0)
    (hcut : Nat.log2 env.hw ≤ (height + 2 ^ 64 - 2) % 2 ^ 64) {s : PSt}
    (hs : partialAND Ts c runs (Nat.log2 env.hw) 0 (List.replicate 16 (some 0)) (List.replicate 16 true) 0 ⟨[], []⟩ = .ok s) :
    (s.tasks = [] ∧ R = s.r ∧ sections = []) ∨
    ∃ rest used s', fillThreads Ts c runs (Nat.log2 env.hw) (2 ^ Nat.log2 env.hw) (s.tasks.length % 2 ^ 16)
        (s.tasks.take (s.tasks.length % 2 ^ 16)) 0 (s.tasks.length % 2 ^ 16) { s with tasks := [] } = .ok (rest, used, s') ∧
      ((s'.tasks ++ rest = [] ∧ R = s'.r ∧ sections = []) ∨
       ∃ (outs : List (List Nat)) (one : List (List Access)) (more : List (List (List Access))),
        R = s'.r ++ outs.flatten ∧ outs.length = used ∧ sections = one :: more ∧
        (∀ t v, outs[t]? = some v → v ≠ [] → ∃ th ∈ one, wr (.result t) ∈ th) ∧
        (R.length > 450000 → ∃ two, more = [two] ∧ ∀ k, s'.r.length ≤ k → k < R.length → ∃ th ∈ two, wr (.out k) ∈ th)) := by
  rw [accessBody] at h
  generalize List.replicate 16 (some 0) = ro at *
  generalize Nat.log2 env.hw = cut at *
  simp only [hw, if_false, hcut, and_self, if_true] at h
  obtain ⟨s0, h0, h⟩ := bind_ok h
  rw [hs] at h0
  cases h0
  split at h
  · rename_i ht
    cases h
    exact .inl ⟨List.eq_nil_of_length_eq_zero ht, rfl, rfl⟩
  refine .inr ?_
  obtain ⟨⟨rest, used, s'⟩, hf, h⟩ := bind_ok h
  refine ⟨rest, used, s', hf, ?_⟩
  dsimp only at h
  split at h
  · rename_i ht
    cases h
    exact .inl ⟨List.eq_nil_of_length_eq_zero ht, rfl, rfl⟩
  refine .inr ?_
  generalize hlev : List.replicate s'.tasks.length (cut + 1) ++ List.replicate rest.length cut = levels at h
  generalize hnext : s'.tasks ++ rest = next at h
  obtain ⟨one, h1, h⟩ := bind_ok h
  obtain ⟨results, hr, h⟩ := bind_ok h
  obtain ⟨r, hg, h⟩ := bind_ok h
  have hbody : ∀ t < used, ∃ task level out, vGet next t = .ok task ∧ vGet levels t = .ok level ∧
      (if runs then runsAND Ts c (c.stop - level) level task.roots task.active task.part []
        else AND Ts c (c.stop - level) level task.roots task.part []) = .ok out ∧
      (out ≠ [] → ∃ th ∈ one, wr (.result t) ∈ th) := by
    intro t ht
    obtain ⟨l, hl, th, hth, hsub⟩ := threadAccesses_cover h1 ht
    rw [sectionOne] at hl
    obtain ⟨task, htask, hl⟩ := bind_ok hl
    obtain ⟨level, hlevel, hl⟩ := bind_ok hl
    refine ⟨task, level, ?_⟩
    cases runs with
    | true =>
      simp only [if_true] at hl ⊢
      obtain ⟨⟨x, out⟩, hx, hl⟩ := bind_ok hl
      cases hl
      refine ⟨out, htask, hlevel, ?_, fun hne => ⟨th, hth, hsub _ (List.mem_append_right _ ?_)⟩⟩
      · rw [← runsANDa_snd Ts c t (c.stop - level) level true, hx]; rfl
      · exact runsANDa_writes Ts c t _ _ _ _ _ _ _ _ _ hx hne
    | false =>
      simp only [Bool.false_eq_true, if_false] at hl ⊢
      obtain ⟨⟨x, out⟩, hx, hl⟩ := bind_ok hl
      cases hl
      refine ⟨out, htask, hlevel, ?_, fun hne => ⟨th, hth, hsub _ (List.mem_append_right _ ?_)⟩⟩
      · rw [← ANDa_snd Ts c t (c.stop - level) level true, hx]; rfl
      · exact ANDa_writes Ts c t _ _ _ _ _ _ _ _ hx hne
  have hpos := threadAccesses_pos h1
  obtain ⟨f, hf'⟩ : ∃ f : Nat → List Nat, ∀ t < used, ∃ task level, vGet next t = .ok task ∧ vGet levels t = .ok level ∧
      (if runs then runsAND Ts c (c.stop - level) level task.roots task.active task.part []
        else AND Ts c (c.stop - level) level task.roots task.part []) = .ok (f t) ∧
      (f t ≠ [] → ∃ th ∈ one, wr (.result t) ∈ th) := by
    refine ⟨fun t => if ht : t < used then (hbody t ht).choose_spec.choose_spec.choose else [], fun t ht => ?_⟩
    simp only [ht, dif_pos]
    exact ⟨_, _, (hbody t ht).choose_spec.choose_spec.choose_spec⟩
  have hres : results = (List.range used).map f := by
    have := parallelFor_push (sched := env.sched1) (outs := (List.range used).map f)
      (body := fun t => do
            let task ← vGet next t
            let level ← vGet levels t
            let out ← if runs then runsAND Ts c (c.stop - level) level task.roots task.active task.part []
                      else AND Ts c (c.stop - level) level task.roots task.part []
            pure (out.map fun x => (t, x))) (by simp; omega) (by
        intro t ht
        rw [List.length_map, List.length_range] at ht
        obtain ⟨task, level, e1, e2, e3, -⟩ := hf' t ht
        simp only [e1, e2, R_bind_ok]
        cases runs
        · simp only [Bool.false_eq_true, if_false] at e3 ⊢
          simp [e3, R_bind_ok]
        · simp only [if_true] at e3 ⊢
          simp [e3, R_bind_ok])
    simp only [List.length_map, List.length_range] at this
    have e := this.symm.trans hr
    injection e with e
    exact e.symm
  have hlen : results.length = used := by rw [hres]; simp
  have hne : results ≠ [] := by
    intro e
    rw [e] at hlen
    simp at hlen
    omega
  have hgo := gather_ok env.sched2 s'.r results hne
  rw [hlen, hg] at hgo
  injection hgo with hgo
  have hwr : ∀ t v, results[t]? = some v → v ≠ [] → ∃ th ∈ one, wr (.result t) ∈ th := by
    intro t v hv hvne
    have ht : t < used := by rw [← hlen]; exact (List.getElem?_eq_some_iff.1 hv).1
    have : v = f t := by
      rw [hres] at hv
      simpa [ht, eq_comm] using hv
    subst this
    obtain ⟨_, _, -, -, -, e⟩ := hf' t ht
    exact e hvne
  have hRlen : r.length = s'.r.length + (results.map List.length).sum := by rw [hgo, List.length_append, List.length_flatten]
  split at h
  · obtain ⟨two, h2, h⟩ := bind_ok h
    cases h
    refine ⟨results, one, [two], hgo, hlen, rfl, hwr, fun _ => ⟨two, rfl, fun k hk1 hk2 => ?_⟩⟩
    obtain ⟨t, j, v, hv, hj, e⟩ := flatten_position results (k - s'.r.length) (by omega)
    have ht : t < results.length := (List.getElem?_eq_some_iff.1 hv).1
    obtain ⟨l, hl, th, hth, hsub⟩ := threadAccesses_cover h2 (t := t) (by omega)
    refine ⟨th, hth, hsub _ ?_⟩
    have hvg : vGet results t = .ok v := by rw [vGet, hv]
    have hsg : vGet (shiftsOf results s'.r.length) t = .ok (s'.r.length + ((results.take t).map List.length).sum) := by
      rw [vGet, shiftsOf_get _ _ _ ht]
    rw [sectionTwo, hvg, hsg] at hl
    cases hl
    refine List.mem_flatMap.2 ⟨j, List.mem_range.2 hj, ?_⟩
    have : k = j + (s'.r.length + ((results.take t).map List.length).sum) := by omega
    rw [this]
    simp
  · rename_i hsm
    cases h
    exact ⟨results, one, [], hgo, hlen, rfl, hwr, fun hbig => absurd (by omega) hsm⟩

/-- Without runs: whatever a parallel call returns was pushed by a thread of the list, and a large output was written by the threads of
the list. -/
theorem accessBody_plain_listed {Ts : List Nav} {c : Cfg} {height : Nat} {env : Env} {R : List Nat}
    {sections : List (List (List Access))} (h : accessBody Ts c height false true env = .ok (R, sections))
    (hcut : Nat.log2 env.hw ≤ (height + 2 ^ 64 - 2) % 2 ^ 64) (hR : R ≠ []) :
    ∃ one more, sections = one :: more ∧ (∃ t, ∃ th ∈ one, wr (.result t) ∈ th) ∧
      (R.length > 450000 → ∃ two, more = [two] ∧ ∀ k < R.length, ∃ th ∈ two, wr (.out k) ∈ th) := by
  have hw : env.hw ≠ 0 := by
    intro hw
    rw [accessBody] at h
    simp only [hw, if_true] at h
    cases h
  have ⟨s, hs⟩ : ∃ s, partialAND Ts c false (Nat.log2 env.hw) 0 (List.replicate 16 (some 0)) (List.replicate 16 true) 0 ⟨[], []⟩
      = .ok s := by
    rw [accessBody] at h
    generalize List.replicate 16 (some 0) = ro at *
    simp only [hw, if_false, hcut, and_self, if_true] at h
    obtain ⟨s, hs, -⟩ := bind_ok h
    exact ⟨s, hs⟩
  have hsr := partialAND_finds_nothing Ts c _ _ _ _ _ _ _ hs
  rcases accessBody_listed h hw hcut hs with ⟨-, e, -⟩ | ⟨rest, used, s', hf, h'⟩
  · exact absurd (e.trans hsr) hR
  have hsr' : s'.r = [] := (fillThreads_finds_nothing Ts c _ _ _ _ _ _ _ _ hf).trans hsr
  rcases h' with ⟨-, e, -⟩ | ⟨outs, one, more, e, -, hsec, h1, h2⟩
  · exact absurd (e.trans hsr') hR
  rw [hsr', List.nil_append] at e
  refine ⟨one, more, hsec, ?_, fun hbig => ?_⟩
  · have ⟨v, hv, hvne⟩ : ∃ v ∈ outs, v ≠ [] := by
      by_contra hno
      push Not at hno
      exact hR (e.trans (List.flatten_eq_nil_iff.2 hno))
    obtain ⟨t, ht, rfl⟩ := List.getElem_of_mem hv
    exact ⟨t, h1 t _ (List.getElem?_eq_getElem ht) hvne⟩
  · obtain ⟨two, e2, h2⟩ := h2 hbig
    exact ⟨two, e2, fun k hk => h2 k (by simp [hsr']) hk⟩

end CBT
