import Verif.Props.Cost

/-!
# C90: more sets, or smaller ones, never make more of a trie read
-/

namespace CBT

open Spec

theorem meetsAll_mono {sets sets' : List (List Nat)} (h : ∀ S ∈ sets, ∃ S' ∈ sets', S' ⊆ S) {j k : Nat} (hk : meetsAll sets' j k = true) :
    meetsAll sets j k = true := by
  refine meetsAll_iff.2 fun S hS => ?_
  obtain ⟨S', hS', hsub⟩ := h S hS
  obtain ⟨x, hx, hx'⟩ := meetsAll_iff.1 hk S' hS'
  exact ⟨x, hsub hx, hx'⟩

theorem commonBlocks_sublist {sets sets' : List (List Nat)} (h : ∀ S ∈ sets, ∃ S' ∈ sets', S' ⊆ S) (j m : Nat) :
    (commonBlocks sets' j m).Sublist (commonBlocks sets j m) :=
  List.monotone_filter_right _ fun _ hk => meetsAll_mono h hk

theorem commonHalves_mono {sets sets' : List (List Nat)} (h : ∀ S ∈ sets, ∃ S' ∈ sets', S' ⊆ S) {j k : Nat} (hk : commonHalves sets' j k ≠ 0) :
    commonHalves sets j k ≠ 0 := by
  rw [commonHalves] at hk ⊢
  by_cases h1 : meetsAll sets' j (2 * k) = true
  · rw [if_pos (meetsAll_mono h h1)]; omega
  · by_cases h2 : meetsAll sets' j (2 * k + 1) = true
    · rw [if_pos (meetsAll_mono h h2)]; omega
    · rw [if_neg h1, if_neg h2] at hk; exact (hk rfl).elim

theorem forkBlocks_sublist {sets sets' : List (List Nat)} (h : ∀ S ∈ sets, ∃ S' ∈ sets', S' ⊆ S) (j m i : Nat) :
    ((commonBlocks sets' j m).filter fun k => decide (commonHalves sets' i k ≠ 0)).Sublist
      ((commonBlocks sets j m).filter fun k => decide (commonHalves sets i k ≠ 0)) :=
  ((commonBlocks_sublist h j m).filter _).trans
    (List.monotone_filter_right _ fun _ hk => decide_eq_true (commonHalves_mono h (of_decide_eq_true hk)))

theorem sum_levels_le {f g : Nat → Nat} (h : ∀ i, f i ≤ g i) : (l : List Nat) → (l.map f).sum ≤ (l.map g).sum
  | [] => Nat.le_refl _
  | a :: l => by
    have := sum_levels_le h l
    have := h a
    rw [List.map_cons, List.map_cons, List.sum_cons, List.sum_cons]
    omega

theorem commonAbove_mono {sets sets' : List (List Nat)} (h : ∀ S ∈ sets, ∃ S' ∈ sets', S' ⊆ S) (t b : Nat) :
    commonAbove sets' t b ≤ commonAbove sets t b := sum_levels_le (fun _ => (commonBlocks_sublist h _ _).length_le) _

theorem forksAbove_mono {sets sets' : List (List Nat)} (h : ∀ S ∈ sets, ∃ S' ∈ sets', S' ⊆ S) (t b : Nat) :
    forksAbove sets' t b ≤ forksAbove sets t b := sum_levels_le (fun _ => (forkBlocks_sublist h _ _ _).length_le) _

/-- C90, plain tries: let every set of the first call contain a set of the second, because sets were added, elements removed, the order
changed, or all of these. Then the second call reads no more of each trie, whatever the classes of the tries, the modes and the machines. -/
theorem C90_plain {pad pad' h : Nat} {sets sets' : List (List Nat)} {Ts Ts' : List Nav} (hTs : List.Forall₂ (PlainTrie pad h) sets Ts)
    (hTs' : List.Forall₂ (PlainTrie pad' h) sets' Ts') (hsub : ∀ S ∈ sets, ∃ S' ∈ sets', S' ⊆ S) (hne : Ts ≠ []) (hlen : Ts.length ≤ 16)
    (hne' : Ts' ≠ []) (hlen' : Ts'.length ≤ 16) (env env' : Env) (hw : env.hw ≠ 0) (hw' : env'.hw ≠ 0) (parallel parallel' : Bool)
    (hp : parallel = true → 2 ≤ h ∧ env.hw < 2 ^ 16) (hp' : parallel' = true → 2 ≤ h ∧ env'.hw < 2 ^ 16) :
    ∃ R R' n n' m m', costIntersect Ts false parallel env = .ok (R, ⟨Ts.length * n, Ts.length * m, 0⟩) ∧
      costIntersect Ts' false parallel' env' = .ok (R', ⟨Ts'.length * n', Ts'.length * m', 0⟩) ∧ n' ≤ n ∧ m' ≤ m := by
  obtain ⟨R, h1, -⟩ := C58_plain_reads hTs hne hlen env hw parallel hp
  obtain ⟨R', h2, -⟩ := C58_plain_reads hTs' hne' hlen' env' hw' parallel' hp'
  rw [hTs.length_eq] at h1
  rw [hTs'.length_eq] at h2
  exact ⟨R, R', _, _, _, _, h1, h2, commonAbove_mono hsub h 0, forksAbove_mono hsub h 1⟩

/-- A set of one element is added to a set: 4 nodes of each trie are read instead of 12. -/
example : ∃ t, levelCtor [9] 16 = .ok t ∧ List.Forall₂ (PlainTrie 0 4) [Ex.sF, [9]] [Ex.flat.nav 0, t.nav true 0] ∧
    costIntersect [Ex.flat.nav 0] false false ⟨8, [], []⟩ = .ok (Ex.sF, ⟨1 * 12, 1 * 7, 0⟩) ∧
    costIntersect [Ex.flat.nav 0, t.nav true 0] false true ⟨2, [], []⟩ = .ok ([], ⟨2 * 4, 2 * 3, 0⟩) := by
  refine ⟨⟨0, false, false, [[false, true], [true, false], [true, false], [false, true]]⟩, by decide +kernel, .cons ?_ (.cons
    (.level (u := 16) true (by decide +kernel) (by decide +kernel) (by decide) (by decide) (by decide +kernel) rfl) .nil), by decide +kernel,
    by decide +kernel⟩
  exact Ex.flat_plain

/-- C90, plain fast tries: likewise, also for the words read. -/
theorem C90_fast_plain {lg pad pad' h : Nat} (hlg : 3 ≤ lg ∧ lg ≤ 6) {sets sets' : List (List Nat)} {Ts Ts' : List FNav}
    (hTs : List.Forall₂ (FastPlain lg pad h) sets Ts) (hTs' : List.Forall₂ (FastPlain lg pad' h) sets' Ts')
    (hsub : ∀ S ∈ sets, ∃ S' ∈ sets', S' ⊆ S) (hne : Ts ≠ []) (hlen : Ts.length ≤ 16) (hne' : Ts' ≠ []) (hlen' : Ts'.length ≤ 16)
    (env env' : Env) (hw : env.hw ≠ 0) (hw' : env'.hw ≠ 0) (parallel parallel' : Bool) (hp : parallel = true → 2 ≤ h ∧ env.hw < 2 ^ 16)
    (hp' : parallel' = true → 2 ≤ h ∧ env'.hw < 2 ^ 16) :
    ∃ R R' n n' m m' w w', costFastIntersect lg Ts false parallel env = .ok (R, ⟨Ts.length * n, Ts.length * m, Ts.length * w⟩) ∧
      costFastIntersect lg Ts' false parallel' env' = .ok (R', ⟨Ts'.length * n', Ts'.length * m', Ts'.length * w'⟩) ∧
      n' ≤ n ∧ m' ≤ m ∧ w' ≤ w := by
  obtain ⟨R, h1, -⟩ := C58_fast_plain_reads hlg hTs hne hlen env hw parallel hp
  obtain ⟨R', h2, -⟩ := C58_fast_plain_reads hlg hTs' hne' hlen' env' hw' parallel' hp'
  rw [hTs.length_eq] at h1
  rw [hTs'.length_eq] at h2
  exact ⟨R, R', _, _, _, _, _, _, h1, h2, commonAbove_mono hsub _ lg, forksAbove_mono hsub _ lg, (commonBlocks_sublist hsub _ _).length_le⟩

example : List.Forall₂ (FastPlain 3 0 3) [Ex.sV, Ex.sW] [Ex.fast.nav 0, Ex.fast2.nav 0] ∧
    costFastIntersect 3 [Ex.fast.nav 0] false false ⟨8, [], []⟩ = .ok ([4, 17, 31], ⟨1 * 3, 1 * 3, 1 * 3⟩) ∧
    costFastIntersect 3 [Ex.fast.nav 0, Ex.fast2.nav 0] false true ⟨2, [1], [0]⟩ = .ok ([4, 17, 31], ⟨2 * 3, 2 * 3, 2 * 3⟩) :=
  ⟨.cons Ex.fast_plain (.cons Ex.fast2_plain .nil), by decide +kernel⟩

/-! ## Run-encoded tries -/

theorem openCount_perm {cs cs' : List (Bool × List Nat)} (h : cs.Perm cs') (t j k : Nat) : openCount cs t j k = openCount cs' t j k :=
  h.countP_eq _

theorem openCount_add (cs ds : List (Bool × List Nat)) (t j k : Nat) : openCount (cs ++ ds) t j k ≤ openCount cs t j k + ds.length := by
  rw [openCount, List.countP_append]
  exact Nat.add_le_add_left List.countP_le_length _

theorem sum_sublist_le {f : Nat → Nat} {l l' : List Nat} (h : l'.Sublist l) : (l'.map f).sum ≤ (l.map f).sum := by
  induction h with
  | slnil => exact Nat.le_refl _
  | cons a _ ih => rw [List.map_cons, List.sum_cons]; omega
  | cons_cons a _ ih => rw [List.map_cons, List.map_cons, List.sum_cons, List.sum_cons]; omega

theorem sum_add_const (f : Nat → Nat) (d : Nat) : (l : List Nat) → (l.map fun k => f k + d).sum = (l.map f).sum + d * l.length
  | [] => rfl
  | a :: l => by
    rw [List.map_cons, List.map_cons, List.sum_cons, List.sum_cons, sum_add_const f d l, List.length_cons, Nat.mul_succ]
    omega

theorem sets_sub (cs ds : List (Bool × List Nat)) : ∀ S ∈ cs.map Prod.snd, ∃ S' ∈ (cs ++ ds).map Prod.snd, S' ⊆ S :=
  fun S hS => ⟨S, by rw [List.map_append]; exact List.mem_append_left _ hS, fun _ => id⟩

theorem openAt_add (cs ds : List (Bool × List Nat)) (t j : Nat) :
    openAt (cs ++ ds) t j ≤ openAt cs t j + ds.length * commonCount ((cs ++ ds).map Prod.snd) t j := by
  have h1 := sum_levels_le (f := openCount (cs ++ ds) t j) (g := fun k => openCount cs t j k + ds.length) (openCount_add cs ds t j)
    (commonBlocks ((cs ++ ds).map Prod.snd) j (t - j))
  rw [sum_add_const] at h1
  have h2 := sum_sublist_le (f := openCount cs t j) (commonBlocks_sublist (sets_sub cs ds) j (t - j))
  rw [openAt, openAt, commonCount]
  omega

theorem openForkAt_add (cs ds : List (Bool × List Nat)) (t j : Nat) :
    openForkAt (cs ++ ds) t j ≤ openForkAt cs t j + ds.length * forkCount ((cs ++ ds).map Prod.snd) t j := by
  have h1 := sum_levels_le (f := fun k => openCount (cs ++ ds) t (j - 1) (2 * k)) (g := fun k => openCount cs t (j - 1) (2 * k) + ds.length)
    (fun k => openCount_add cs ds t (j - 1) (2 * k)) ((commonBlocks ((cs ++ ds).map Prod.snd) j (t - j)).filter fun k =>
      decide (commonHalves ((cs ++ ds).map Prod.snd) (j - 1) k ≠ 0))
  rw [sum_add_const (fun k => openCount cs t (j - 1) (2 * k))] at h1
  have h2 := sum_sublist_le (f := fun k => openCount cs t (j - 1) (2 * k)) (forkBlocks_sublist (sets_sub cs ds) j (t - j) (j - 1))
  rw [openForkAt, openForkAt, forkCount]
  omega

theorem sum_levels_add {f g c : Nat → Nat} {d : Nat} (h : ∀ i, f i ≤ g i + d * c i) : (l : List Nat) →
    (l.map f).sum ≤ (l.map g).sum + d * (l.map c).sum
  | [] => Nat.le_add_right _ _
  | a :: l => by
    have := sum_levels_add h l
    have := h a
    rw [List.map_cons, List.map_cons, List.map_cons, List.sum_cons, List.sum_cons, List.sum_cons, Nat.mul_add]
    omega

theorem openAbove_add (cs ds : List (Bool × List Nat)) (t b : Nat) :
    openAbove (cs ++ ds) t b ≤ openAbove cs t b + ds.length * commonAbove ((cs ++ ds).map Prod.snd) t b :=
  sum_levels_add (fun i => openAt_add cs ds t (b + 1 + i)) _

theorem openForksAbove_add (cs ds : List (Bool × List Nat)) (t b : Nat) :
    openForksAbove (cs ++ ds) t b ≤ openForksAbove cs t b + ds.length * forksAbove ((cs ++ ds).map Prod.snd) t b :=
  sum_levels_add (fun i => openForkAt_add cs ds t (b + 1 + i)) _

theorem commonBlocks_perm {cs cs' : List (Bool × List Nat)} (h : cs.Perm cs') (j m : Nat) :
    commonBlocks (cs.map Prod.snd) j m = commonBlocks (cs'.map Prod.snd) j m := by
  refine ((commonBlocks_sublist (fun S hS => ⟨S, (h.map _).mem_iff.2 hS, fun _ => id⟩) j m).antisymm
    (commonBlocks_sublist (fun S hS => ⟨S, (h.map _).mem_iff.1 hS, fun _ => id⟩) j m))

theorem openAt_perm {cs cs' : List (Bool × List Nat)} (h : cs.Perm cs') (t j : Nat) : openAt cs t j = openAt cs' t j := by
  rw [openAt, openAt, commonBlocks_perm h, show openCount cs t j = openCount cs' t j from funext fun k => openCount_perm h t j k]

theorem openForkAt_perm {cs cs' : List (Bool × List Nat)} (h : cs.Perm cs') (t j : Nat) : openForkAt cs t j = openForkAt cs' t j := by
  have e := (forkBlocks_sublist (sets := cs'.map Prod.snd) (sets' := cs.map Prod.snd)
      (fun S hS => ⟨S, (h.map _).mem_iff.2 hS, fun _ => id⟩) j (t - j) (j - 1)).antisymm
    (forkBlocks_sublist (fun S hS => ⟨S, (h.map _).mem_iff.1 hS, fun _ => id⟩) j (t - j) (j - 1))
  rw [openForkAt, openForkAt, e, show (fun k => openCount cs t (j - 1) (2 * k)) = fun k => openCount cs' t (j - 1) (2 * k) from
    funext fun k => openCount_perm h t (j - 1) (2 * k)]

theorem openAbove_perm {cs cs' : List (Bool × List Nat)} (h : cs.Perm cs') (t b : Nat) : openAbove cs t b = openAbove cs' t b := by
  rw [openAbove, openAbove, show (fun i => openAt cs t (b + 1 + i)) = fun i => openAt cs' t (b + 1 + i) from funext fun i => openAt_perm h _ _]

theorem openForksAbove_perm {cs cs' : List (Bool × List Nat)} (h : cs.Perm cs') (t b : Nat) : openForksAbove cs t b = openForksAbove cs' t b := by
  rw [openForksAbove, openForksAbove, show (fun i => openForkAt cs t (b + 1 + i)) = fun i => openForkAt cs' t (b + 1 + i) from
    funext fun i => openForkAt_perm h _ _]

/-- C90, sequential run-aware calls: the order of the tries does not matter for what is read, nor which of the classes represents a set. -/
theorem C90_runs_order {pad pad' h : Nat} {cs cs' : List (Bool × List Nat)} {Ts Ts' : List Nav} (hTs : List.Forall₂ (CodedTrie pad h) cs Ts)
    (hTs' : List.Forall₂ (CodedTrie pad' h) cs' Ts') (hperm : cs.Perm cs') (hne : Ts ≠ []) (hlen : Ts.length ≤ 16) (env env' : Env)
    (hw : env.hw ≠ 0) (hw' : env'.hw ≠ 0) : ∃ R κ, costIntersect Ts true false env = .ok (R, κ) ∧ costIntersect Ts' true false env' = .ok (R, κ) := by
  have hl : Ts'.length = Ts.length := by rw [← hTs'.length_eq, ← hperm.length_eq, hTs.length_eq]
  have hne' : Ts' ≠ [] := fun e => hne (List.length_eq_zero_iff.1 (by rw [← hl, e]; rfl))
  obtain ⟨R, h1, i1⟩ := C58_runs_reads hTs hne hlen env hw
  obtain ⟨R', h2, i2⟩ := C58_runs_reads hTs' hne' (by omega) env' hw'
  have e : R = R' := IsIntersection.unique i1 ⟨i2.1, fun x => (i2.2 x).trans
    ⟨fun H S hS => H S ((hperm.map _).mem_iff.1 hS), fun H S hS => H S ((hperm.map _).mem_iff.2 hS)⟩⟩
  rw [← openAbove_perm hperm, ← openForksAbove_perm hperm] at h2
  exact ⟨R, _, h1, e ▸ h2⟩

/-- C90, sequential run-aware calls: adding tries adds at most, for each of them, one node for every block that all sets meet, so nothing
for the tries that were there. In particular it adds at most `h` nodes for each element of any of the sets. -/
theorem C90_runs_added {pad pad' h : Nat} {cs ds : List (Bool × List Nat)} {Ts Ts' : List Nav} (hTs : List.Forall₂ (CodedTrie pad h) cs Ts)
    (hTs' : List.Forall₂ (CodedTrie pad' h) (cs ++ ds) Ts') (hne : Ts ≠ []) (hlen' : Ts'.length ≤ 16) (env env' : Env)
    (hw : env.hw ≠ 0) (hw' : env'.hw ≠ 0) :
    ∃ R R' κ κ', costIntersect Ts true false env = .ok (R, κ) ∧ costIntersect Ts' true false env' = .ok (R', κ') ∧
      κ'.nodes ≤ κ.nodes + ds.length * commonAbove ((cs ++ ds).map Prod.snd) h 0 ∧
      κ'.moves ≤ κ.moves + ds.length * forksAbove ((cs ++ ds).map Prod.snd) h 1 ∧
      ∀ c ∈ cs ++ ds, commonAbove ((cs ++ ds).map Prod.snd) h 0 ≤ h * c.2.length := by
  have l1 := hTs.length_eq
  have l2 := hTs'.length_eq
  rw [List.length_append] at l2
  have hne' : Ts' ≠ [] := fun e => hne (List.length_eq_zero_iff.1 (by rw [e, List.length_nil] at l2; omega))
  obtain ⟨R, h1, -⟩ := C58_runs_reads hTs hne (by omega) env hw
  obtain ⟨R', h2, -⟩ := C58_runs_reads hTs' hne' hlen' env' hw'
  exact ⟨R, R', _, _, h1, h2, openAbove_add cs ds h 0, openForksAbove_add cs ds h 1,
    fun c hc => commonAbove_le (List.mem_map.2 ⟨c, hc, rfl⟩) h 0⟩

/-- C90, fast tries, sequential run-aware calls: likewise. -/
theorem C90_fast_runs_added {lg pad pad' h : Nat} (hlg : 3 ≤ lg ∧ lg ≤ 6) {cs ds : List (Bool × List Nat)} {Ts Ts' : List FNav}
    (hTs : List.Forall₂ (FastCoded lg pad h) cs Ts) (hTs' : List.Forall₂ (FastCoded lg pad' h) (cs ++ ds) Ts') (hne : Ts ≠ [])
    (hlen' : Ts'.length ≤ 16) (env env' : Env) (hw : env.hw ≠ 0) (hw' : env'.hw ≠ 0) :
    ∃ R R' κ κ', costFastIntersect lg Ts true false env = .ok (R, κ) ∧ costFastIntersect lg Ts' true false env' = .ok (R', κ') ∧
      κ'.nodes ≤ κ.nodes + ds.length * commonAbove ((cs ++ ds).map Prod.snd) (h - 1 + lg) lg ∧
      κ'.moves ≤ κ.moves + ds.length * forksAbove ((cs ++ ds).map Prod.snd) (h - 1 + lg) lg ∧
      κ'.words ≤ κ.words + ds.length * commonCount ((cs ++ ds).map Prod.snd) (h - 1 + lg) lg := by
  have l1 := hTs.length_eq
  have l2 := hTs'.length_eq
  rw [List.length_append] at l2
  have hne' : Ts' ≠ [] := fun e => hne (List.length_eq_zero_iff.1 (by rw [e, List.length_nil] at l2; omega))
  obtain ⟨R, h1, -⟩ := C58_fast_runs_reads hlg hTs hne (by omega) env hw
  obtain ⟨R', h2, -⟩ := C58_fast_runs_reads hlg hTs' hne' hlen' env' hw'
  exact ⟨R, R', _, _, h1, h2, openAbove_add cs ds _ lg, openForksAbove_add cs ds _ lg, openAt_add cs ds _ lg⟩

example : List.Forall₂ (FastCoded 3 0 4) ([(true, Ex.sW)] ++ [(false, [3, 17, 31])]) [Ex.fastD.nav 0, Ex.fastE.nav 0] ∧
    openAbove [(true, Ex.sW)] 6 3 = 4 ∧ openAbove ([(true, Ex.sW)] ++ [(false, [3, 17, 31])]) 6 3 = 8 ∧
    commonAbove (([(true, Ex.sW)] ++ [(false, [3, 17, 31])]).map Prod.snd) 6 3 = 4 :=
  ⟨.cons Ex.fastD_coded (.cons (.plain Ex.fastE_plain) .nil), by decide +kernel⟩

/-- C90, fast tries: the order does not matter. -/
theorem C90_fast_runs_order {lg pad pad' h : Nat} (hlg : 3 ≤ lg ∧ lg ≤ 6) {cs cs' : List (Bool × List Nat)} {Ts Ts' : List FNav}
    (hTs : List.Forall₂ (FastCoded lg pad h) cs Ts) (hTs' : List.Forall₂ (FastCoded lg pad' h) cs' Ts') (hperm : cs.Perm cs') (hne : Ts ≠ [])
    (hlen : Ts.length ≤ 16) (env env' : Env) (hw : env.hw ≠ 0) (hw' : env'.hw ≠ 0) :
    ∃ R κ, costFastIntersect lg Ts true false env = .ok (R, κ) ∧ costFastIntersect lg Ts' true false env' = .ok (R, κ) := by
  have hl : Ts'.length = Ts.length := by rw [← hTs'.length_eq, ← hperm.length_eq, hTs.length_eq]
  have hne' : Ts' ≠ [] := fun e => hne (List.length_eq_zero_iff.1 (by rw [← hl, e]; rfl))
  obtain ⟨R, h1, i1⟩ := C58_fast_runs_reads hlg hTs hne hlen env hw
  obtain ⟨R', h2, i2⟩ := C58_fast_runs_reads hlg hTs' hne' (by omega) env' hw'
  have e : R = R' := IsIntersection.unique i1 ⟨i2.1, fun x => (i2.2 x).trans
    ⟨fun H S hS => H S ((hperm.map _).mem_iff.1 hS), fun H S hS => H S ((hperm.map _).mem_iff.2 hS)⟩⟩
  rw [← openAbove_perm hperm, ← openForksAbove_perm hperm, ← openAt_perm hperm] at h2
  exact ⟨R, _, h1, e ▸ h2⟩

/-- A third trie is added to two run-encoded ones: what is read, and what the theorem allows. -/
example : List.Forall₂ (CodedTrie 0 4) ([(true, Ex.sA), (true, Ex.sB)] ++ [(true, Ex.sC)]) [Ex.levelA.nav false 0, Ex.levelB.nav false 0, Ex.levelC.nav false 0] ∧
    openAbove [(true, Ex.sA), (true, Ex.sB)] 4 0 = 16 ∧
    openAbove ([(true, Ex.sA), (true, Ex.sB)] ++ [(true, Ex.sC)]) 4 0 = 19 ∧
    commonAbove (([(true, Ex.sA), (true, Ex.sB)] ++ [(true, Ex.sC)]).map Prod.snd) 4 0 = 9 :=
  ⟨.cons Ex.levelA_coded (.cons Ex.levelB_coded (.cons Ex.levelC_coded .nil)), by decide +kernel⟩

/-- C90 is false of removing elements from run-encoded tries: of the trie of the whole universe one node is read, of that without the last
number more. -/
theorem C90_runs_fewer_elements_negation : ∃ (S S' : List Nat) (T T' : Nav) (env : Env) (R R' : List Nat) (κ κ' : Cost),
    S' ⊆ S ∧ CodedTrie 0 4 (true, S) T ∧ CodedTrie 0 4 (true, S') T' ∧ env.hw ≠ 0 ∧ costIntersect [T] true false env = .ok (R, κ) ∧
    costIntersect [T'] true false env = .ok (R', κ') ∧ κ.nodes < κ'.nodes ∧ κ.moves < κ'.moves :=
  ⟨List.range 16, List.range 15, LevelTrie.nav ⟨1, true, false, [[false, false], [], [], []]⟩ false 0,
    LevelTrie.nav ⟨4, true, false, [[true, true], [false, false, true, true], [false, false, true, true], [true, true, true, false]]⟩ false 0,
    ⟨8, [], []⟩, List.range 16, List.range 15, ⟨1, 0, 0⟩, ⟨7, 3, 0⟩, by decide +kernel,
    .level (u := 16) (t := ⟨0, false, false, [List.replicate 2 true, List.replicate 4 true, List.replicate 8 true, List.replicate 16 true]⟩) false
      (by decide +kernel) (by decide +kernel) (by decide) (by decide) (by decide +kernel) (by decide +kernel) rfl,
    .level (u := 16) (t := ⟨0, false, false, [List.replicate 2 true, List.replicate 4 true, List.replicate 8 true, List.replicate 15 true ++ [false]]⟩)
      false (by decide +kernel) (by decide +kernel) (by decide) (by decide) (by decide +kernel) (by decide +kernel) rfl,
    by decide, by decide +kernel, by decide +kernel, by decide, by decide⟩

end CBT
