import Verif.Proof.WorkPlain
import Verif.Props.AnyRuns

/-!
# C79: the threads of a parallel call, C80: what each of them does

`threads` has one entry for each thread that searches, `writers` is the number of threads that copy the results.
-/

namespace CBT

open Spec

/-- Keeping the counters apart changes nothing: their sums are those of C58, and the result is the same. -/
theorem C79_counters_change_nothing (Ts : List Nav) (runs parallel : Bool) (env : Env) :
    (workIntersect Ts runs parallel env).map (fun x => (x.1, x.2.alone.add (x.2.threads.foldr Cost.add .zero))) =
      costIntersect Ts runs parallel env := workIntersect_map Ts runs parallel env

theorem C79_fast_counters_change_nothing (lg : Nat) (Ts : List FNav) (runs parallel : Bool) (env : Env) :
    (workFastIntersect lg Ts runs parallel env).map (fun x => (x.1, x.2.alone.add (x.2.threads.foldr Cost.add .zero))) =
      costFastIntersect lg Ts runs parallel env := workFastIntersect_map lg Ts runs parallel env

example : workIntersect [Ex.flat.nav 0, Ex.level.nav true 0] false true ⟨4, [1, 0], [0, 1]⟩ =
      .ok ([1, 2, 3, 5, 14], ⟨⟨6, 6, 0⟩, [⟨6, 2, 0⟩, ⟨4, 2, 0⟩, ⟨4, 2, 0⟩], 0⟩) ∧
    workFastIntersect 3 [Ex.fast.nav 0, Ex.fast2.nav 0] false true ⟨2, [1], [0]⟩ =
      .ok ([4, 17, 31], ⟨⟨2, 2, 0⟩, [⟨2, 2, 2⟩, ⟨2, 2, 4⟩], 0⟩) := by
  decide +kernel

theorem work_path {h hw : Nat} (h63 : h < 2 ^ 63) (hcut : Nat.log2 hw + 2 ≤ h) : Nat.log2 hw ≤ (h + 2 ^ 64 - 2) % 2 ^ 64 := by
  rw [show h + 2 ^ 64 - 2 = h - 2 + 2 ^ 64 by omega, Nat.add_mod_right, Nat.mod_eq_of_lt (by omega)]
  omega

theorem work_any {Ts : List Nav} {runs parallel : Bool} {env : Env} (hw2 : env.hw < 2 ^ 16) {L : List Nat} {W : Work}
    (h : workIntersect Ts runs parallel env = .ok (L, W)) :
    ∃ H, (∀ n ∈ Ts, H = n.height) ∧ WorkOk Ts.length 0 H H env.hw parallel L W ∨ L = [] ∧ W = ⟨.zero, [], 0⟩ := by
  cases Ts with
  | nil => cases h
  | cons T Ts =>
    rw [workIntersect] at h
    split at h
    · cases h
      exact ⟨0, .inr ⟨rfl, rfl⟩⟩
    · rename_i hc
      refine ⟨T.height, .inl ⟨?_, workBody_ok (flat_baseLe _) hw2 h⟩⟩
      intro n hn
      by_contra hne
      exact hc (List.any_eq_true.2 ⟨n, hn, by simpa using fun e => hne e.symm⟩)

theorem fast_work_any {lg : Nat} {Ts : List FNav} {runs parallel : Bool} {env : Env} (hw2 : env.hw < 2 ^ 16) {L : List Nat} {W : Work}
    (h : workFastIntersect lg Ts runs parallel env = .ok (L, W)) :
    ∃ H, (∀ n ∈ Ts, H = n.height) ∧ WorkOk Ts.length Ts.length (H - 1) H env.hw parallel L W ∨ L = [] ∧ W = ⟨.zero, [], 0⟩ := by
  cases Ts with
  | nil => cases h
  | cons T Ts =>
    rw [workFastIntersect] at h
    split at h
    · cases h
      exact ⟨0, .inr ⟨rfl, rfl⟩⟩
    · rename_i hc
      split at h
      · cases h
      have := workBody_ok (fast_baseLe lg (T :: Ts) T.height) hw2 h
      rw [List.length_map] at this
      refine ⟨T.height, .inl ⟨?_, this⟩⟩
      intro n hn
      by_contra hne
      exact hc (List.any_eq_true.2 ⟨n, hn, by simpa using fun e => hne e.symm⟩)

theorem WorkOk.threads {n w stop height hw : Nat} {par : Bool} {L : List Nat} {W : Work} (h : WorkOk n w stop height hw par L W) :
    W.threads.length ≤ 2 ^ Nat.log2 hw ∧ (W.writers = if 450000 < L.length then W.threads.length else 0) ∧ (par = false → W.threads = []) :=
  ⟨h.le, h.writers, fun hp => h.seq fun hc => by rw [hp] at hc; cases hc.1⟩

/-- C79. Whatever state the tries are in: a call that returns has searched with at most as many threads as the largest power of two that
is at most the number of hardware threads. It has copied the results with as many threads again, one set after the other, if there are
more than 450000 of them, and with none otherwise. Without `parallel` it has started none. -/
theorem C79_threads_any {Ts : List Nav} {runs parallel : Bool} {env : Env} (hw2 : env.hw < 2 ^ 16) {L : List Nat} {W : Work}
    (h : workIntersect Ts runs parallel env = .ok (L, W)) :
    W.threads.length ≤ 2 ^ Nat.log2 env.hw ∧ (W.writers = if 450000 < L.length then W.threads.length else 0) ∧
      (parallel = false → W.threads = []) := by
  obtain ⟨H, ⟨-, hok⟩ | ⟨rfl, rfl⟩⟩ := work_any hw2 h
  · exact hok.threads
  · exact ⟨Nat.zero_le _, by simp, fun _ => rfl⟩

theorem C79_fast_threads_any {lg : Nat} {Ts : List FNav} {runs parallel : Bool} {env : Env} (hw2 : env.hw < 2 ^ 16) {L : List Nat} {W : Work}
    (h : workFastIntersect lg Ts runs parallel env = .ok (L, W)) :
    W.threads.length ≤ 2 ^ Nat.log2 env.hw ∧ (W.writers = if 450000 < L.length then W.threads.length else 0) ∧
      (parallel = false → W.threads = []) := by
  obtain ⟨H, ⟨-, hok⟩ | ⟨rfl, rfl⟩⟩ := fast_work_any hw2 h
  · exact hok.threads
  · exact ⟨Nat.zero_le _, by simp, fun _ => rfl⟩

/-- Hence never more threads than the hardware has. -/
theorem C79_hardware {Ts : List Nav} {runs parallel : Bool} {env : Env} (hw : env.hw ≠ 0) (hw2 : env.hw < 2 ^ 16) {L : List Nat} {W : Work}
    (h : workIntersect Ts runs parallel env = .ok (L, W)) : W.threads.length ≤ env.hw ∧ W.writers ≤ env.hw := by
  obtain ⟨h1, h2, -⟩ := C79_threads_any hw2 h
  have := Nat.log2_self_le hw
  refine ⟨by omega, ?_⟩
  rw [h2]
  split <;> omega

theorem C79_fast_hardware {lg : Nat} {Ts : List FNav} {runs parallel : Bool} {env : Env} (hw : env.hw ≠ 0) (hw2 : env.hw < 2 ^ 16) {L : List Nat}
    {W : Work} (h : workFastIntersect lg Ts runs parallel env = .ok (L, W)) : W.threads.length ≤ env.hw ∧ W.writers ≤ env.hw := by
  obtain ⟨h1, h2, -⟩ := C79_fast_threads_any hw2 h
  have := Nat.log2_self_le hw
  refine ⟨by omega, ?_⟩
  rw [h2]
  split <;> omega

/-- A trie that no constructor makes, and three hardware threads. -/
example : workIntersect [Ex.levelBare.nav false 0, Ex.levelBare.nav false 0] true true ⟨3, [1, 0, 1], [1]⟩ =
    .ok ([0, 1, 2, 5, 6, 7], ⟨⟨2, 2, 0⟩, [⟨6, 2, 0⟩, ⟨6, 2, 0⟩], 0⟩) := by
  decide +kernel

/-! ## How many threads -/

theorem work_of_ok {Ts : List Nav} {runs parallel : Bool} {env : Env} {R : List Nat} (h : intersect Ts runs parallel env = .ok R) :
    ∃ W, workIntersect Ts runs parallel env = .ok (R, W) := by
  rw [← costIntersect_map, ← workIntersect_map] at h
  cases hw : workIntersect Ts runs parallel env with
  | error e => rw [hw] at h; cases h
  | ok x => rw [hw] at h; cases h; exact ⟨x.2, rfl⟩

theorem fast_work_of_ok {lg : Nat} {Ts : List FNav} {runs parallel : Bool} {env : Env} {R : List Nat}
    (h : fastIntersect lg Ts runs parallel env = .ok R) : ∃ W, workFastIntersect lg Ts runs parallel env = .ok (R, W) := by
  rw [← costFastIntersect_map, ← workFastIntersect_map] at h
  cases hw : workFastIntersect lg Ts runs parallel env with
  | error e => rw [hw] at h; cases h
  | ok x => rw [hw] at h; cases h; exact ⟨x.2, rfl⟩

theorem work_parallel {Ts : List Nav} (hne : Ts ≠ []) {H : Nat} (hh : ∀ n ∈ Ts, n.height = H) (runs : Bool) (env : Env) :
    workIntersect Ts runs true env = workBody Ts (flatCfgC H) H runs true env := by
  cases Ts with
  | nil => exact (hne rfl).elim
  | cons T Ts =>
    have h0 := hh T List.mem_cons_self
    have hall : ¬ (T :: Ts).any (fun T' => T'.height ≠ T.height) = true := by
      simp only [List.any_eq_true, not_exists, not_and]
      intro T' hT'
      rw [hh T' hT', h0]
      simp
    rw [workIntersect, if_neg hall, h0]

theorem fast_work_parallel {lg : Nat} {Ts : List FNav} (hne : Ts ≠ []) {H : Nat} (hH : H ≠ 0) (hh : ∀ n ∈ Ts, n.height = H) (runs : Bool)
    (env : Env) : workFastIntersect lg Ts runs true env = workBody (Ts.map FNav.toNav) (fastCfgC lg Ts H) H runs true env := by
  cases Ts with
  | nil => exact (hne rfl).elim
  | cons T Ts =>
    have h0 := hh T List.mem_cons_self
    have hall : ¬ (T :: Ts).any (fun T' => T'.height ≠ T.height) = true := by
      simp only [List.any_eq_true, not_exists, not_and]
      intro T' hT'
      rw [hh T' hT', h0]
      simp
    rw [workFastIntersect, if_neg hall, h0, if_neg hH]

/-- C79, plain tries: exactly how many threads search. -/
theorem C79_plain_exact {pad h : Nat} {sets : List (List Nat)} {Ts : List Nav} (hTs : List.Forall₂ (PlainTrie pad h) sets Ts) (hne : Ts ≠ [])
    (hlen : Ts.length ≤ 16) (env : Env) (hw : env.hw ≠ 0) (hw2 : env.hw < 2 ^ 16) (hcut : Nat.log2 env.hw + 2 ≤ h) :
    ∃ R W, workIntersect Ts false true env = .ok (R, W) ∧ IsIntersection sets R ∧
      W.threads.length = threadsUsed sets (Nat.log2 env.hw) (h - Nat.log2 env.hw - 1) := by
  obtain ⟨R, hR, hI⟩ := intersect_par_plain (hTs.imp fun _ _ h => h.holds) (by omega) hne hlen hw hw2
  obtain ⟨W, hW⟩ := work_of_ok hR
  refine ⟨R, W, hW, hI, ?_⟩
  obtain ⟨d, hd⟩ : ∃ d, h - 1 = d + 1 + Nat.log2 env.hw := ⟨h - 2 - Nat.log2 env.hw, by omega⟩
  obtain ⟨e, rfl⟩ : ∃ e, h = e + 1 := ⟨h - 1, by omega⟩
  rw [Nat.add_sub_cancel] at hd
  subst hd
  have hH : List.Forall₂ (HoldsP (d + 1 + Nat.log2 env.hw)) sets Ts := hTs.imp fun _ _ H => H.holds
  obtain ⟨ts, h1, h2, h3⟩ := HoldsP.trees hH
  have hd : d + 1 + Nat.log2 env.hw ≤ 62 := by
    cases hH with
    | nil => exact (hne rfl).elim
    | cons h _ => exact h.depth
  have hb := forall2_imp_left hH fun _ _ h => h.below
  obtain ⟨e1, e2⟩ := sub_sets h2 h3 hb
  have hh := forall2_imp_right hH fun _ _ h => h.height
  rw [work_parallel hne hh] at hW
  have := workBody_plain id leafF (runs := false) (b := 1) (c := flatCfgC (d + 1 + Nat.log2 env.hw + 1)) (height := d + 1 + Nat.log2 env.hw + 1)
    hne h1 hlen h2 (by rfl) (show d + 1 + Nat.log2 env.hw + 1 < 64 by omega) hw hw2 (by omega) (by rw [List.map_id]; exact hW)
  rw [this, e1, e2, threadsUsed, show d + 1 + Nat.log2 env.hw + 1 - Nat.log2 env.hw - 1 = d + 1 by omega]

theorem C79_fast_plain_exact {lg pad h : Nat} (hlg : 3 ≤ lg ∧ lg ≤ 6) {sets : List (List Nat)} {Ts : List FNav}
    (hTs : List.Forall₂ (FastPlain lg pad h) sets Ts) (hne : Ts ≠ []) (hlen : Ts.length ≤ 16)
    (env : Env) (hw : env.hw ≠ 0) (hw2 : env.hw < 2 ^ 16) (hcut : Nat.log2 env.hw + 2 ≤ h) :
    ∃ R W, workFastIntersect lg Ts false true env = .ok (R, W) ∧ IsIntersection sets R ∧
      W.threads.length = threadsUsed sets (Nat.log2 env.hw) (h - 2 - Nat.log2 env.hw + lg) := by
  obtain ⟨R, hR, hI⟩ := fastIntersect_par_plain ⟨by omega, hlg.2⟩ (hTs.imp fun _ _ h => h.holds hlg) (by omega) hne hlen hw hw2
  obtain ⟨W, hW⟩ := fast_work_of_ok hR
  refine ⟨R, W, hW, hI, ?_⟩
  obtain ⟨d, hd⟩ : ∃ d, h - 1 = d + 1 + Nat.log2 env.hw := ⟨h - 2 - Nat.log2 env.hw, by omega⟩
  obtain ⟨e, rfl⟩ : ∃ e, h = e + 1 := ⟨h - 1, by omega⟩
  rw [Nat.add_sub_cancel] at hd
  subst hd
  have hH : List.Forall₂ (FHoldsP lg (d + 1 + Nat.log2 env.hw)) sets Ts := hTs.imp fun _ _ H => H.holds hlg
  obtain ⟨ts, h1, h2, h3⟩ := FHoldsP.trees hH
  have hd : d + 1 + Nat.log2 env.hw + lg ≤ 62 := by
    cases hH with
    | nil => exact (hne rfl).elim
    | cons h _ => exact h.depth
  have hb := forall2_imp_left hH fun _ _ h => h.below
  obtain ⟨e1, e2⟩ := sub_sets h2 h3 hb
  have hh := forall2_imp_right hH fun _ _ h => h.height
  rw [fast_work_parallel hne (Nat.succ_ne_zero _) hh] at hW
  have := workBody_plain FNav.toNav (leafW lg) (runs := false) (b := lg) (c := fastCfgC lg Ts (d + 1 + Nat.log2 env.hw + 1))
    (height := d + 1 + Nat.log2 env.hw + 1) hne h1 hlen h2 (by simp only [fastCfgC, fastCfg]; omega)
    (by simp only [fastCfgC, fastCfg]; omega) hw hw2 (by omega) hW
  rw [Nat.add_right_comm d 1 lg] at e1 e2
  rw [this, e1, e2, threadsUsed, show d + 1 + Nat.log2 env.hw + 1 - 2 - Nat.log2 env.hw + lg = d + lg by omega]

/-- C79, run-aware calls on plain and run-encoded tries. -/
theorem C79_runs_exact {pad h : Nat} {cs : List (Bool × List Nat)} {Ts : List Nav} (hTs : List.Forall₂ (CodedTrie pad h) cs Ts)
    (hne : Ts ≠ []) (hlen : Ts.length ≤ 16) (env : Env) (hw : env.hw ≠ 0) (hw2 : env.hw < 2 ^ 16) (hcut : Nat.log2 env.hw + 2 ≤ h) :
    ∃ R W, workIntersect Ts true true env = .ok (R, W) ∧
      W.threads.length = threadBlocks cs (h - Nat.log2 env.hw) (Nat.log2 env.hw) := by
  obtain ⟨W, hW⟩ := work_of_ok (C12_parallel_runs_result_partial hTs hne hlen env hw hw2 hcut)
  refine ⟨_, W, hW, ?_⟩
  obtain ⟨d, hd⟩ : ∃ d, h - 1 = d + 1 + Nat.log2 env.hw := ⟨h - 2 - Nat.log2 env.hw, by omega⟩
  obtain ⟨e, rfl⟩ : ∃ e, h = e + 1 := ⟨h - 1, by omega⟩
  rw [Nat.add_sub_cancel] at hd
  subst hd
  have hcs : cs ≠ [] := by rintro rfl; cases hTs; exact hne rfl
  obtain ⟨ts, h1, h2⟩ := forall2_trees (Q := fun n t => Rep n (leafF n) (d + 1 + Nat.log2 env.hw) 0 t 0)
    (Q' := CTree 1 (d + 1 + Nat.log2 env.hw)) hTs fun _ _ H => H.tree
  have hd : d + 1 + Nat.log2 env.hw ≤ 62 := by
    cases hTs with
    | nil => exact (hne rfl).elim
    | cons h _ => exact h.runs.holds.depth
  have hh := forall2_imp_right hTs fun _ _ h => h.runs.holds.height
  rw [Nat.add_sub_cancel] at hh
  rw [work_parallel hne hh] at hW
  have := workBody_coded id leafF (b := 1) (c := flatCfgC (d + 1 + Nat.log2 env.hw + 1)) (height := d + 1 + Nat.log2 env.hw + 1)
    hne h1 hlen (by rfl) (show d + 1 + Nat.log2 env.hw + 1 < 64 by omega) hw hw2 (by omega) (by rw [List.map_id]; exact hW)
  rw [this, taskCount_eq (agree_of h2 hcs), show d + 1 + Nat.log2 env.hw + 1 - Nat.log2 env.hw = d + 1 + 1 by omega]

theorem C79_fast_runs_exact {lg pad h : Nat} (hlg : 3 ≤ lg ∧ lg ≤ 6) {cs : List (Bool × List Nat)} {Ts : List FNav}
    (hTs : List.Forall₂ (FastCoded lg pad h) cs Ts) (hne : Ts ≠ []) (hlen : Ts.length ≤ 16)
    (env : Env) (hw : env.hw ≠ 0) (hw2 : env.hw < 2 ^ 16) (hcut : Nat.log2 env.hw + 2 ≤ h) :
    ∃ R W, workFastIntersect lg Ts true true env = .ok (R, W) ∧
      W.threads.length = threadBlocks cs (h - 1 - Nat.log2 env.hw + lg) (Nat.log2 env.hw) := by
  obtain ⟨W, hW⟩ := fast_work_of_ok (C13_fast_parallel_runs_result_partial hlg hTs hne hlen env hw hw2 hcut)
  refine ⟨_, W, hW, ?_⟩
  obtain ⟨d, hd⟩ : ∃ d, h - 1 = d + 1 + Nat.log2 env.hw := ⟨h - 2 - Nat.log2 env.hw, by omega⟩
  obtain ⟨e, rfl⟩ : ∃ e, h = e + 1 := ⟨h - 1, by omega⟩
  rw [Nat.add_sub_cancel] at hd
  subst hd
  have hcs : cs ≠ [] := by rintro rfl; cases hTs; exact hne rfl
  obtain ⟨ts, h1, h2⟩ := forall2_trees (Q := fun n t => Rep n.toNav (leafW lg n) (d + 1 + Nat.log2 env.hw) 0 t 0)
    (Q' := CTree lg (d + 1 + Nat.log2 env.hw)) hTs fun _ _ H => H.tree hlg
  have hd : d + 1 + Nat.log2 env.hw + lg ≤ 62 := by
    cases hTs with
    | nil => exact (hne rfl).elim
    | cons h _ => exact (h.toRuns.holds hlg).depth
  have hh := forall2_imp_right hTs fun _ _ h => (h.toRuns.holds hlg).height
  rw [Nat.add_sub_cancel] at hh
  rw [fast_work_parallel hne (Nat.succ_ne_zero _) hh] at hW
  have := workBody_coded FNav.toNav (leafW lg) (b := lg) (c := fastCfgC lg Ts (d + 1 + Nat.log2 env.hw + 1))
    (height := d + 1 + Nat.log2 env.hw + 1) hne h1 hlen (by simp only [fastCfgC, fastCfg]; omega) (by simp only [fastCfgC, fastCfg]; omega)
    hw hw2 (by omega) hW
  rw [this, taskCount_eq (agree_of h2 hcs), show d + 1 + Nat.log2 env.hw + 1 - 1 - Nat.log2 env.hw + lg = d + 1 + lg by omega]

/-- C79, plain tries: at most one of the `2^⌊log2 hw⌋` threads is not used, unless each thread has a block of its own on the level below
the cut already: then there are as many threads as there are blocks of `2^(h-⌊log2 hw⌋-1)` that every set meets. -/
theorem C79_busy {pad h : Nat} {sets : List (List Nat)} {Ts : List Nav} (hTs : List.Forall₂ (PlainTrie pad h) sets Ts) (hne : Ts ≠ [])
    (hlen : Ts.length ≤ 16) (env : Env) (hw : env.hw ≠ 0) (hw2 : env.hw < 2 ^ 16) (hcut : Nat.log2 env.hw + 2 ≤ h) :
    ∃ R W, workIntersect Ts false true env = .ok (R, W) ∧ IsIntersection sets R ∧ (2 ^ Nat.log2 env.hw ≤ W.threads.length + 1 ∨
      W.threads.length = (commonBlocks sets (h - Nat.log2 env.hw - 1) (Nat.log2 env.hw + 1)).length) := by
  obtain ⟨R, W, h1, h2, h3⟩ := C79_plain_exact hTs hne hlen env hw hw2 hcut
  refine ⟨R, W, h1, h2, ?_⟩
  rw [h3, threadsUsed]
  rcases threadCount_busy (2 ^ Nat.log2 env.hw) (commonBlocks sets (h - Nat.log2 env.hw - 1 + 1) (Nat.log2 env.hw)).length
    ((commonBlocks sets (h - Nat.log2 env.hw - 1 + 1) (Nat.log2 env.hw)).map (commonHalves sets (h - Nat.log2 env.hw - 1)))
    (by rw [List.length_map]) with g | g
  · exact .inl g
  · right
    rw [commonHalves_sum, List.length_map] at g
    omega

theorem C79_fast_busy {lg pad h : Nat} (hlg : 3 ≤ lg ∧ lg ≤ 6) {sets : List (List Nat)} {Ts : List FNav}
    (hTs : List.Forall₂ (FastPlain lg pad h) sets Ts) (hne : Ts ≠ []) (hlen : Ts.length ≤ 16)
    (env : Env) (hw : env.hw ≠ 0) (hw2 : env.hw < 2 ^ 16) (hcut : Nat.log2 env.hw + 2 ≤ h) :
    ∃ R W, workFastIntersect lg Ts false true env = .ok (R, W) ∧ IsIntersection sets R ∧ (2 ^ Nat.log2 env.hw ≤ W.threads.length + 1 ∨
      W.threads.length = (commonBlocks sets (h - 2 - Nat.log2 env.hw + lg) (Nat.log2 env.hw + 1)).length) := by
  obtain ⟨R, W, h1, h2, h3⟩ := C79_fast_plain_exact hlg hTs hne hlen env hw hw2 hcut
  refine ⟨R, W, h1, h2, ?_⟩
  rw [h3, threadsUsed]
  rcases threadCount_busy (2 ^ Nat.log2 env.hw) (commonBlocks sets (h - 2 - Nat.log2 env.hw + lg + 1) (Nat.log2 env.hw)).length
    ((commonBlocks sets (h - 2 - Nat.log2 env.hw + lg + 1) (Nat.log2 env.hw)).map (commonHalves sets (h - 2 - Nat.log2 env.hw + lg)))
    (by rw [List.length_map]) with g | g
  · exact .inl g
  · right
    rw [commonHalves_sum, List.length_map] at g
    omega

/-- C79, run-aware calls: likewise, with the blocks that are not inside a run of any set. -/
theorem C79_runs_busy {pad h : Nat} {cs : List (Bool × List Nat)} {Ts : List Nav} (hTs : List.Forall₂ (CodedTrie pad h) cs Ts)
    (hne : Ts ≠ []) (hlen : Ts.length ≤ 16) (env : Env) (hw : env.hw ≠ 0) (hw2 : env.hw < 2 ^ 16) (hcut : Nat.log2 env.hw + 2 ≤ h) :
    ∃ R W, workIntersect Ts true true env = .ok (R, W) ∧ (2 ^ Nat.log2 env.hw ≤ W.threads.length + 1 ∨
      W.threads.length = (taskBlocks cs (h - Nat.log2 env.hw - 1) (Nat.log2 env.hw + 1)).length) := by
  obtain ⟨R, W, h1, h3⟩ := C79_runs_exact hTs hne hlen env hw hw2 hcut
  refine ⟨R, W, h1, ?_⟩
  obtain ⟨j, hj⟩ : ∃ j, h - Nat.log2 env.hw = j + 1 := ⟨h - Nat.log2 env.hw - 1, by omega⟩
  rw [h3, threadBlocks, hj, Nat.add_sub_cancel]
  rcases threadCount_busy (2 ^ Nat.log2 env.hw) (taskBlocks cs (j + 1) (Nat.log2 env.hw)).length
    ((taskBlocks cs (j + 1) (Nat.log2 env.hw)).map (halvesReached cs (j + 1 + Nat.log2 env.hw) j)) (by rw [List.length_map]) with g | g
  · exact .inl g
  · right
    rw [halvesReached_sum, List.length_map] at g
    omega

theorem C79_fast_runs_busy {lg pad h : Nat} (hlg : 3 ≤ lg ∧ lg ≤ 6) {cs : List (Bool × List Nat)} {Ts : List FNav}
    (hTs : List.Forall₂ (FastCoded lg pad h) cs Ts) (hne : Ts ≠ []) (hlen : Ts.length ≤ 16)
    (env : Env) (hw : env.hw ≠ 0) (hw2 : env.hw < 2 ^ 16) (hcut : Nat.log2 env.hw + 2 ≤ h) :
    ∃ R W, workFastIntersect lg Ts true true env = .ok (R, W) ∧ (2 ^ Nat.log2 env.hw ≤ W.threads.length + 1 ∨
      W.threads.length = (taskBlocks cs (h - 2 - Nat.log2 env.hw + lg) (Nat.log2 env.hw + 1)).length) := by
  obtain ⟨R, W, h1, h3⟩ := C79_fast_runs_exact hlg hTs hne hlen env hw hw2 hcut
  refine ⟨R, W, h1, ?_⟩
  obtain ⟨j, hj, hj'⟩ : ∃ j, h - 1 - Nat.log2 env.hw + lg = j + 1 ∧ h - 2 - Nat.log2 env.hw + lg = j :=
    ⟨h - 2 - Nat.log2 env.hw + lg, by omega, rfl⟩
  rw [h3, threadBlocks, hj, hj', Nat.add_sub_cancel]
  rcases threadCount_busy (2 ^ Nat.log2 env.hw) (taskBlocks cs (j + 1) (Nat.log2 env.hw)).length
    ((taskBlocks cs (j + 1) (Nat.log2 env.hw)).map (halvesReached cs (j + 1 + Nat.log2 env.hw) j)) (by rw [List.length_map]) with g | g
  · exact .inl g
  · right
    rw [halvesReached_sum, List.length_map] at g
    omega

/-- Both cases occur: of four threads three, and one. -/
example : List.Forall₂ (PlainTrie 0 4) [Ex.sF, Ex.sL] [Ex.flat.nav 0, Ex.level.nav true 0] ∧ threadsUsed [Ex.sF, Ex.sL] 2 1 = 3 ∧
    threadsUsed [[8], [8, 9]] 2 1 = 1 ∧ (commonBlocks [[8], [8, 9]] 1 3).length = 1 ∧
    List.Forall₂ (CodedTrie 0 4) [(true, Ex.sA), (true, Ex.sB)] [Ex.levelA.nav false 0, Ex.levelB.nav false 0] ∧
    threadBlocks [(true, Ex.sA), (true, Ex.sB)] 2 2 = 1 ∧ (taskBlocks [(true, Ex.sA), (true, Ex.sB)] 1 3).length = 1 :=
  ⟨.cons Ex.flat_plain (.cons Ex.level_plain .nil), by decide +kernel, by decide +kernel, by decide +kernel,
    .cons Ex.levelA_coded (.cons Ex.levelB_coded .nil), by decide +kernel, by decide +kernel⟩

/-! ## C80 -/

/-- C80. Whatever state the tries are in, and whatever the flag `runs`: of `n` tries of height `h`, a parallel call reads at most
`n (2^(⌊log2 hw⌋+1) - 1)` nodes before the threads start, and then each thread reads at most `n (2^(h-⌊log2 hw⌋) - 1)`. The same holds of
moves to children. -/
theorem C80_span_any {Ts : List Nav} {h : Nat} (hh : ∀ n ∈ Ts, n.height = h) (h63 : h < 2 ^ 63) {runs : Bool} {env : Env}
    (hw2 : env.hw < 2 ^ 16) (hcut : Nat.log2 env.hw + 2 ≤ h) {L : List Nat} {W : Work} (hW : workIntersect Ts runs true env = .ok (L, W)) :
    W.alone.nodes ≤ Ts.length * (2 ^ (Nat.log2 env.hw + 1) - 1) ∧ W.alone.moves ≤ Ts.length * (2 ^ (Nat.log2 env.hw + 1) - 1) ∧
    ∀ k ∈ W.threads, k.nodes ≤ Ts.length * (2 ^ (h - Nat.log2 env.hw) - 1) ∧ k.moves ≤ Ts.length * (2 ^ (h - Nat.log2 env.hw) - 1) := by
  have hne : Ts ≠ [] := by rintro rfl; cases hW
  obtain ⟨H, ⟨hH, hok⟩ | ⟨rfl, rfl⟩⟩ := work_any hw2 hW
  · obtain ⟨T, Ts', rfl⟩ := List.exists_cons_of_ne_nil hne
    obtain rfl : H = h := by rw [hH T (by simp), hh T (by simp)]
    have ha := hok.alone ⟨rfl, work_path h63 hcut⟩
    exact ⟨ha.1, ha.2.1, fun k hk => ⟨(hok.thread k hk).1, (hok.thread k hk).2.1⟩⟩
  · exact ⟨Nat.zero_le _, Nat.zero_le _, by simp⟩

/-- C80, fast tries: a thread reads at most `n 2^(h-1-⌊log2 hw⌋)` words. -/
theorem C80_fast_span_any {lg : Nat} {Ts : List FNav} {h : Nat} (hh : ∀ n ∈ Ts, n.height = h) (h63 : h < 2 ^ 63) {runs : Bool} {env : Env}
    (hw2 : env.hw < 2 ^ 16) (hcut : Nat.log2 env.hw + 2 ≤ h) {L : List Nat} {W : Work} (hW : workFastIntersect lg Ts runs true env = .ok (L, W)) :
    W.alone.nodes ≤ Ts.length * (2 ^ (Nat.log2 env.hw + 1) - 1) ∧ W.alone.moves ≤ Ts.length * (2 ^ (Nat.log2 env.hw + 1) - 1) ∧
    W.alone.words = 0 ∧
    ∀ k ∈ W.threads, k.nodes ≤ Ts.length * (2 ^ (h - 1 - Nat.log2 env.hw) - 1) ∧ k.moves ≤ Ts.length * (2 ^ (h - 1 - Nat.log2 env.hw) - 1) ∧
      k.words ≤ Ts.length * 2 ^ (h - 1 - Nat.log2 env.hw) := by
  have hne : Ts ≠ [] := by rintro rfl; cases hW
  obtain ⟨H, ⟨hH, hok⟩ | ⟨rfl, rfl⟩⟩ := fast_work_any hw2 hW
  · obtain ⟨T, Ts', rfl⟩ := List.exists_cons_of_ne_nil hne
    obtain rfl : H = h := by rw [hH T (by simp), hh T (by simp)]
    have ha := hok.alone ⟨rfl, work_path h63 hcut⟩
    exact ⟨ha.1, ha.2.1, Nat.le_zero.1 ha.2.2, fun k hk => hok.thread k hk⟩
  · exact ⟨Nat.zero_le _, Nat.zero_le _, rfl, by simp⟩

/-- C80, in terms of the number of hardware threads: at most `2 hw` nodes of each trie before the threads start, and each thread reads at
most the part `2 / hw` of the `2^h` nodes that a trie of height `h` can have. -/
theorem C80_share {Ts : List Nav} {h : Nat} (hh : ∀ n ∈ Ts, n.height = h) (h63 : h < 2 ^ 63) {runs : Bool} {env : Env} (hw : env.hw ≠ 0)
    (hw2 : env.hw < 2 ^ 16) (hcut : Nat.log2 env.hw + 2 ≤ h) {L : List Nat} {W : Work} (hW : workIntersect Ts runs true env = .ok (L, W)) :
    W.alone.nodes ≤ Ts.length * (2 * env.hw) ∧ ∀ k ∈ W.threads, k.nodes * env.hw ≤ Ts.length * (2 * 2 ^ h) := by
  obtain ⟨h1, -, h3⟩ := C80_span_any hh h63 hw2 hcut hW
  have hl := Nat.log2_self_le hw
  have hg : env.hw < 2 ^ (Nat.log2 env.hw + 1) := Nat.lt_log2_self
  refine ⟨Nat.le_trans h1 (Nat.mul_le_mul_left _ ?_), fun k hk => ?_⟩
  · rw [Nat.pow_succ]; omega
  · refine Nat.le_trans (Nat.mul_le_mul ((h3 k hk).1.trans (Nat.mul_le_mul_left _ (Nat.sub_le _ _))) (Nat.le_of_lt hg)) (Nat.le_of_eq ?_)
    rw [Nat.mul_assoc, ← Nat.pow_add, ← Nat.pow_succ', show h - Nat.log2 env.hw + (Nat.log2 env.hw + 1) = h + 1 by omega]

theorem C80_fast_share {lg : Nat} {Ts : List FNav} {h : Nat} (hh : ∀ n ∈ Ts, n.height = h) (h63 : h < 2 ^ 63) {runs : Bool} {env : Env}
    (hw : env.hw ≠ 0) (hw2 : env.hw < 2 ^ 16) (hcut : Nat.log2 env.hw + 2 ≤ h) {L : List Nat} {W : Work}
    (hW : workFastIntersect lg Ts runs true env = .ok (L, W)) :
    W.alone.nodes ≤ Ts.length * (2 * env.hw) ∧
      ∀ k ∈ W.threads, k.nodes * env.hw ≤ Ts.length * 2 ^ h ∧ k.words * env.hw ≤ Ts.length * 2 ^ h := by
  obtain ⟨h1, -, -, h3⟩ := C80_fast_span_any hh h63 hw2 hcut hW
  have hl := Nat.log2_self_le hw
  have hg : env.hw < 2 ^ (Nat.log2 env.hw + 1) := Nat.lt_log2_self
  have e : Ts.length * 2 ^ (h - 1 - Nat.log2 env.hw) * 2 ^ (Nat.log2 env.hw + 1) = Ts.length * 2 ^ h := by
    rw [Nat.mul_assoc, ← Nat.pow_add, show h - 1 - Nat.log2 env.hw + (Nat.log2 env.hw + 1) = h by omega]
  refine ⟨Nat.le_trans h1 (Nat.mul_le_mul_left _ ?_), fun k hk => ⟨?_, ?_⟩⟩
  · rw [Nat.pow_succ]; omega
  · exact Nat.le_trans (Nat.mul_le_mul ((h3 k hk).1.trans (Nat.mul_le_mul_left _ (Nat.sub_le _ _))) (Nat.le_of_lt hg)) (Nat.le_of_eq e)
  · exact Nat.le_trans (Nat.mul_le_mul (h3 k hk).2.2 (Nat.le_of_lt hg)) (Nat.le_of_eq e)

/-- The bound on nodes is met: two full sets below 16, four threads and `2 (2^2 - 1)` nodes each. The bound for the calling thread is not,
as it moves on to a second round only for as long as there are threads left. -/
example : ∃ t, levelCtor (List.range 16) 16 = .ok t ∧ t.height = 4 ∧
    workIntersect [t.nav true 0, t.nav true 0] false true ⟨4, [], []⟩ =
      .ok (List.range 16, ⟨⟨6, 6, 0⟩, List.replicate 4 ⟨6, 2, 0⟩, 0⟩) :=
  ⟨(match levelCtor (List.range 16) 16 with | .ok t => t | .error _ => Ex.level), by decide +kernel, by decide +kernel, by decide +kernel⟩

theorem CostLe.foldr {k : Cost} : {l : List Cost} → k ∈ l → CostLe k (l.foldr Cost.add .zero)
  | a :: l, h => by
    rcases List.mem_cons.1 h with rfl | h
    · exact (CostLe.refl _).left
    · obtain ⟨h1, h2, h3⟩ := CostLe.foldr h
      simp only [CostLe, List.foldr_cons, Cost.add]
      exact ⟨by omega, by omega, by omega⟩

theorem work_cost {Ts : List Nav} {runs parallel : Bool} {env : Env} {L : List Nat} {W : Work}
    (h : workIntersect Ts runs parallel env = .ok (L, W)) :
    costIntersect Ts runs parallel env = .ok (L, W.alone.add (W.threads.foldr Cost.add .zero)) := by
  rw [← workIntersect_map, h]; rfl

theorem fast_work_cost {lg : Nat} {Ts : List FNav} {runs parallel : Bool} {env : Env} {L : List Nat} {W : Work}
    (h : workFastIntersect lg Ts runs parallel env = .ok (L, W)) :
    costFastIntersect lg Ts runs parallel env = .ok (L, W.alone.add (W.threads.foldr Cost.add .zero)) := by
  rw [← workFastIntersect_map, h]; rfl

theorem work_split {W : Work} {κ : Cost} (h : CostLe (W.alone.add (W.threads.foldr Cost.add .zero)) κ) :
    ∀ k ∈ W.threads, W.alone.nodes + k.nodes ≤ κ.nodes ∧ W.alone.moves + k.moves ≤ κ.moves ∧ W.alone.words + k.words ≤ κ.words := by
  intro k hk
  obtain ⟨a1, a2, a3⟩ := CostLe.foldr hk
  obtain ⟨b1, b2, b3⟩ := h
  simp only [Cost.add] at b1 b2 b3
  exact ⟨by omega, by omega, by omega⟩

/-- C80, plain tries: dividing the work adds none. What is read before the threads start and what any of them reads is together at most
what the sequential call reads. -/
theorem C80_no_extra_work {pad h : Nat} {sets : List (List Nat)} {Ts : List Nav} (hTs : List.Forall₂ (PlainTrie pad h) sets Ts)
    (hne : Ts ≠ []) (hlen : Ts.length ≤ 16) (h2 : 2 ≤ h) (env : Env) (hw : env.hw ≠ 0) (hw2 : env.hw < 2 ^ 16) :
    ∃ R W κ, workIntersect Ts false true env = .ok (R, W) ∧ costIntersect Ts false false env = .ok (R, κ) ∧
      ∀ k ∈ W.threads, W.alone.nodes + k.nodes ≤ κ.nodes ∧ W.alone.moves + k.moves ≤ κ.moves ∧ W.alone.words + k.words ≤ κ.words := by
  obtain ⟨R, hR, -⟩ := C58_plain_reads hTs hne hlen env hw true fun _ => ⟨h2, hw2⟩
  obtain ⟨R', hR', -⟩ := C58_plain_reads hTs hne hlen env hw false (by simp)
  have hi : intersect Ts false true env = .ok R := by rw [← costIntersect_map, hR]; rfl
  have hi' : intersect Ts false false env = .ok R' := by rw [← costIntersect_map, hR']; rfl
  have hh : ∀ n ∈ Ts, 2 ≤ n.height ∧ n.height < 2 ^ 63 := forall2_imp_right hTs fun _ _ H => by
    have h1 := H.holds.height
    have h3 := H.holds.depth
    omega
  have hi2 := (C77_plain_any hh env hw hw2 R).1 hi
  rw [hi'] at hi2
  cases hi2
  obtain ⟨W, hW⟩ := work_of_ok hi
  have hc := work_cost hW
  rw [hR] at hc
  refine ⟨R, W, _, hW, hR', work_split ?_⟩
  rw [← (Prod.mk.inj (Except.ok.inj hc)).2]
  exact CostLe.refl _

theorem C80_fast_no_extra_work {lg pad h : Nat} (hlg : 3 ≤ lg ∧ lg ≤ 6) {sets : List (List Nat)} {Ts : List FNav}
    (hTs : List.Forall₂ (FastPlain lg pad h) sets Ts) (hne : Ts ≠ []) (hlen : Ts.length ≤ 16) (h2 : 2 ≤ h) (env : Env) (hw : env.hw ≠ 0)
    (hw2 : env.hw < 2 ^ 16) : ∃ R W κ, workFastIntersect lg Ts false true env = .ok (R, W) ∧ costFastIntersect lg Ts false false env = .ok (R, κ) ∧
      ∀ k ∈ W.threads, W.alone.nodes + k.nodes ≤ κ.nodes ∧ W.alone.moves + k.moves ≤ κ.moves ∧ W.alone.words + k.words ≤ κ.words := by
  obtain ⟨R, hR, -⟩ := C58_fast_plain_reads hlg hTs hne hlen env hw true fun _ => ⟨h2, hw2⟩
  obtain ⟨R', hR', -⟩ := C58_fast_plain_reads hlg hTs hne hlen env hw false (by simp)
  have hi : fastIntersect lg Ts false true env = .ok R := by rw [← costFastIntersect_map, hR]; rfl
  have hi' : fastIntersect lg Ts false false env = .ok R' := by rw [← costFastIntersect_map, hR']; rfl
  have hh : ∀ n ∈ Ts, 2 ≤ n.height ∧ n.height < 2 ^ 63 := forall2_imp_right hTs fun _ _ H => by
    have h1 := (H.holds hlg).height
    have h3 := (H.holds hlg).depth
    omega
  have hi2 := (C77_fast_plain_any lg hh env hw hw2 R).1 hi
  rw [hi'] at hi2
  cases hi2
  obtain ⟨W, hW⟩ := fast_work_of_ok hi
  have hc := fast_work_cost hW
  rw [hR] at hc
  refine ⟨R, W, _, hW, hR', work_split ?_⟩
  rw [← (Prod.mk.inj (Except.ok.inj hc)).2]
  exact CostLe.refl _

/-- C80, run-aware calls, whatever state the tries are in: if the sequential call returns then so does the parallel one, and dividing the
work adds none. -/
theorem C80_runs_no_extra_work {Ts : List Nav} (hh : ∀ n ∈ Ts, 2 ≤ n.height ∧ n.height < 2 ^ 63) (env : Env) (hw : env.hw ≠ 0)
    (hw2 : env.hw < 2 ^ 16) {L : List Nat} {κ : Cost} (h : costIntersect Ts true false env = .ok (L, κ)) :
    ∃ L' W, workIntersect Ts true true env = .ok (L', W) ∧
      ∀ k ∈ W.threads, W.alone.nodes + k.nodes ≤ κ.nodes ∧ W.alone.moves + k.moves ≤ κ.moves ∧ W.alone.words + k.words ≤ κ.words := by
  obtain ⟨L', κ', h1, -, h2⟩ := C78_runs_parallel_any hh env hw hw2 h
  obtain ⟨W, hW⟩ := work_of_ok (R := L') (by rw [← costIntersect_map, h1]; rfl)
  have hc := work_cost hW
  rw [h1] at hc
  refine ⟨L', W, hW, work_split ?_⟩
  rw [← (Prod.mk.inj (Except.ok.inj hc)).2]
  exact h2

theorem C80_fast_runs_no_extra_work (lg : Nat) {Ts : List FNav} (hh : ∀ n ∈ Ts, 2 ≤ n.height ∧ n.height < 2 ^ 63) (env : Env) (hw : env.hw ≠ 0)
    (hw2 : env.hw < 2 ^ 16) {L : List Nat} {κ : Cost} (h : costFastIntersect lg Ts true false env = .ok (L, κ)) :
    ∃ L' W, workFastIntersect lg Ts true true env = .ok (L', W) ∧
      ∀ k ∈ W.threads, W.alone.nodes + k.nodes ≤ κ.nodes ∧ W.alone.moves + k.moves ≤ κ.moves ∧ W.alone.words + k.words ≤ κ.words := by
  obtain ⟨L', κ', h1, -, h2⟩ := C78_fast_runs_parallel_any lg hh env hw hw2 h
  obtain ⟨W, hW⟩ := fast_work_of_ok (R := L') (by rw [← costFastIntersect_map, h1]; rfl)
  have hc := fast_work_cost hW
  rw [h1] at hc
  refine ⟨L', W, hW, work_split ?_⟩
  rw [← (Prod.mk.inj (Except.ok.inj hc)).2]
  exact h2

/-- The hypotheses hold of tries that constructors make, and of some that none makes. -/
example : List.Forall₂ (PlainTrie 0 4) [Ex.sF, Ex.sL] [Ex.flat.nav 0, Ex.level.nav true 0] ∧
    (∀ n ∈ [Ex.levelBare.nav false 0, Ex.levelBare.nav false 0], 2 ≤ n.height ∧ n.height < 2 ^ 63) ∧
    costIntersect [Ex.levelBare.nav false 0, Ex.levelBare.nav false 0] true false ⟨2, [], []⟩ = .ok ([0, 1, 2, 5, 6, 7], ⟨14, 6, 0⟩) :=
  ⟨.cons Ex.flat_plain (.cons Ex.level_plain .nil), by decide, by decide +kernel⟩

/-- A parallel call need not be any faster: here two hardware threads are available, one thread is started, and the calling thread and
that thread one after the other do all that the sequential call does. -/
theorem C80_speedup_negation : ∃ t t' k κ, levelCtor [4, 5, 6, 7] 16 = .ok t ∧ levelCtor [4, 6] 16 = .ok t' ∧
    workIntersect [t.nav true 0, t'.nav true 0] false true ⟨2, [], []⟩ = .ok ([4, 6], ⟨⟨2, 2, 0⟩, [k], 0⟩) ∧
    costIntersect [t.nav true 0, t'.nav true 0] false false ⟨2, [], []⟩ = .ok ([4, 6], κ) ∧ κ = Cost.add ⟨2, 2, 0⟩ k :=
  ⟨(match levelCtor [4, 5, 6, 7] 16 with | .ok t => t | .error _ => Ex.level),
    (match levelCtor [4, 6] 16 with | .ok t => t | .error _ => Ex.level), ⟨8, 4, 0⟩, ⟨10, 6, 0⟩, by decide +kernel, by decide +kernel,
    by decide +kernel, by decide +kernel, by decide +kernel⟩

end CBT
