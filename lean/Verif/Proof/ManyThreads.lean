import Verif.Proof.MemoryLeak

/-!
# Parallel `Intersect` on machines with 65536 or more hardware threads

The numbers of tasks are kept in `uint16_t` variables (src/intersection.cpp:342-343, 355, src/fastTrieIntersection.cpp:365-366, 378).
-/

namespace CBT

open Spec

section
variable {α : Type} (nav : α → Nav) (leaf : α → Nat → Nat → Nat → Prop)

/-- The tasks above the cut. -/
theorem first_tasks {runs : Bool} {as : List α} {c : Cfg} {b d k : Nat} {ts : List (Tr (d + k))}
    (hne : as ≠ []) (hts : List.Forall₂ (fun a t => Rep (nav a) (leaf a) (d + k) 0 t 0) as ts) (hlen : as.length ≤ 16)
    (hnts : ∀ t ∈ ts, NE b (d + k) t) (htop : c.top = d + k + b) (h64 : c.top < 64) :
    ∃ tasks, partialAND (as.map nav) c runs k 0 (List.replicate 16 (some 0)) (List.replicate 16 true) 0 ⟨[], []⟩ = .ok ⟨[], tasks⟩ ∧
      List.Forall₂ (TaskAt nav leaf runs as b d k) tasks (sub k ts) := by
  obtain ⟨tasks, e1, h1⟩ := partialAND_sub nav leaf (runs := runs) (as := as) (c := c) (b := b) h64 hne k d 0
    ts _ (List.replicate 16 true) 0 ⟨[], []⟩ (Reps.root nav leaf 16 hlen hts) (fun _ => ⟨by simpa using hlen, by simp⟩) (by omega) hnts
  rw [Nat.zero_add] at h1
  exact ⟨tasks, e1, h1⟩

/-- A multiple of 65536 tasks are taken for none. -/
theorem body_wraps {runs : Bool} {as : List α} {c : Cfg} {b d height : Nat} {env : Env} {ts : List (Tr (d + 1 + Nat.log2 env.hw))}
    (hne : as ≠ []) (hts : List.Forall₂ (fun a t => Rep (nav a) (leaf a) (d + 1 + Nat.log2 env.hw) 0 t 0) as ts) (hlen : as.length ≤ 16)
    (hnts : ∀ t ∈ ts, NE b (d + 1 + Nat.log2 env.hw) t) (htop : c.top = d + 1 + Nat.log2 env.hw + b) (h64 : c.top < 64)
    (hw : env.hw ≠ 0) (hh : Nat.log2 env.hw ≤ (height + 2 ^ 64 - 2) % 2 ^ 64) (h16 : (sub (Nat.log2 env.hw) ts).length % 2 ^ 16 = 0) :
    intersectBody (as.map nav) c height runs true env = .ok [] := by
  rw [intersectBody, if_neg hw]
  generalize Nat.log2 env.hw = cut at *
  obtain ⟨tasks, e1, h1⟩ := first_tasks nav leaf (runs := runs) hne hts hlen hnts htop h64
  simp only [R_bind_ok, true_and, hh, if_true, e1]
  rw [h1.length_eq, h16]
  split
  · rfl
  · rfl

/-- With at least 131072 threads all tasks are replaced by their halves. -/
theorem fillThreads_many {runs : Bool} {as : List α} {c : Cfg} {b d cut n total : Nat} (htop : c.top < 64)
    (hne : as ≠ []) (hct : c.top = cut + (d + 1) + b) (hn : 2 ^ 17 ≤ n ∧ n < 2 ^ 32) :
    ∀ (todo : List Task) (us : List (List (Tr (d + 1)))) (i used : Nat) (s : PSt),
    List.Forall₂ (TaskAt nav leaf runs as b (d + 1) cut) todo us → used < 2 ^ 16 → used = (todo.length + s.tasks.length) % 2 ^ 16 →
    total = todo.length + i →
    ∃ new, fillThreads (as.map nav) c runs cut n total todo i used s =
        .ok ([], (s.tasks ++ new).length % 2 ^ 16, ⟨s.r, s.tasks ++ new⟩) ∧
      new.length = (us.map fun u => (sub 1 u).length).sum := by
  intro todo
  induction todo with
  | nil =>
    intro us i used s h hlt hu ht
    cases h
    refine ⟨[], ?_, rfl⟩
    rw [fillThreads, hu]
    simp
  | cons T todo ih =>
    intro us i used s h hlt hu ht
    cases h with
    | @cons _ u _ us hto h =>
      rw [fillThreads]
      have hmod : (n + 2 ^ 32 - used) % 2 ^ 32 = n - used := by omega
      rw [hmod, if_pos (by omega)]
      simp only [List.length_cons] at hu ht
      obtain ⟨h1, h2, h3⟩ := hto
      obtain ⟨new, e, g1⟩ := partialAND_sub nav leaf (runs := runs) (as := as) (c := c) (b := b) htop hne 1 d cut
        u T.roots T.active T.part s h1 h2 (by omega) h3
      rw [e, R_bind_ok]
      have hl : new.length = (sub 1 u).length := g1.length_eq
      obtain ⟨new', e', k1⟩ := ih us (i + 1) ((total + (s.tasks ++ new).length - (i + 1)) % 2 ^ 16) ⟨s.r, s.tasks ++ new⟩ h
        (Nat.mod_lt _ (by omega)) (by rw [show total + (s.tasks ++ new).length - (i + 1) = todo.length + (s.tasks ++ new).length by omega])
        (by omega)
      refine ⟨new ++ new', by rw [e']; simp, ?_⟩
      rw [List.length_append, k1, hl, List.map_cons, List.sum_cons]

/-- 65536 halves, or a multiple: no thread is to do anything, and the work is divided by the number of threads. -/
theorem body_divides {runs : Bool} {as : List α} {c : Cfg} {b d height : Nat} {env : Env} {ts : List (Tr (d + 1 + Nat.log2 env.hw))}
    (hne : as ≠ []) (hts : List.Forall₂ (fun a t => Rep (nav a) (leaf a) (d + 1 + Nat.log2 env.hw) 0 t 0) as ts) (hlen : as.length ≤ 16)
    (hnts : ∀ t ∈ ts, NE b (d + 1 + Nat.log2 env.hw) t) (htop : c.top = d + 1 + Nat.log2 env.hw + b) (h64 : c.top < 64)
    (hcut : 17 ≤ Nat.log2 env.hw ∧ Nat.log2 env.hw < 32) (hw : env.hw ≠ 0) (hh : Nat.log2 env.hw ≤ (height + 2 ^ 64 - 2) % 2 ^ 64)
    (hN : (sub (Nat.log2 env.hw) ts).length < 2 ^ 16)
    (h0 : ((sub (Nat.log2 env.hw) ts).map fun u => (sub 1 u).length).sum ≠ 0)
    (h16 : ((sub (Nat.log2 env.hw) ts).map fun u => (sub 1 u).length).sum % 2 ^ 16 = 0) :
    intersectBody (as.map nav) c height runs true env = .error .conv := by
  rw [intersectBody, if_neg hw]
  generalize Nat.log2 env.hw = cut at *
  have hp1 : 2 ^ 17 ≤ 2 ^ cut := Nat.pow_le_pow_right (by omega) hcut.1
  have hp2 : 2 ^ cut < 2 ^ 32 := Nat.pow_lt_pow_right (by omega) hcut.2
  obtain ⟨tasks, e1, h1⟩ := first_tasks nav leaf (runs := runs) hne hts hlen hnts htop h64
  simp only [R_bind_ok, true_and, hh, if_true, e1]
  have hl := h1.length_eq
  have hne0 : tasks.length ≠ 0 := by
    intro hz
    rw [List.length_eq_zero_iff.1 (hl.symm.trans hz)] at h0
    exact h0 rfl
  rw [if_neg hne0, Nat.mod_eq_of_lt (show tasks.length < 2 ^ 16 by omega), List.take_length]
  obtain ⟨new, e2, k1⟩ := fillThreads_many nav leaf (n := 2 ^ cut) (total := tasks.length) h64 hne (by omega) ⟨hp1, hp2⟩ tasks _ 0
    tasks.length ⟨[], []⟩ h1 (by omega) (by simp; omega) (by simp)
  rw [e2]
  simp only [R_bind_ok, List.nil_append, List.append_nil]
  rw [k1, if_neg h0, h16]
  rfl

end

/-! ## In terms of the sets -/

theorem forall2_and_right {A B : Type} {P P' : A → B → Prop} {Q : B → Prop} {l : List A} {m : List B} (h : List.Forall₂ P l m)
    (hq : ∀ t ∈ m, Q t) (hi : ∀ a t, P a t → Q t → P' a t) : List.Forall₂ P' l m := by
  induction h with
  | nil => exact .nil
  | cons h _ ih => exact .cons (hi _ _ h (hq _ List.mem_cons_self)) (ih fun t ht => hq t (List.mem_cons_of_mem _ ht))

theorem hasS_of_ne {runs : Bool} {b d : Nat} {sets : List (List Nat)} {ts : List (Tr d)} (hn : ∀ t ∈ ts, NE b d t)
    (h : List.Forall₂ (fun S t => Holds (d + b) (has b d t) S) sets ts) :
    List.Forall₂ (fun S t => Holds (d + b) (hasS runs b d t) S) sets ts := by
  cases runs with
  | false => exact h
  | true => exact forall2_and_right h hn fun S t hS hn x hx => by rw [hasS, if_pos rfl, hn.hasR_eq]; exact hS x hx

/-- `Intersect` on plain tries: nothing is found, the program divides by zero, the intersection is found. -/
theorem intersect_wraps {d cut : Nat} {sets : List (List Nat)} {Ts : List Nav} (h : List.Forall₂ (HoldsP (d + 1 + cut)) sets Ts)
    (hne : Ts ≠ []) (hlen : Ts.length ≤ 16) {env : Env} (hcut : Nat.log2 env.hw = cut) (hw : env.hw ≠ 0) (runs : Bool) :
    ((commonBlocks sets (d + 1 + 1) cut).length % 2 ^ 16 = 0 → intersect Ts runs true env = .ok []) ∧
    (17 ≤ cut → cut < 32 → (commonBlocks sets (d + 1 + 1) cut).length < 2 ^ 16 →
      ((commonBlocks sets (d + 1 + 1) cut).map (commonHalves sets (d + 1))).sum ≠ 0 →
      ((commonBlocks sets (d + 1 + 1) cut).map (commonHalves sets (d + 1))).sum % 2 ^ 16 = 0 →
      intersect Ts runs true env = .error .conv) ∧
    (cut < 32 → (commonBlocks sets (d + 1 + 1) cut).length < 2 ^ 16 → cut ≤ 16 ∨ (commonBlocks sets (d + 1 + 1) cut).length < 2 ^ 15 →
      ∃ R, intersect Ts runs true env = .ok R ∧ IsIntersection sets R) := by
  subst hcut
  obtain ⟨ts, h1, h2, h3⟩ := HoldsP.trees h
  have hd : d + 1 + Nat.log2 env.hw ≤ 62 := by
    cases h with
    | nil => exact (hne rfl).elim
    | cons h _ => exact h.depth
  have hb := forall2_imp_left h fun _ _ h => h.below
  obtain ⟨e1, e2⟩ := sub_sets h2 h3 hb
  have hu := intersect_unfold hne (forall2_imp_right h fun _ _ h => h.height) runs true env
  rw [hu, ← e2, ← e1]
  refine ⟨fun h16 => ?_, fun h17 h32 hN h0 h16 => ?_, fun h32 hN hc => ?_⟩
  · have := body_wraps id leafF (b := 1) (c := flatCfg (d + 1 + Nat.log2 env.hw + 1)) (height := d + 1 + Nat.log2 env.hw + 1) (runs := runs)
      hne h1 hlen h2 (by rfl) (show d + 1 + Nat.log2 env.hw + 1 < 64 by omega) hw (by omega) h16
    rwa [List.map_id] at this
  · have := body_divides id leafF (b := 1) (c := flatCfg (d + 1 + Nat.log2 env.hw + 1)) (height := d + 1 + Nat.log2 env.hw + 1) (runs := runs)
      hne h1 hlen h2 (by rfl) (show d + 1 + Nat.log2 env.hw + 1 < 64 by omega) ⟨h17, h32⟩ hw (by omega) hN h0 h16
    rwa [List.map_id] at this
  · have hS := hasS_of_ne (runs := runs) h2 h3
    obtain ⟨R, hR, _, _, hI⟩ := par_inter_counted (runs := runs) (nav := id) hne (flat_leafOK Ts (d + 1 + Nat.log2 env.hw + 1))
      (flat_leafOKR Ts (d + 1 + Nat.log2 env.hw + 1)) h1 hlen (by rfl) (by rfl) (show d + 1 + Nat.log2 env.hw + 1 < 64 by omega) hw h32
      (fun _ s hs _ => by
        obtain ⟨tasks, e, ht⟩ := first_tasks id leafF (b := 1) (c := flatCfg (d + 1 + Nat.log2 env.hw + 1)) (runs := runs) hne h1 hlen h2
          (by rfl) (show d + 1 + Nat.log2 env.hw + 1 < 64 by omega)
        rw [e] at hs
        cases hs
        dsimp only
        rw [ht.length_eq]
        exact ⟨hN, hc⟩)
      (by omega) (by omega) (g := True) (fun _ _ t ht => (h2 t ht).top _ _ t) hb hS
    rw [List.map_id] at hR
    exact ⟨R, hR, hI (fun _ => trivial)⟩

/-- `Intersect` on plain fast tries: nothing is found, the program divides by zero, the intersection is found. -/
theorem fastIntersect_wraps {lg d cut : Nat} {sets : List (List Nat)} (hlg : 1 ≤ lg ∧ lg ≤ 6) {Ts : List FNav}
    (h : List.Forall₂ (FHoldsP lg (d + 1 + cut)) sets Ts)
    (hne : Ts ≠ []) (hlen : Ts.length ≤ 16) {env : Env} (hcut : Nat.log2 env.hw = cut) (hw : env.hw ≠ 0) (runs : Bool) :
    ((commonBlocks sets (d + 1 + lg) cut).length % 2 ^ 16 = 0 → fastIntersect lg Ts runs true env = .ok []) ∧
    (17 ≤ cut → cut < 32 → (commonBlocks sets (d + 1 + lg) cut).length < 2 ^ 16 →
      ((commonBlocks sets (d + 1 + lg) cut).map (commonHalves sets (d + lg))).sum ≠ 0 →
      ((commonBlocks sets (d + 1 + lg) cut).map (commonHalves sets (d + lg))).sum % 2 ^ 16 = 0 →
      fastIntersect lg Ts runs true env = .error .conv) ∧
    (cut < 32 → (commonBlocks sets (d + 1 + lg) cut).length < 2 ^ 16 → cut ≤ 16 ∨ (commonBlocks sets (d + 1 + lg) cut).length < 2 ^ 15 →
      ∃ R, fastIntersect lg Ts runs true env = .ok R ∧ IsIntersection sets R) := by
  subst hcut
  obtain ⟨ts, h1, h2, h3⟩ := FHoldsP.trees h
  have hd : d + 1 + Nat.log2 env.hw + lg ≤ 62 := by
    cases h with
    | nil => exact (hne rfl).elim
    | cons h _ => exact h.depth
  have hb := forall2_imp_left h fun _ _ h => h.below
  obtain ⟨e1, e2⟩ := sub_sets h2 h3 hb
  have hu := fastIntersect_unfold (lg := lg) hne (forall2_imp_right h fun _ _ h => h.height) runs true env
  rw [hu, ← e2, ← e1]
  refine ⟨fun h16 => ?_, fun h17 h32 hN h0 h16 => ?_, fun h32 hN hc => ?_⟩
  · have := body_wraps FNav.toNav (leafW lg) (b := lg) (c := fastCfg lg Ts (d + 1 + Nat.log2 env.hw + 1)) (height := d + 1 + Nat.log2 env.hw + 1) (runs := runs)
      hne h1 hlen h2 (by simp only [fastCfg]; omega) (by simp only [fastCfg]; omega) hw (by omega) h16
    exact this
  · have := body_divides FNav.toNav (leafW lg) (b := lg) (c := fastCfg lg Ts (d + 1 + Nat.log2 env.hw + 1)) (height := d + 1 + Nat.log2 env.hw + 1) (runs := runs)
      hne h1 hlen h2 (by simp only [fastCfg]; omega) (by simp only [fastCfg]; omega) ⟨h17, h32⟩ hw (by omega) hN h0 h16
    exact this
  · have hS := hasS_of_ne (runs := runs) h2 h3
    obtain ⟨R, hR, _, _, hI⟩ := par_inter_counted (runs := runs) (nav := FNav.toNav) hne (fast_leafOK hlg.2 Ts (d + 1 + Nat.log2 env.hw + 1))
      (fast_leafOKR hlg.2 Ts (d + 1 + Nat.log2 env.hw + 1)) h1 hlen (by rfl) (by simp only [fastCfg]; omega) (by simp only [fastCfg]; omega) hw h32
      (fun _ s hs _ => by
        obtain ⟨tasks, e, ht⟩ := first_tasks FNav.toNav (leafW lg) (b := lg) (c := fastCfg lg Ts (d + 1 + Nat.log2 env.hw + 1)) (runs := runs) hne h1 hlen h2
          (by simp only [fastCfg]; omega) (by simp only [fastCfg]; omega)
        rw [e] at hs
        cases hs
        dsimp only
        rw [ht.length_eq]
        exact ⟨hN, hc⟩)
      (by omega) (by omega) (g := True) (fun _ _ t ht => (h2 t ht).top _ _ t) hb hS
    exact ⟨R, hR, hI (fun _ => trivial)⟩

end CBT
