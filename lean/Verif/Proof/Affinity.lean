import Verif.Model.Affinity
import Verif.Proof.MemoryLeak

/-!
# `parallel_for` on macOS
-/

namespace CBT

open Spec

theorem pinThread_lt {i : Nat} (h : i < 32) : pinThread i = .ok i := by
  have : ∀ i < 32, pinThread i = .ok i := by decide +kernel
  exact this i h

theorem pinThread_ge {i : Nat} (h : 32 ≤ i) : pinThread i = .error .shift := by
  rw [pinThread, Nat.div_one, cpuSet, if_pos h]
  rfl

theorem mapM_pin : (l : List Nat) → (∀ i ∈ l, i < 32) → l.mapM pinThread = .ok l
  | [], _ => rfl
  | i :: l, h => by
    rw [List.mapM_cons, pinThread_lt (h i List.mem_cons_self), mapM_pin l fun j hj => h j (List.mem_cons_of_mem _ hj)]
    rfl

theorem pins_le {k : Nat} (h : k ≤ 32) : (List.range k).mapM pinThread = .ok (List.range k) :=
  mapM_pin _ fun i hi => by have := List.mem_range.1 hi; omega

theorem pins_gt {k : Nat} (h : 32 < k) : (List.range k).mapM pinThread = .error .shift := by
  obtain ⟨m, rfl⟩ : ∃ m, k = 32 + (m + 1) := ⟨k - 33, by omega⟩
  rw [List.range_add, List.mapM_append, pins_le (Nat.le_refl 32), R_bind_ok, List.range_succ_eq_map, List.map_cons, List.mapM_cons,
    pinThread_ge (by omega)]
  rfl

theorem macParallelFor_le {α σ : Type} (act : α → σ → R σ) (sched : List Nat) (nb : Nat) {k : Nat} (body : Nat → R (List α)) (s : σ)
    (h : k ≤ 32) : macParallelFor act sched nb k body s = parallelFor act sched nb k body s := by
  rw [macParallelFor, parallelFor, pins_le h]
  rfl

theorem macParallelFor_gt {α σ : Type} (act : α → σ → R σ) (sched : List Nat) (nb : Nat) {k : Nat} (body : Nat → R (List α)) (s : σ)
    (h : 32 < k) : macParallelFor act sched nb k body s = .error .shift := by
  rw [macParallelFor, parallelChunks, if_neg (by omega), pins_gt h]
  rfl

theorem macGather_le (sched : List Nat) (inter : List Nat) (results : List (List Nat)) {used : Nat} (h : used ≤ 32) :
    macGather sched inter results used = gather sched inter results used := by
  rw [macGather, gather]
  simp only [macParallelFor_le _ _ _ _ _ h]

theorem macBody_seq (Ts : List Nav) (c : Cfg) (height : Nat) (runs : Bool) (env : Env) :
    macBody Ts c height runs false env = intersectBody Ts c height runs false env := by
  rw [macBody, intersectBody]
  generalize (height + 2 ^ 64 - 2) % 2 ^ 64 = m
  by_cases hw : env.hw = 0
  · simp only [hw, if_true]
    exact (rfl : (Except.error UB.conv : R (List Nat)) = .error .conv)
  · simp only [hw, Bool.false_eq_true, false_and, if_false]

theorem macBody_le {Ts : List Nav} {c : Cfg} {height : Nat} {runs : Bool} {env : Env}
    (h : ∀ s rest used s', partialAND Ts c runs (Nat.log2 env.hw) 0 (List.replicate 16 (some 0)) (List.replicate 16 true) 0 ⟨[], []⟩ = .ok s →
      fillThreads Ts c runs (Nat.log2 env.hw) (2 ^ Nat.log2 env.hw) (s.tasks.length % 2 ^ 16) (s.tasks.take (s.tasks.length % 2 ^ 16)) 0
        (s.tasks.length % 2 ^ 16) ⟨s.r, []⟩ = .ok (rest, used, s') → used ≤ 32) :
    macBody Ts c height runs true env = intersectBody Ts c height runs true env := by
  by_cases hw : env.hw = 0
  · simp only [macBody, intersectBody, hw, if_true]
    exact (rfl : (Except.error UB.conv : R (List Nat)) = .error .conv)
  by_cases hc : Nat.log2 env.hw ≤ (height + 2 ^ 64 - 2) % 2 ^ 64
  · rw [macBody, intersectBody]
    generalize List.replicate 16 (some 0) = ro at *
    generalize Nat.log2 env.hw = cut at *
    simp only [hw, hc, if_false, and_self, if_true]
    refine R_bind_congr _ fun s hs => ?_
    by_cases h0 : s.tasks.length = 0
    · rw [if_pos h0, if_pos h0]
    rw [if_neg h0, if_neg h0]
    refine R_bind_congr _ fun ⟨rest, used, s'⟩ hf => ?_
    have hu := h s rest used s' hs hf
    dsimp only
    by_cases hz : (s'.tasks ++ rest).length = 0
    · rw [if_pos hz, if_pos hz]
    rw [if_neg hz, if_neg hz, macParallelFor_le _ _ _ _ _ hu]
    refine R_bind_congr _ fun results _ => ?_
    rw [macGather_le _ _ _ hu]
  · simp only [macBody, intersectBody, hw, hc, if_false, and_false]

/-- A call that reaches the first parallel section with more than 32 threads. -/
theorem macBody_gt {Ts : List Nav} {c : Cfg} {height : Nat} {runs : Bool} {env : Env} (hw : env.hw ≠ 0)
    (hc : Nat.log2 env.hw ≤ (height + 2 ^ 64 - 2) % 2 ^ 64) {s s' : PSt} {rest : List Task} {used : Nat}
    (h1 : partialAND Ts c runs (Nat.log2 env.hw) 0 (List.replicate 16 (some 0)) (List.replicate 16 true) 0 ⟨[], []⟩ = .ok s)
    (h2 : fillThreads Ts c runs (Nat.log2 env.hw) (2 ^ Nat.log2 env.hw) (s.tasks.length % 2 ^ 16) (s.tasks.take (s.tasks.length % 2 ^ 16)) 0
        (s.tasks.length % 2 ^ 16) ⟨s.r, []⟩ = .ok (rest, used, s'))
    (h0 : s.tasks.length ≠ 0) (hz : (s'.tasks ++ rest).length ≠ 0) (hu : 32 < used) :
    macBody Ts c height runs true env = .error .shift := by
  rw [macBody]
  generalize List.replicate 16 (some 0) = ro at *
  generalize Nat.log2 env.hw = cut at *
  simp only [hw, hc, if_false, and_self, if_true]
  rw [h1, R_bind_ok, if_neg h0, h2, R_bind_ok]
  dsimp only
  rw [if_neg hz, macParallelFor_gt _ _ _ _ _ hu]
  rfl

/-! ## The number of threads, for tries in any state -/

theorem partialAND_count (Ts : List Nav) (c : Cfg) (runs : Bool) : (rem level : Nat) → (roots : List (Option Nat)) → (active : List Bool) →
    (part : Nat) → (s s' : PSt) → partialAND Ts c runs rem level roots active part s = .ok s' →
    s'.tasks.length ≤ s.tasks.length + 2 ^ rem
  | 0, level, roots, active, part, s, s', h => by
    rw [partialAND] at h
    split at h
    · cases h
    · cases h; simp
  | rem + 1, level, roots, active, part, s, s', h => by
    have hp : 2 ^ (rem + 1) = 2 ^ rem + 2 ^ rem := by rw [Nat.pow_succ]; omega
    have hpos : 0 < 2 ^ rem := Nat.two_pow_pos _
    rw [partialAND] at h
    obtain ⟨⟨tmp, res, n00⟩, _, h⟩ := bind_ok h
    dsimp only at h
    split at h
    · cases h; omega
    split at h
    · obtain ⟨r, _, h⟩ := bind_ok h
      cases h
      exact Nat.le_add_right _ _
    split at h
    · obtain ⟨ln, _, h⟩ := bind_ok h
      have := partialAND_count Ts c runs rem _ _ _ _ _ _ h
      omega
    split at h
    · obtain ⟨sh, _, h⟩ := bind_ok h
      obtain ⟨ln, _, h⟩ := bind_ok h
      have := partialAND_count Ts c runs rem _ _ _ _ _ _ h
      omega
    split at h
    · obtain ⟨sh, _, h⟩ := bind_ok h
      obtain ⟨ln, _, h⟩ := bind_ok h
      obtain ⟨s1, h1, h⟩ := bind_ok h
      have h1 := partialAND_count Ts c runs rem _ _ _ _ _ _ h1
      have := partialAND_count Ts c runs rem _ _ _ _ _ _ h
      omega
    · cases h; omega

theorem fillThreads_count (Ts : List Nav) (c : Cfg) (runs : Bool) (cut n total : Nat) : (todo : List Task) →
    (i used : Nat) → (s : PSt) → used ≤ n → used = todo.length + s.tasks.length → total = todo.length + i → n ≤ 2 ^ 15 →
    (rest : List Task) → (u : Nat) → (s' : PSt) → fillThreads Ts c runs cut n total todo i used s = .ok (rest, u, s') → u ≤ n
  | [], i, used, s, hu, hl, ht, hn, rest, u, s', h => by
    rw [fillThreads] at h
    cases h
    exact hu
  | T :: todo, i, used, s, hu, hl, ht, hn, rest, u, s', h => by
    rw [fillThreads] at h
    simp only [List.length_cons] at hl ht
    split at h
    · obtain ⟨s1, h1, h⟩ := bind_ok h
      have hc := partialAND_count Ts c runs 1 _ _ _ _ _ _ h1
      have hm : (total + s1.tasks.length - (i + 1)) % 2 ^ 16 = todo.length + s1.tasks.length := by omega
      rw [hm] at h
      exact fillThreads_count Ts c runs cut n total todo (i + 1) _ s1 (by omega) rfl (by omega) hn rest u s' h
    · cases h
      exact hu

/-- The number of threads is at most the power of two below the number of hardware threads. -/
theorem used_count {Ts : List Nav} {c : Cfg} {runs : Bool} {cut : Nat} {ro : List (Option Nat)} {ac : List Bool} (hcut : cut ≤ 15) {s s' : PSt}
    {rest : List Task} {used : Nat} (h1 : partialAND Ts c runs cut 0 ro ac 0 ⟨[], []⟩ = .ok s)
    (h2 : fillThreads Ts c runs cut (2 ^ cut) (s.tasks.length % 2 ^ 16) (s.tasks.take (s.tasks.length % 2 ^ 16)) 0
        (s.tasks.length % 2 ^ 16) ⟨s.r, []⟩ = .ok (rest, used, s')) : used ≤ 2 ^ cut := by
  have hp : 2 ^ cut ≤ 2 ^ 15 := Nat.pow_le_pow_right (by decide) hcut
  have hc := partialAND_count Ts c runs cut _ _ _ _ _ _ h1
  simp only [List.length_nil, Nat.zero_add] at hc
  have hm : s.tasks.length % 2 ^ 16 = s.tasks.length := Nat.mod_eq_of_lt (by omega)
  rw [hm, List.take_length] at h2
  exact fillThreads_count Ts c runs cut _ _ _ _ _ _ hc (by simp) (by simp) hp _ _ _ h2

theorem macBody_small (Ts : List Nav) (c : Cfg) (height : Nat) (runs parallel : Bool) {env : Env} (h : env.hw < 64) :
    macBody Ts c height runs parallel env = intersectBody Ts c height runs parallel env := by
  cases parallel with
  | false => exact macBody_seq _ _ _ _ _
  | true =>
    refine macBody_le fun s rest used s' h1 h2 => ?_
    have hc : Nat.log2 env.hw ≤ 5 := by
      rcases Nat.eq_zero_or_pos env.hw with h0 | h0
      · rw [h0]; decide
      · exact Nat.lt_succ_iff.1 ((Nat.log2_lt (by omega)).2 (by omega))
    exact Nat.le_trans (used_count (by omega) h1 h2) (Nat.le_trans (Nat.pow_le_pow_right (by decide) hc) (by decide))

/-! ## The number of threads, for plain tries -/

section
variable {α : Type} (nav : α → Nav) (leaf : α → Nat → Nat → Nat → Prop)

theorem macBody_plain {runs : Bool} {as : List α} {c : Cfg} {b d height : Nat} {env : Env} {ts : List (Tr (d + 1 + Nat.log2 env.hw))}
    (hne : as ≠ [])
    (hts : List.Forall₂ (fun a t => Rep (nav a) (leaf a) (d + 1 + Nat.log2 env.hw) 0 t 0) as ts) (hlen : as.length ≤ 16)
    (hnts : ∀ t ∈ ts, NE b (d + 1 + Nat.log2 env.hw) t)
    (htop : c.top = d + 1 + Nat.log2 env.hw + b) (h64 : c.top < 64) (hw : env.hw ≠ 0) (hw' : env.hw < 2 ^ 16)
    (hh : Nat.log2 env.hw ≤ (height + 2 ^ 64 - 2) % 2 ^ 64) :
    macBody (as.map nav) c height runs true env =
      if threadCount (2 ^ Nat.log2 env.hw) (sub (Nat.log2 env.hw) ts).length ((sub (Nat.log2 env.hw) ts).map fun u => (sub 1 u).length) ≤ 32
      then intersectBody (as.map nav) c height runs true env else .error .shift := by
  have hthr : 2 ^ Nat.log2 env.hw ≤ env.hw := Nat.log2_self_le hw
  obtain ⟨tasks, e1, h1⟩ := partialAND_sub nav leaf (runs := runs) (as := as) (c := c) (b := b) h64 hne (Nat.log2 env.hw) (d + 1) 0
    ts _ (List.replicate 16 true) 0 ⟨[], []⟩ (Reps.root nav leaf 16 hlen hts) (fun _ => ⟨by simpa using hlen, by simp⟩) (by omega) hnts
  rw [Nat.zero_add] at h1
  rw [List.nil_append] at e1
  have hle := sub_length_le (Nat.log2 env.hw) ts
  have hl := h1.length_eq
  have hmod : tasks.length % 2 ^ 16 = tasks.length := Nat.mod_eq_of_lt (by omega)
  obtain ⟨new, rest, e2, -, k2⟩ := fillThreads_sub nav leaf (n := 2 ^ Nat.log2 env.hw) (total := tasks.length) h64 hne (by omega) (by omega) tasks _ 0
    tasks.length ⟨[], []⟩ h1 (by simp) (by omega) (by simp)
  simp only [List.nil_append] at e2 k2
  rw [hl] at k2
  have e2' : fillThreads (as.map nav) c runs (Nat.log2 env.hw) (2 ^ Nat.log2 env.hw) (tasks.length % 2 ^ 16) (tasks.take (tasks.length % 2 ^ 16)) 0
      (tasks.length % 2 ^ 16) ⟨[], []⟩ = .ok (rest, new.length + rest.length, ⟨[], new⟩) := by
    rw [hmod, List.take_length]; exact e2
  rw [← k2]
  by_cases hu : new.length + rest.length ≤ 32
  · rw [if_pos hu]
    refine macBody_le fun s rest' used s' g1 g2 => ?_
    rw [e1] at g1
    cases g1
    rw [e2'] at g2
    cases g2
    exact hu
  · rw [if_neg hu]
    refine macBody_gt hw hh e1 e2' ?_ (by simp only [List.length_append]; omega) (by omega)
    intro h0
    rw [← hl, h0, List.length_eq_zero_iff.1 (hl.symm.trans h0)] at k2
    simp only [List.map_nil, threadCount] at k2
    omega

end

end CBT
