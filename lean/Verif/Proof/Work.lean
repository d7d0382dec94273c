import Verif.Model.Work
import Verif.Proof.AnyRuns
import Verif.Proof.Affinity

/-!
# The threads of `Intersect`
-/

namespace CBT

open Spec

theorem gatherW_map (sched inter : List Nat) (results : List (List Nat)) (used : Nat) :
    (gatherW sched inter results used).map Prod.fst = gather sched inter results used := by
  rw [gatherW, gather]
  split
  · rw [R_map_bind]
    cases parallelFor actWrite sched used used _ _ <;> rfl
  · rfl

theorem gatherW_ok {sched inter : List Nat} {results : List (List Nat)} (hn : results ≠ []) :
    gatherW sched inter results results.length =
      .ok (inter ++ results.flatten, if 450000 < (inter ++ results.flatten).length then results.length else 0) := by
  have hg := gather_ok sched inter results hn
  have hl : (inter ++ results.flatten).length = inter.length + (results.map List.length).sum := by
    rw [List.length_append, List.length_flatten]
  rw [hl]
  rw [gather] at hg
  rw [gatherW]
  by_cases h : inter.length + (results.map List.length).sum > 450000
  · rw [if_pos h] at hg ⊢
    rw [if_pos h, hg]
    rfl
  · rw [if_neg h, if_neg h]

theorem mapM_fst {α β γ : Type} {f : α → R (β × γ)} : (l : List α) → (xs : List (β × γ)) → l.mapM f = .ok xs →
    l.mapM (fun a => f a >>= fun x => pure x.1) = .ok (xs.map Prod.fst) ∧ l.mapM (fun a => f a >>= fun x => pure x.2) = .ok (xs.map Prod.snd)
  | [], xs, h => by cases h; exact ⟨rfl, rfl⟩
  | a :: l, xs, h => by
    rw [List.mapM_cons] at h
    obtain ⟨x, hx, h⟩ := bind_ok h
    obtain ⟨ys, hys, h⟩ := bind_ok h
    cases h
    obtain ⟨h1, h2⟩ := mapM_fst l ys hys
    rw [List.mapM_cons, List.mapM_cons, hx, h1, h2]
    exact ⟨rfl, rfl⟩

theorem mapM_fst_conv {α β γ : Type} {f : α → R (β × γ)} : (l : List α) → (ys : List β) →
    l.mapM (fun a => f a >>= fun x => pure x.1) = .ok ys → ∃ xs, l.mapM f = .ok xs
  | [], ys, h => ⟨[], rfl⟩
  | a :: l, ys, h => by
    rw [List.mapM_cons] at h
    obtain ⟨y, hy, h⟩ := bind_ok h
    obtain ⟨x, hx, -⟩ := bind_ok hy
    obtain ⟨zs, hzs, -⟩ := bind_ok h
    obtain ⟨xs, hxs⟩ := mapM_fst_conv l zs hzs
    exact ⟨x :: xs, by rw [List.mapM_cons, hx, hxs]; rfl⟩

/-- The body of `Intersect` without the interleavings. -/
theorem workBody_section (Ts : List Nav) (c : CfgC) (height : Nat) (runs : Bool) (env : Env) (hw : env.hw ≠ 0)
    (hcut : Nat.log2 env.hw ≤ (height + 2 ^ 64 - 2) % 2 ^ 64) :
    workBody Ts c height runs true env =
      (partialANDc Ts c.cfg runs (Nat.log2 env.hw) 0 (List.replicate 16 (some 0)) (List.replicate 16 true) 0 { r := [], tasks := [] } >>= fun s =>
        if s.1.tasks.length = 0 then .ok (s.1.r, ⟨s.2, [], 0⟩) else
          fillThreadsC Ts c.cfg runs (Nat.log2 env.hw) (2 ^ Nat.log2 env.hw) (s.1.tasks.length % 2 ^ 16)
            (s.1.tasks.take (s.1.tasks.length % 2 ^ 16)) 0 (s.1.tasks.length % 2 ^ 16) { s.1 with tasks := [] } >>= fun x =>
          if (x.1.2.2.tasks ++ x.1.1).length = 0 then .ok (x.1.2.2.r, ⟨s.2.add x.2, [], 0⟩) else
            if x.1.2.1 = 0 then .error .conv else
              (List.range x.1.2.1).mapM (threadC Ts c runs (x.1.2.2.tasks ++ x.1.1)
                (List.replicate x.1.2.2.tasks.length (Nat.log2 env.hw + 1) ++ List.replicate x.1.1.length (Nat.log2 env.hw))) >>= fun outs =>
              .ok (x.1.2.2.r ++ (outs.map Prod.fst).flatten, ⟨s.2.add x.2, outs.map Prod.snd,
                if 450000 < (x.1.2.2.r ++ (outs.map Prod.fst).flatten).length then x.1.2.1 else 0⟩)) := by
  rw [workBody]
  simp only [hw, if_false, true_and, hcut, if_true]
  refine bind_congr fun ⟨s, k⟩ => ?_
  dsimp only
  split
  · rfl
  refine bind_congr fun ⟨⟨rest, used, s'⟩, k'⟩ => ?_
  dsimp only
  split
  · rfl
  generalize threadC Ts c runs (s'.tasks ++ rest)
    (List.replicate s'.tasks.length (Nat.log2 env.hw + 1) ++ List.replicate rest.length (Nat.log2 env.hw)) = f
  have e := parallelFor_section env.sched1 used (fun t => f t >>= fun x => pure x.1)
  simp only [bind_assoc, pure_bind] at e
  refine (congrArg (· >>= _) e).trans ?_
  by_cases hu : used = 0
  · rw [if_pos hu, if_pos hu]; rfl
  rw [if_neg hu, if_neg hu]
  cases hf : (List.range used).mapM (fun t => f t >>= fun x => pure x.1) with
  | error e =>
    cases hf' : (List.range used).mapM f with
    | ok xs => rw [(mapM_fst _ _ hf').1] at hf; cases hf
    | error e' =>
      have : ∀ (l : List Nat) (e e' : UB), l.mapM (fun t => f t >>= fun x => pure x.1) = .error e → l.mapM f = .error e' → e = e' := by
        intro l
        induction l with
        | nil => intro e e' h; cases h
        | cons a l ih =>
          intro e e' h h'
          rw [List.mapM_cons] at h h'
          cases ha : f a with
          | error z => rw [ha] at h h'; cases h; cases h'; rfl
          | ok x =>
            rw [ha] at h h'
            simp only [R_bind_ok, pure_bind] at h h'
            cases hl : l.mapM f with
            | ok xs => rw [hl] at h'; cases h'
            | error z =>
              rw [hl] at h'
              cases h'
              cases hl' : l.mapM (fun t => f t >>= fun x => pure x.1) with
              | ok ys => rw [hl'] at h; cases h
              | error z' =>
                rw [hl'] at h
                cases h
                exact ih _ _ hl' hl
      rw [this _ _ _ hf hf']
      rfl
  | ok outs =>
    obtain ⟨xs, hxs⟩ := mapM_fst_conv _ _ hf
    obtain ⟨h1, h2⟩ := mapM_fst _ _ hxs
    rw [hf] at h1
    cases h1
    have hl := mapM_length _ _ hxs
    rw [List.length_range] at hl
    have hg := gatherW_ok (sched := env.sched2) (inter := s'.r) (results := xs.map Prod.fst) (by
      intro h; rw [List.map_eq_nil_iff] at h; subst h; exact hu hl.symm)
    rw [List.length_map, hl] at hg
    rw [hxs, R_bind_ok, hg, R_bind_ok]
    simp only [R_bind_ok]
    rw [show (fun t => (f t >>= fun x => match x with | (_, k) => pure k : R Cost)) = fun t => f t >>= fun x => pure x.2 from rfl, h2]
    rfl

theorem workBody_seq (Ts : List Nav) (c : CfgC) (height : Nat) (runs par : Bool) (env : Env) (hw : env.hw ≠ 0)
    (hcut : ¬ (par = true ∧ Nat.log2 env.hw ≤ (height + 2 ^ 64 - 2) % 2 ^ 64)) :
    workBody Ts c height runs par env =
      ((if runs then runsANDc Ts c c.cfg.stop 0 (List.replicate 16 (some 0)) (List.replicate 16 true) 0 []
        else ANDc Ts c c.cfg.stop 0 (List.replicate 16 (some 0)) 0 []) >>= fun x => .ok (x.1, ⟨x.2, [], 0⟩)) := by
  rw [workBody]
  simp only [hw, if_false, hcut]
  cases runs <;> rfl

/-- Adding up all counters gives those of `costBody`. -/
theorem workBody_map (Ts : List Nav) (c : CfgC) (height : Nat) (runs par : Bool) (env : Env) :
    (workBody Ts c height runs par env).map (fun x => (x.1, x.2.alone.add (x.2.threads.foldr Cost.add .zero))) =
      costBody Ts c height runs par env := by
  by_cases hw : env.hw = 0
  · simp only [workBody, costBody, hw, if_true]
    rfl
  by_cases hcut : par = true ∧ Nat.log2 env.hw ≤ (height + 2 ^ 64 - 2) % 2 ^ 64
  · rw [workBody, costBody]
    generalize List.replicate 16 (some 0) = ro at *
    generalize Nat.log2 env.hw = cut at *
    simp only [hw, hcut, if_false, and_self, if_true]
    rw [R_map_bind]
    refine R_bind_congr _ fun ⟨s, k⟩ hs => ?_
    dsimp only
    by_cases h0 : s.tasks.length = 0
    · rw [if_pos h0, if_pos h0]
      rfl
    rw [if_neg h0, if_neg h0, R_map_bind]
    refine R_bind_congr _ fun ⟨⟨rest, used, s'⟩, k'⟩ hf => ?_
    dsimp only
    by_cases hz : (s'.tasks ++ rest).length = 0
    · rw [if_pos hz, if_pos hz]
      rfl
    rw [if_neg hz, if_neg hz, R_map_bind]
    refine R_bind_congr _ fun results _ => ?_
    rw [R_map_bind, ← gatherW_map, R_bind_map]
    refine R_bind_congr _ fun ⟨r, w⟩ _ => ?_
    dsimp only
    rw [R_map_bind]
    rfl
  · rw [workBody_seq _ _ _ _ _ _ hw hcut, costBody]
    simp only [hw, hcut, if_false]
    rw [R_map_bind]
    cases runs
    · simp only [Bool.false_eq_true, if_false]
      cases ANDc Ts c c.cfg.stop 0 (List.replicate 16 (some 0)) 0 [] <;> rfl
    · simp only [if_true]
      cases runsANDc Ts c c.cfg.stop 0 (List.replicate 16 (some 0)) (List.replicate 16 true) 0 [] <;> rfl

theorem workIntersect_map (Ts : List Nav) (runs par : Bool) (env : Env) :
    (workIntersect Ts runs par env).map (fun x => (x.1, x.2.alone.add (x.2.threads.foldr Cost.add .zero))) =
      costIntersect Ts runs par env := by
  cases Ts with
  | nil => rfl
  | cons T Ts =>
    rw [workIntersect, costIntersect]
    split
    · rfl
    · exact workBody_map _ _ _ _ _ _

theorem workFastIntersect_map (lg : Nat) (Ts : List FNav) (runs par : Bool) (env : Env) :
    (workFastIntersect lg Ts runs par env).map (fun x => (x.1, x.2.alone.add (x.2.threads.foldr Cost.add .zero))) =
      costFastIntersect lg Ts runs par env := by
  cases Ts with
  | nil => rfl
  | cons T Ts =>
    rw [workFastIntersect, costFastIntersect]
    split
    · rfl
    · split
      · rfl
      · exact workBody_map _ _ _ _ _ _

/-! ## What a call reads at most, in any state -/

theorem map_pair_snd {β : Type} {x : R β} {K k : Cost} {y : β} (h : x.map (fun a => (a, K)) = .ok (y, k)) : k = K := by
  cases x with
  | error e => cases h
  | ok a => cases h; rfl

theorem andNodesC_le {Ts : List Nav} {os : List (Option Nat)} {ℓ res x : Nat} {k : Cost} (h : andNodesC Ts os ℓ res = .ok (x, k)) :
    CostLe k ⟨Ts.length, 0, 0⟩ := by
  rw [andNodesC_eq] at h
  rw [map_pair_snd h]
  exact .refl _

theorem childrenC_le {get : Nav → Nat → Nat → R Nat} {skip : Bool} {ℓ : Nat} {Ts : List Nav} {os ln : List (Option Nat)} {k : Cost}
    (h : childrenC get skip ℓ Ts os = .ok (ln, k)) : CostLe k ⟨0, Ts.length, 0⟩ := by
  rw [childrenC_eq] at h
  rw [map_pair_snd h]
  refine ⟨Nat.le_refl _, ?_, Nat.le_refl _⟩
  dsimp only
  split <;> omega

theorem count_take_le (as : List Bool) (n : Nat) : (as.take n).count true ≤ n :=
  Nat.le_trans List.count_le_length (List.length_take_le _ _)

theorem runsNodesC_le {Ts : List Nav} {os : List (Option Nat)} {as : List Bool} {ℓ an orr : Nat} {x : List Bool × Nat × Nat} {k : Cost}
    (h : runsNodesC Ts os as ℓ an orr = .ok (x, k)) : CostLe k ⟨Ts.length, 0, 0⟩ := by
  rw [runsNodesC_eq] at h
  rw [map_pair_snd h]
  exact ⟨count_take_le _ _, Nat.le_refl _, Nat.le_refl _⟩

theorem childrenActiveC_le {get : Nav → Nat → Nat → R Nat} {skip : Bool} {ℓ : Nat} {Ts : List Nav} {os ln : List (Option Nat)} {as : List Bool}
    {k : Cost} (h : childrenActiveC get skip ℓ Ts os as = .ok (ln, k)) : CostLe k ⟨0, Ts.length, 0⟩ := by
  rw [childrenActiveC_eq] at h
  rw [map_pair_snd h]
  refine ⟨Nat.le_refl _, ?_, Nat.le_refl _⟩
  dsimp only
  split
  · omega
  · exact count_take_le _ _

theorem partialNodesC_le (runs : Bool) : (Ts : List Nav) → (os : List (Option Nat)) → (as : List Bool) → (ℓ res n00 : Nat) →
    (x : List Bool × Nat × Nat) → (k : Cost) → partialNodesC runs Ts os as ℓ res n00 = .ok (x, k) → CostLe k ⟨Ts.length, 0, 0⟩
  | [], _, _, _, _, _, x, k, h => by
    rw [partialNodesC] at h
    cases h
    exact ⟨Nat.zero_le _, Nat.zero_le _, Nat.zero_le _⟩
  | _ :: _, [], _, _, _, _, x, k, h => by
    rw [partialNodesC] at h
    cases h
  | T :: Ts, o :: os, as, ℓ, res, n00, x, k, h => by
    have step : ∀ {k' : Cost}, CostLe k' ⟨Ts.length, 0, 0⟩ → CostLe (Cost.node.add k') ⟨(T :: Ts).length, 0, 0⟩ := by
      intro k' ⟨h1, h2, h3⟩
      simp only [CostLe, Cost.add, Cost.node, List.length_cons] at *
      omega
    cases runs with
    | false =>
      rw [partialNodesC_eq] at h
      rw [map_pair_snd h]
      exact .refl _
    | true =>
      unfold partialNodesC at h
      simp only [if_true] at h
      cases as with
      | nil => cases h
      | cons a as =>
        cases a with
        | true =>
          simp only [if_true] at h
          obtain ⟨id, -, h⟩ := bind_ok h
          obtain ⟨node, -, h⟩ := bind_ok h
          obtain ⟨⟨⟨tmp, r, m⟩, k'⟩, h1, h⟩ := bind_ok h
          cases h
          exact step (partialNodesC_le true Ts os as _ _ _ _ _ h1)
        | false =>
          simp only [Bool.false_eq_true, if_false] at h
          obtain ⟨⟨⟨tmp, r, m⟩, k'⟩, h1, h⟩ := bind_ok h
          cases h
          obtain ⟨g1, g2, g3⟩ := partialNodesC_le true Ts os as _ _ _ _ _ h1
          exact ⟨Nat.le_succ_of_le g1, g2, g3⟩

/-- At most `n` nodes and moves in each of the nodes of a binary tree of depth `rem`, and `w` words in each of its leaves. -/
def depthCost (n w rem : Nat) : Cost := ⟨n * (2 ^ rem - 1), n * (2 ^ rem - 1), w * 2 ^ rem⟩

theorem depthCost_zero (n w : Nat) : depthCost n w 0 = ⟨0, 0, w⟩ := by simp [depthCost]

theorem depthCost_two {n w rem : Nat} {a b c d : Cost} (ha : CostLe a ⟨n, 0, 0⟩) (hb : CostLe b ⟨0, n, 0⟩) (hc : CostLe c (depthCost n w rem))
    (hd : CostLe d (depthCost n w rem)) : CostLe (((a.add b).add c).add d) (depthCost n w (rem + 1)) := by
  have hp : 0 < 2 ^ rem := Nat.two_pow_pos _
  have e : n * (2 ^ (rem + 1) - 1) = n + (n * (2 ^ rem - 1) + n * (2 ^ rem - 1)) := by
    obtain ⟨m, hm⟩ : ∃ m, 2 ^ rem = m + 1 := ⟨2 ^ rem - 1, by omega⟩
    rw [Nat.pow_succ, hm, show (m + 1) * 2 - 1 = 1 + (m + m) by omega, Nat.add_sub_cancel, Nat.mul_add, Nat.mul_add, Nat.mul_one]
  have e' : w * 2 ^ (rem + 1) = w * 2 ^ rem + w * 2 ^ rem := by rw [Nat.pow_succ]; ring
  obtain ⟨a1, a2, a3⟩ := ha
  obtain ⟨b1, b2, b3⟩ := hb
  obtain ⟨c1, c2, c3⟩ := hc
  obtain ⟨d1, d2, d3⟩ := hd
  simp only [CostLe, depthCost, Cost.add] at *
  rw [e, e']
  omega

theorem depthCost_one {n w rem : Nat} {a b c : Cost} (ha : CostLe a ⟨n, 0, 0⟩) (hb : CostLe b ⟨0, n, 0⟩) (hc : CostLe c (depthCost n w rem)) :
    CostLe ((a.add b).add c) (depthCost n w (rem + 1)) := by
  have := depthCost_two ha hb hc (d := .zero) ⟨Nat.zero_le _, Nat.zero_le _, Nat.zero_le _⟩
  rwa [Cost.add_zero] at this

theorem depthCost_none {n w rem : Nat} {a : Cost} (ha : CostLe a ⟨n, 0, 0⟩) : CostLe a (depthCost n w (rem + 1)) := by
  have := depthCost_one (w := w) (rem := rem) ha (b := .zero) (c := .zero) ⟨Nat.zero_le _, Nat.zero_le _, Nat.zero_le _⟩
    ⟨Nat.zero_le _, Nat.zero_le _, Nat.zero_le _⟩
  rwa [Cost.add_zero, Cost.add_zero] at this

/-- The end conditions read at most `w` words. -/
structure BaseLe (c : CfgC) (w : Nat) : Prop where
  base : ∀ os p r x k, c.base os p r = .ok (x, k) → CostLe k ⟨0, 0, w⟩
  runsBase : ∀ os as p r x k, c.runsBase os as p r = .ok (x, k) → CostLe k ⟨0, 0, w⟩

theorem flat_baseLe (h : Nat) : BaseLe (flatCfgC h) 0 :=
  ⟨fun _ _ _ _ _ h => by cases h; exact .refl _, fun _ _ _ _ _ _ h => by cases h; exact .refl _⟩

theorem fast_baseLe (lg : Nat) (Ts : List FNav) (h : Nat) : BaseLe (fastCfgC lg Ts h) Ts.length := by
  constructor
  · intro os p r x k h
    obtain ⟨⟨w, k'⟩, h1, h⟩ := bind_ok h
    obtain ⟨r', -, h⟩ := bind_ok h
    cases h
    rw [andWordsC_eq] at h1
    rw [map_pair_snd h1]
    exact .refl _
  · intro os as p r x k h
    obtain ⟨⟨w, k'⟩, h1, h⟩ := bind_ok h
    obtain ⟨r', -, h⟩ := bind_ok h
    cases h
    rw [andWordsActiveC_eq] at h1
    rw [map_pair_snd h1]
    exact ⟨Nat.le_refl _, Nat.le_refl _, count_take_le _ _⟩

theorem ANDc_le {Ts : List Nav} {c : CfgC} {w : Nat} (hb : BaseLe c w) : (rem ℓ : Nat) → (os : List (Option Nat)) → (p : Nat) → (r L : List Nat) →
    (k : Cost) → ANDc Ts c rem ℓ os p r = .ok (L, k) → CostLe k (depthCost Ts.length w rem)
  | 0, ℓ, os, p, r, L, k, h => by
    rw [ANDc] at h
    rw [depthCost_zero]
    exact hb.base _ _ _ _ _ h
  | rem + 1, ℓ, os, p, r, L, k, h => by
    rw [ANDc] at h
    obtain ⟨⟨res, k0⟩, h0, h⟩ := bind_ok h
    dsimp only at h
    have a0 := andNodesC_le h0
    split at h
    · cases h; exact depthCost_none a0
    split at h
    · obtain ⟨⟨ln, k1⟩, h1, h⟩ := bind_ok h
      obtain ⟨⟨r2, k2⟩, h2, h⟩ := bind_ok h
      cases h
      exact depthCost_one a0 (childrenC_le h1) (ANDc_le hb rem _ _ _ _ _ _ h2)
    split at h
    · obtain ⟨s, -, h⟩ := bind_ok h
      obtain ⟨⟨ln, k1⟩, h1, h⟩ := bind_ok h
      obtain ⟨⟨r2, k2⟩, h2, h⟩ := bind_ok h
      cases h
      exact depthCost_one a0 (childrenC_le h1) (ANDc_le hb rem _ _ _ _ _ _ h2)
    split at h
    · obtain ⟨s, -, h⟩ := bind_ok h
      obtain ⟨⟨ln, k1⟩, h1, h⟩ := bind_ok h
      obtain ⟨⟨r2, k2⟩, h2, h⟩ := bind_ok h
      obtain ⟨⟨r3, k3⟩, h3, h⟩ := bind_ok h
      cases h
      exact depthCost_two a0 (childrenC_le h1) (ANDc_le hb rem _ _ _ _ _ _ h2) (ANDc_le hb rem _ _ _ _ _ _ h3)
    · cases h; exact depthCost_none a0

theorem runsANDc_le {Ts : List Nav} {c : CfgC} {w : Nat} (hb : BaseLe c w) : (rem ℓ : Nat) → (os : List (Option Nat)) → (as : List Bool) →
    (p : Nat) → (r L : List Nat) → (k : Cost) → runsANDc Ts c rem ℓ os as p r = .ok (L, k) → CostLe k (depthCost Ts.length w rem)
  | 0, ℓ, os, as, p, r, L, k, h => by
    rw [runsANDc] at h
    rw [depthCost_zero]
    exact hb.runsBase _ _ _ _ _ _ h
  | rem + 1, ℓ, os, as, p, r, L, k, h => by
    rw [runsANDc] at h
    obtain ⟨⟨⟨tmp, an, orr⟩, k0⟩, h0, h⟩ := bind_ok h
    dsimp only at h
    have a0 := runsNodesC_le h0
    split at h
    · cases h; exact depthCost_none a0
    split at h
    · obtain ⟨x, -, h⟩ := bind_ok h
      cases h; exact depthCost_none a0
    split at h
    · obtain ⟨⟨ln, k1⟩, h1, h⟩ := bind_ok h
      obtain ⟨⟨r2, k2⟩, h2, h⟩ := bind_ok h
      cases h
      exact depthCost_one a0 (childrenActiveC_le h1) (runsANDc_le hb rem _ _ _ _ _ _ _ h2)
    split at h
    · obtain ⟨s, -, h⟩ := bind_ok h
      obtain ⟨⟨ln, k1⟩, h1, h⟩ := bind_ok h
      obtain ⟨⟨r2, k2⟩, h2, h⟩ := bind_ok h
      cases h
      exact depthCost_one a0 (childrenActiveC_le h1) (runsANDc_le hb rem _ _ _ _ _ _ _ h2)
    split at h
    · obtain ⟨s, -, h⟩ := bind_ok h
      obtain ⟨⟨ln, k1⟩, h1, h⟩ := bind_ok h
      obtain ⟨⟨r2, k2⟩, h2, h⟩ := bind_ok h
      obtain ⟨⟨r3, k3⟩, h3, h⟩ := bind_ok h
      cases h
      exact depthCost_two a0 (childrenActiveC_le h1) (runsANDc_le hb rem _ _ _ _ _ _ _ h2) (runsANDc_le hb rem _ _ _ _ _ _ _ h3)
    · cases h; exact depthCost_none a0

theorem partialANDc_le {Ts : List Nav} {c : Cfg} {runs : Bool} : (rem ℓ : Nat) → (os : List (Option Nat)) → (as : List Bool) →
    (p : Nat) → (s s' : PSt) → (k : Cost) → partialANDc Ts c runs rem ℓ os as p s = .ok (s', k) → CostLe k (depthCost Ts.length 0 rem)
  | 0, ℓ, os, as, p, s, s', k, h => by
    rw [partialANDc] at h
    split at h
    · cases h
    · cases h
      exact ⟨Nat.zero_le _, Nat.zero_le _, Nat.zero_le _⟩
  | rem + 1, ℓ, os, as, p, s, s', k, h => by
    rw [partialANDc] at h
    obtain ⟨⟨⟨tmp, an, orr⟩, k0⟩, h0, h⟩ := bind_ok h
    dsimp only at h
    have a0 := partialNodesC_le _ _ _ _ _ _ _ _ _ h0
    split at h
    · cases h; exact depthCost_none a0
    split at h
    · obtain ⟨x, -, h⟩ := bind_ok h
      cases h; exact depthCost_none a0
    split at h
    · obtain ⟨⟨ln, k1⟩, h1, h⟩ := bind_ok h
      obtain ⟨⟨r2, k2⟩, h2, h⟩ := bind_ok h
      cases h
      exact depthCost_one a0 (childrenC_le h1) (partialANDc_le rem _ _ _ _ _ _ _ h2)
    split at h
    · obtain ⟨s, -, h⟩ := bind_ok h
      obtain ⟨⟨ln, k1⟩, h1, h⟩ := bind_ok h
      obtain ⟨⟨r2, k2⟩, h2, h⟩ := bind_ok h
      cases h
      exact depthCost_one a0 (childrenC_le h1) (partialANDc_le rem _ _ _ _ _ _ _ h2)
    split at h
    · obtain ⟨s, -, h⟩ := bind_ok h
      obtain ⟨⟨ln, k1⟩, h1, h⟩ := bind_ok h
      obtain ⟨⟨r2, k2⟩, h2, h⟩ := bind_ok h
      obtain ⟨⟨r3, k3⟩, h3, h⟩ := bind_ok h
      cases h
      exact depthCost_two a0 (childrenC_le h1) (partialANDc_le rem _ _ _ _ _ _ _ h2) (partialANDc_le rem _ _ _ _ _ _ _ h3)
    · cases h; exact depthCost_none a0

theorem fillThreadsC_le {Ts : List Nav} {c : Cfg} {runs : Bool} {cut n total : Nat} : (todo : List Task) → (i used : Nat) → (s : PSt) →
    (x : List Task × Nat × PSt) → (k : Cost) → fillThreadsC Ts c runs cut n total todo i used s = .ok (x, k) →
    CostLe k ⟨todo.length * Ts.length, todo.length * Ts.length, 0⟩
  | [], i, used, s, x, k, h => by
    rw [fillThreadsC] at h
    cases h
    exact ⟨Nat.zero_le _, Nat.zero_le _, Nat.zero_le _⟩
  | T :: todo, i, used, s, x, k, h => by
    rw [fillThreadsC] at h
    split at h
    · obtain ⟨⟨s1, k1⟩, h1, h⟩ := bind_ok h
      obtain ⟨⟨y, k2⟩, h2, h⟩ := bind_ok h
      cases h
      obtain ⟨a1, a2, a3⟩ := partialANDc_le _ _ _ _ _ _ _ _ h1
      obtain ⟨b1, b2, b3⟩ := fillThreadsC_le todo _ _ _ _ _ h2
      simp [depthCost] at a1 a2 a3
      dsimp only at b1 b2 b3
      simp only [CostLe, Cost.add, List.length_cons, Nat.succ_mul]
      exact ⟨by omega, by omega, by omega⟩
    · cases h
      exact ⟨Nat.zero_le _, Nat.zero_le _, Nat.zero_le _⟩

theorem threadC_le {Ts : List Nav} {c : CfgC} {w : Nat} (hb : BaseLe c w) {runs : Bool} {next : List Task} {levels : List Nat} {cut t : Nat}
    (hlev : ∀ l ∈ levels, cut ≤ l) {L : List Nat} {k : Cost} (h : threadC Ts c runs next levels t = .ok (L, k)) :
    CostLe k (depthCost Ts.length w (c.cfg.stop - cut)) := by
  rw [threadC] at h
  obtain ⟨task, -, h⟩ := bind_ok h
  obtain ⟨level, hl, h⟩ := bind_ok h
  have hle : cut ≤ level := by
    rw [vGet] at hl
    split at hl
    · cases hl
      exact hlev _ (List.mem_of_getElem? ‹_›)
    · cases hl
  have hmono : CostLe (depthCost Ts.length w (c.cfg.stop - level)) (depthCost Ts.length w (c.cfg.stop - cut)) := by
    have hp : 2 ^ (c.cfg.stop - level) ≤ 2 ^ (c.cfg.stop - cut) := Nat.pow_le_pow_right (by decide) (by omega)
    exact ⟨Nat.mul_le_mul_left _ (by omega), Nat.mul_le_mul_left _ (by omega), Nat.mul_le_mul_left _ hp⟩
  cases runs with
  | true => exact (runsANDc_le hb _ _ _ _ _ _ _ _ h).trans hmono
  | false => exact (ANDc_le hb _ _ _ _ _ _ _ h).trans hmono

theorem mapM_mem {α β : Type} {f : α → R β} : (l : List α) → (ys : List β) → l.mapM f = .ok ys → ∀ y ∈ ys, ∃ a ∈ l, f a = .ok y
  | [], ys, h => by cases h; simp
  | a :: l, ys, h => by
    rw [List.mapM_cons] at h
    obtain ⟨x, hx, h⟩ := bind_ok h
    obtain ⟨zs, hzs, h⟩ := bind_ok h
    cases h
    intro y hy
    rcases List.mem_cons.1 hy with rfl | hy
    · exact ⟨a, List.mem_cons_self, hx⟩
    · obtain ⟨b, hb, e⟩ := mapM_mem l zs hzs y hy
      exact ⟨b, List.mem_cons_of_mem _ hb, e⟩

theorem partialC_plain {Ts : List Nav} {c : Cfg} {runs : Bool} {rem ℓ : Nat} {os : List (Option Nat)} {as : List Bool} {p : Nat} {s : PSt}
    {x : PSt × Cost} (h : partialANDc Ts c runs rem ℓ os as p s = .ok x) : partialAND Ts c runs rem ℓ os as p s = .ok x.1 := by
  rw [← partialANDc_fst, h]; rfl

theorem fillC_plain {Ts : List Nav} {c : Cfg} {runs : Bool} {cut n total i used : Nat} {todo : List Task} {s : PSt}
    {x : (List Task × Nat × PSt) × Cost} (h : fillThreadsC Ts c runs cut n total todo i used s = .ok x) :
    fillThreads Ts c runs cut n total todo i used s = .ok x.1 := by
  rw [← fillThreadsC_fst, h]; rfl

/-- What a successful call says about its threads. -/
structure WorkOk (n w stop height hw : Nat) (par : Bool) (L : List Nat) (W : Work) : Prop where
  le : W.threads.length ≤ 2 ^ Nat.log2 hw
  writers : W.writers = if 450000 < L.length then W.threads.length else 0
  alone : (par = true ∧ Nat.log2 hw ≤ (height + 2 ^ 64 - 2) % 2 ^ 64) →
    CostLe W.alone ⟨n * (2 ^ (Nat.log2 hw + 1) - 1), n * (2 ^ (Nat.log2 hw + 1) - 1), 0⟩
  seq : ¬ (par = true ∧ Nat.log2 hw ≤ (height + 2 ^ 64 - 2) % 2 ^ 64) → W.threads = []
  thread : ∀ k ∈ W.threads, CostLe k (depthCost n w (stop - Nat.log2 hw))

theorem workBody_ok {Ts : List Nav} {c : CfgC} {w : Nat} (hb : BaseLe c w) {height : Nat} {runs par : Bool} {env : Env}
    (hw : env.hw < 2 ^ 16) {L : List Nat} {W : Work} (h : workBody Ts c height runs par env = .ok (L, W)) :
    WorkOk Ts.length w c.cfg.stop height env.hw par L W := by
  by_cases h0 : env.hw = 0
  · simp only [workBody, h0, if_true] at h
    cases h
  by_cases hc : par = true ∧ Nat.log2 env.hw ≤ (height + 2 ^ 64 - 2) % 2 ^ 64
  · obtain ⟨rfl, hc⟩ := hc
    rw [workBody_section _ _ _ _ _ h0 hc] at h
    have hcut : Nat.log2 env.hw ≤ 15 := Nat.lt_succ_iff.1 ((Nat.log2_lt h0).2 hw)
    obtain ⟨⟨s, k⟩, h1, h⟩ := bind_ok h
    dsimp only at h
    have hcnt := partialAND_count _ _ _ _ _ _ _ _ _ _ (partialC_plain h1)
    simp only [List.length_nil, Nat.zero_add] at hcnt
    obtain ⟨a1, a2, a3⟩ := partialANDc_le _ _ _ _ _ _ _ _ h1
    have hp : 0 < 2 ^ Nat.log2 env.hw := Nat.two_pow_pos _
    have e : Ts.length * (2 ^ (Nat.log2 env.hw + 1) - 1) = Ts.length * (2 ^ Nat.log2 env.hw - 1) + Ts.length * 2 ^ Nat.log2 env.hw := by
      rw [← Nat.mul_add, Nat.pow_succ]
      congr 1
      omega
    simp only [depthCost] at a1 a2 a3
    have htl : (s.tasks.take (s.tasks.length % 2 ^ 16)).length * Ts.length ≤ Ts.length * 2 ^ Nat.log2 env.hw := by
      rw [Nat.mul_comm]
      refine Nat.mul_le_mul_left _ ?_
      rw [List.length_take]
      omega
    split at h
    · cases h
      refine ⟨Nat.zero_le _, by simp, fun _ => ?_, fun _ => rfl, by simp⟩
      simp only [CostLe]
      rw [e]
      exact ⟨by omega, by omega, by omega⟩
    obtain ⟨⟨⟨rest, used, s'⟩, k'⟩, h2, h⟩ := bind_ok h
    dsimp only at h
    obtain ⟨b1, b2, b3⟩ := fillThreadsC_le _ _ _ _ _ _ h2
    dsimp only at b1 b2 b3
    have hal : CostLe (k.add k') ⟨Ts.length * (2 ^ (Nat.log2 env.hw + 1) - 1), Ts.length * (2 ^ (Nat.log2 env.hw + 1) - 1), 0⟩ := by
      simp only [CostLe, Cost.add]
      rw [e]
      exact ⟨by omega, by omega, by omega⟩
    split at h
    · cases h
      exact ⟨Nat.zero_le _, by simp, fun _ => hal, fun _ => rfl, by simp⟩
    split at h
    · cases h
    obtain ⟨outs, h3, h⟩ := bind_ok h
    cases h
    have hlen := mapM_length _ _ h3
    rw [List.length_range] at hlen
    have hu := used_count hcut (partialC_plain h1) (fillC_plain h2)
    refine ⟨by rw [List.length_map, hlen]; exact hu, by rw [List.length_map, hlen], fun _ => hal, fun h => (h ⟨rfl, hc⟩).elim, ?_⟩
    · intro κ hκ
      obtain ⟨x, hx, rfl⟩ := List.mem_map.1 hκ
      obtain ⟨t, -, ht⟩ := mapM_mem _ _ h3 x hx
      refine threadC_le hb (cut := Nat.log2 env.hw) ?_ ht
      intro l hl
      rcases List.mem_append.1 hl with hl | hl
      · rw [List.eq_of_mem_replicate hl]; omega
      · rw [List.eq_of_mem_replicate hl]
  · rw [workBody_seq _ _ _ _ _ _ h0 hc] at h
    obtain ⟨x, -, h⟩ := bind_ok h
    cases h
    exact ⟨Nat.zero_le _, by simp, fun h => (hc h).elim, fun _ => rfl, by simp⟩

end CBT
