import Verif.Model.Cost
import Verif.Proof.MemoryBody
import Verif.Proof.Threads

/-!
# Without the counters, the functions of `Model/Cost.lean` are those of `Model/Intersect.lean`
-/

namespace CBT

theorem andNodesC_fst : (Ts : List Nav) → (os : List (Option Nat)) → (ℓ res : Nat) → (andNodesC Ts os ℓ res).map Prod.fst = andNodes Ts os ℓ res
  | [], _, _, _ => rfl
  | _ :: _, [], _, _ => rfl
  | T :: Ts, o :: os, ℓ, res => by
    rw [andNodesC, andNodes, R_map_bind]
    refine R_bind_congr _ fun id _ => ?_
    rw [R_map_bind]
    refine R_bind_congr _ fun node _ => ?_
    rw [R_map_bind, ← andNodesC_fst Ts os ℓ (res &&& node)]
    cases andNodesC Ts os ℓ (res &&& node) <;> rfl

theorem childrenC_fst (get : Nav → Nat → Nat → R Nat) (skip : Bool) (ℓ : Nat) : (Ts : List Nav) → (os : List (Option Nat)) →
    (childrenC get skip ℓ Ts os).map Prod.fst = children get skip ℓ Ts os
  | [], _ => rfl
  | _ :: _, [] => rfl
  | T :: Ts, o :: os => by
    rw [childrenC, children, ← childrenC_fst get skip ℓ Ts os]
    cases skip with
    | true => cases childrenC get true ℓ Ts os <;> rfl
    | false =>
      cases readRoot o with
      | error _ => rfl
      | ok id =>
        simp only [Bool.false_eq_true, if_false, R_bind_ok]
        cases get T id ℓ with
        | error _ => rfl
        | ok c => cases childrenC get false ℓ Ts os <;> rfl

theorem childrenActiveC_fst (get : Nav → Nat → Nat → R Nat) (skip : Bool) (ℓ : Nat) : (Ts : List Nav) → (os : List (Option Nat)) →
    (as : List Bool) → (childrenActiveC get skip ℓ Ts os as).map Prod.fst = childrenActive get skip ℓ Ts os as
  | [], _, _ => rfl
  | _ :: _, [], _ => rfl
  | _ :: _, _ :: _, [] => rfl
  | T :: Ts, o :: os, a :: as => by
    rw [childrenActiveC, childrenActive, ← childrenActiveC_fst get skip ℓ Ts os as]
    cases h : a && !skip with
    | false => cases childrenActiveC get skip ℓ Ts os as <;> rfl
    | true =>
      cases readRoot o with
      | error _ => rfl
      | ok id =>
        simp only [if_true, R_bind_ok]
        cases get T id ℓ with
        | error _ => rfl
        | ok c => cases childrenActiveC get skip ℓ Ts os as <;> rfl

theorem andWordsC_fst : (Ts : List FNav) → (os : List (Option Nat)) → (w : Nat) → (andWordsC Ts os w).map Prod.fst = andWords Ts os w
  | [], _, _ => rfl
  | _ :: _, [], _ => rfl
  | T :: Ts, o :: os, w => by
    rw [andWordsC, andWords, R_map_bind]
    refine R_bind_congr _ fun id _ => ?_
    rw [R_map_bind]
    refine R_bind_congr _ fun x _ => ?_
    rw [R_map_bind, ← andWordsC_fst Ts os (w &&& x)]
    cases andWordsC Ts os (w &&& x) <;> rfl

theorem andWordsActiveC_fst : (Ts : List FNav) → (os : List (Option Nat)) → (as : List Bool) → (w : Nat) →
    (andWordsActiveC Ts os as w).map Prod.fst = andWordsActive Ts os as w
  | [], _, _, _ => rfl
  | _ :: _, [], _, _ => rfl
  | _ :: _, _ :: _, [], _ => rfl
  | T :: Ts, o :: os, a :: as, w => by
    rw [andWordsActiveC, andWordsActive]
    cases a with
    | false => exact andWordsActiveC_fst Ts os as w
    | true =>
      simp only [if_true]
      rw [R_map_bind]
      refine R_bind_congr _ fun id _ => ?_
      rw [R_map_bind]
      refine R_bind_congr _ fun x _ => ?_
      rw [R_map_bind, ← andWordsActiveC_fst Ts os as (w &&& x)]
      cases andWordsActiveC Ts os as (w &&& x) <;> rfl

theorem runsNodesC_fst : (Ts : List Nav) → (os : List (Option Nat)) → (as : List Bool) → (ℓ an orr : Nat) →
    (runsNodesC Ts os as ℓ an orr).map Prod.fst = runsNodes Ts os as ℓ an orr
  | [], _, _, _, _, _ => rfl
  | _ :: _, [], _, _, _, _ => rfl
  | _ :: _, _ :: _, [], _, _, _ => rfl
  | T :: Ts, o :: os, a :: as, ℓ, an, orr => by
    rw [runsNodesC, runsNodes]
    cases a with
    | false =>
      simp only [Bool.false_eq_true, if_false]
      rw [R_map_bind, ← runsNodesC_fst Ts os as ℓ an orr]
      cases runsNodesC Ts os as ℓ an orr <;> rfl
    | true =>
      simp only [if_true]
      rw [R_map_bind]
      refine R_bind_congr _ fun id _ => ?_
      rw [R_map_bind]
      refine R_bind_congr _ fun node _ => ?_
      rw [ite_map]
      refine if_congr Iff.rfl ?_ ?_
      · rw [R_map_bind, ← runsNodesC_fst Ts os as ℓ (an &&& node) (orr ||| node)]
        cases runsNodesC Ts os as ℓ (an &&& node) (orr ||| node) <;> rfl
      · rw [R_map_bind, ← runsNodesC_fst Ts os as ℓ an (orr ||| node)]
        cases runsNodesC Ts os as ℓ an (orr ||| node) <;> rfl

theorem partialNodesC_fst (runs : Bool) : (Ts : List Nav) → (os : List (Option Nat)) → (as : List Bool) → (ℓ res n00 : Nat) →
    (partialNodesC runs Ts os as ℓ res n00).map Prod.fst = partialNodes runs Ts os as ℓ res n00
  | [], _, _, _, _, _ => rfl
  | _ :: _, [], _, _, _, _ => rfl
  | T :: Ts, o :: os, as, ℓ, res, n00 => by
    unfold partialNodesC partialNodes
    cases runs with
    | false =>
      simp only [Bool.false_eq_true, if_false]
      rw [R_map_bind]
      refine R_bind_congr _ fun id _ => ?_
      rw [R_map_bind]
      refine R_bind_congr _ fun node _ => ?_
      rw [R_map_bind, ← partialNodesC_fst false Ts os as ℓ (res &&& node) n00]
      cases partialNodesC false Ts os as ℓ (res &&& node) n00 <;> rfl
    | true =>
      simp only [if_true]
      cases as with
      | nil => rfl
      | cons a as =>
        cases a with
        | false =>
          simp only [Bool.false_eq_true, if_false]
          rw [R_map_bind, ← partialNodesC_fst true Ts os as ℓ res n00]
          cases partialNodesC true Ts os as ℓ res n00 <;> rfl
        | true =>
          simp only [if_true]
          rw [R_map_bind]
          refine R_bind_congr _ fun id _ => ?_
          rw [R_map_bind]
          refine R_bind_congr _ fun node _ => ?_
          rw [R_map_bind, ← partialNodesC_fst true Ts os as ℓ _ (n00 ||| node)]
          rw [R_bind_map]
          rfl

/-- The counters of the end condition. -/
structure CfgC.Erases (c : CfgC) : Prop where
  base : ∀ os pref r, (c.base os pref r).map Prod.fst = c.cfg.base os pref r
  runsBase : ∀ os as pref r, (c.runsBase os as pref r).map Prod.fst = c.cfg.runsBase os as pref r

theorem flatCfgC_erases (h : Nat) : (flatCfgC h).Erases := ⟨fun _ _ _ => rfl, fun _ _ _ _ => rfl⟩

theorem fastCfgC_erases (lg : Nat) (Ts : List FNav) (h : Nat) : (fastCfgC lg Ts h).Erases := by
  constructor
  · intro os pref r
    simp only [fastCfgC, fastCfg]
    rw [R_map_bind, ← andWordsC_fst, R_bind_map]
    refine R_bind_congr _ fun x _ => ?_
    rw [R_map_bind]
    cases emitWord lg pref (2 ^ lg) x.1 r <;> rfl
  · intro os as pref r
    simp only [fastCfgC, fastCfg]
    rw [R_map_bind, ← andWordsActiveC_fst, R_bind_map]
    refine R_bind_congr _ fun x _ => ?_
    rw [R_map_bind]
    cases emitWord lg pref (2 ^ lg) x.1 r <;> rfl

/-- Counting after a call does not change its result. -/
theorem map_then {A : Type} (x : R (A × Cost)) (k : Cost) :
    (x >>= fun y => (Except.ok (y.1, k.add y.2) : R (A × Cost))).map Prod.fst = x.map Prod.fst := by cases x <;> rfl

theorem ANDc_fst (Ts : List Nav) {c : CfgC} (hc : c.Erases) : (rem ℓ : Nat) → (os : List (Option Nat)) → (pref : Nat) → (r : List Nat) →
    (ANDc Ts c rem ℓ os pref r).map Prod.fst = AND Ts c.cfg rem ℓ os pref r
  | 0, _, os, pref, r => hc.base os pref r
  | rem + 1, ℓ, os, pref, r => by
    rw [ANDc, AND, R_map_bind, ← andNodesC_fst, R_bind_map]
    refine R_bind_congr _ fun x _ => ?_
    obtain ⟨res, k⟩ := x
    simp only
    rw [ite_map, ite_map, ite_map, ite_map]
    refine if_congr Iff.rfl rfl (if_congr Iff.rfl ?_ (if_congr Iff.rfl ?_ (if_congr Iff.rfl ?_ rfl)))
    · rw [R_map_bind, ← childrenC_fst, R_bind_map]
      refine R_bind_congr _ fun x _ => ?_
      obtain ⟨ln, k1⟩ := x
      simp only
      rw [map_then, ANDc_fst Ts hc]
    · rw [R_map_bind]
      refine R_bind_congr _ fun s _ => ?_
      rw [R_map_bind, ← childrenC_fst, R_bind_map]
      refine R_bind_congr _ fun x _ => ?_
      obtain ⟨ln, k1⟩ := x
      simp only
      rw [map_then, ANDc_fst Ts hc]
    · rw [R_map_bind]
      refine R_bind_congr _ fun s _ => ?_
      rw [R_map_bind, ← childrenC_fst, R_bind_map]
      refine R_bind_congr _ fun x _ => ?_
      obtain ⟨ln, k1⟩ := x
      simp only
      rw [R_map_bind, ← ANDc_fst Ts hc rem, R_bind_map]
      refine R_bind_congr _ fun x _ => ?_
      rw [map_then, ANDc_fst Ts hc]

theorem runsANDc_fst (Ts : List Nav) {c : CfgC} (hc : c.Erases) : (rem ℓ : Nat) → (os : List (Option Nat)) → (as : List Bool) →
    (pref : Nat) → (r : List Nat) → (runsANDc Ts c rem ℓ os as pref r).map Prod.fst = runsAND Ts c.cfg rem ℓ os as pref r
  | 0, _, os, as, pref, r => hc.runsBase os as pref r
  | rem + 1, ℓ, os, as, pref, r => by
    rw [runsANDc, runsAND, R_map_bind, ← runsNodesC_fst, R_bind_map]
    refine R_bind_congr _ fun x _ => ?_
    obtain ⟨⟨tmp, an, orr⟩, k⟩ := x
    simp only
    rw [ite_map, ite_map, ite_map, ite_map, ite_map]
    refine if_congr Iff.rfl rfl (if_congr Iff.rfl ?_ (if_congr Iff.rfl ?_ (if_congr Iff.rfl ?_ (if_congr Iff.rfl ?_ rfl))))
    · cases fillRange pref (c.cfg.top - ℓ) r <;> rfl
    · rw [R_map_bind, ← childrenActiveC_fst, R_bind_map]
      refine R_bind_congr _ fun x _ => ?_
      obtain ⟨ln, k1⟩ := x
      simp only
      rw [map_then, runsANDc_fst Ts hc]
    · rw [R_map_bind]
      refine R_bind_congr _ fun s _ => ?_
      rw [R_map_bind, ← childrenActiveC_fst, R_bind_map]
      refine R_bind_congr _ fun x _ => ?_
      obtain ⟨ln, k1⟩ := x
      simp only
      rw [map_then, runsANDc_fst Ts hc]
    · rw [R_map_bind]
      refine R_bind_congr _ fun s _ => ?_
      rw [R_map_bind, ← childrenActiveC_fst, R_bind_map]
      refine R_bind_congr _ fun x _ => ?_
      obtain ⟨ln, k1⟩ := x
      simp only
      rw [R_map_bind, ← runsANDc_fst Ts hc rem, R_bind_map]
      refine R_bind_congr _ fun x _ => ?_
      rw [map_then, runsANDc_fst Ts hc]

theorem partialANDc_fst (Ts : List Nav) (c : Cfg) (runs : Bool) : (rem ℓ : Nat) → (os : List (Option Nat)) → (as : List Bool) →
    (part : Nat) → (s : PSt) → (partialANDc Ts c runs rem ℓ os as part s).map Prod.fst = partialAND Ts c runs rem ℓ os as part s
  | 0, _, os, as, part, s => by
    rw [partialANDc, partialAND, ite_map]
    rfl
  | rem + 1, ℓ, os, as, part, s => by
    rw [partialANDc, partialAND, R_map_bind, ← partialNodesC_fst, R_bind_map]
    refine R_bind_congr _ fun x _ => ?_
    obtain ⟨⟨tmp, res, n00⟩, k⟩ := x
    simp only
    rw [ite_map, ite_map, ite_map, ite_map, ite_map]
    refine if_congr Iff.rfl rfl (if_congr Iff.rfl ?_ (if_congr Iff.rfl ?_ (if_congr Iff.rfl ?_ (if_congr Iff.rfl ?_ rfl))))
    · cases fillRange part (c.top - ℓ) s.r <;> rfl
    · rw [R_map_bind, ← childrenC_fst, R_bind_map]
      refine R_bind_congr _ fun x _ => ?_
      obtain ⟨ln, k1⟩ := x
      simp only
      rw [map_then, partialANDc_fst Ts c runs]
    · rw [R_map_bind]
      refine R_bind_congr _ fun s _ => ?_
      rw [R_map_bind, ← childrenC_fst, R_bind_map]
      refine R_bind_congr _ fun x _ => ?_
      obtain ⟨ln, k1⟩ := x
      simp only
      rw [map_then, partialANDc_fst Ts c runs]
    · rw [R_map_bind]
      refine R_bind_congr _ fun s _ => ?_
      rw [R_map_bind, ← childrenC_fst, R_bind_map]
      refine R_bind_congr _ fun x _ => ?_
      obtain ⟨ln, k1⟩ := x
      simp only
      rw [R_map_bind, ← partialANDc_fst Ts c runs rem, R_bind_map]
      refine R_bind_congr _ fun x _ => ?_
      rw [map_then, partialANDc_fst Ts c runs]

theorem fillThreadsC_fst (Ts : List Nav) (c : Cfg) (runs : Bool) (cut n total : Nat) : (todo : List Task) → (i used : Nat) → (s : PSt) →
    (fillThreadsC Ts c runs cut n total todo i used s).map Prod.fst = fillThreads Ts c runs cut n total todo i used s
  | [], _, _, _ => rfl
  | t :: todo, i, used, s => by
    rw [fillThreadsC, fillThreads, ite_map]
    refine if_congr Iff.rfl ?_ rfl
    rw [R_map_bind, ← partialANDc_fst, R_bind_map]
    refine R_bind_congr _ fun x _ => ?_
    obtain ⟨s, k⟩ := x
    simp only
    rw [map_then, fillThreadsC_fst Ts c runs cut n total]

theorem threadC_fst (Ts : List Nav) {c : CfgC} (hc : c.Erases) (runs : Bool) (next : List Task) (levels : List Nat) (t : Nat) :
    (threadC Ts c runs next levels t >>= fun x => (pure (x.1.map fun y => (t, y)) : R (List (Nat × Nat)))) = (do
      let task ← vGet next t
      let level ← vGet levels t
      let out ← if runs then runsAND Ts c.cfg (c.cfg.stop - level) level task.roots task.active task.part []
                else AND Ts c.cfg (c.cfg.stop - level) level task.roots task.part []
      pure (out.map fun x => (t, x)) : R (List (Nat × Nat))) := by
  rw [threadC, bind_assoc]
  refine R_bind_congr _ fun task _ => ?_
  rw [bind_assoc]
  refine R_bind_congr _ fun level _ => ?_
  cases runs with
  | true =>
    simp only [if_true]
    rw [← runsANDc_fst Ts hc, R_bind_map]
  | false =>
    simp only [Bool.false_eq_true, if_false]
    rw [← ANDc_fst Ts hc, R_bind_map]

/-- Counting changes nothing. -/
theorem costBody_map (Ts : List Nav) {c : CfgC} (hcc : c.Erases) (height : Nat) (runs parallel : Bool) (env : Env) :
    (costBody Ts c height runs parallel env).map Prod.fst = intersectBody Ts c.cfg height runs parallel env := by
  by_cases hw : env.hw = 0
  · simp only [costBody, intersectBody, hw, if_true]
    rfl
  by_cases hc : parallel = true ∧ Nat.log2 env.hw ≤ (height + 2 ^ 64 - 2) % 2 ^ 64
  · rw [costBody, intersectBody]
    generalize List.replicate 16 (some 0) = ro at *
    generalize Nat.log2 env.hw = cut at *
    simp only [hw, hc, if_false, and_self, if_true]
    rw [R_map_bind, ← partialANDc_fst, R_bind_map]
    refine R_bind_congr _ fun ⟨s, k⟩ hs => ?_
    dsimp only
    by_cases h0 : s.tasks.length = 0
    · rw [if_pos h0, if_pos h0]
      rfl
    rw [if_neg h0, if_neg h0]
    rw [R_map_bind, ← fillThreadsC_fst, R_bind_map]
    refine R_bind_congr _ fun ⟨⟨rest, used, s'⟩, k'⟩ hf => ?_
    dsimp only
    by_cases hz : (s'.tasks ++ rest).length = 0
    · rw [if_pos hz, if_pos hz]
      rfl
    rw [if_neg hz, if_neg hz]
    simp only [← threadC_fst Ts hcc runs (s'.tasks ++ rest) (List.replicate s'.tasks.length (cut + 1) ++ List.replicate rest.length cut)]
    rw [R_map_bind]
    refine R_bind_congr _ fun results hr => ?_
    rw [R_map_bind]
    cases hg : gather env.sched2 s'.r results used with
    | error _ => rfl
    | ok r =>
      have hok := parallelFor_body_ok hr
      rw [R_bind_ok, mapM_ok (g := fun t => match threadC Ts c runs (s'.tasks ++ rest)
        (List.replicate s'.tasks.length (cut + 1) ++ List.replicate rest.length cut) t with | .ok x => x.2 | .error _ => .zero)]
      · rfl
      · intro t ht
        obtain ⟨b, hb⟩ := hok t (List.mem_range.1 ht)
        obtain ⟨x, hx, _⟩ := bind_ok hb
        rw [hx]
        rfl
  · simp only [costBody, intersectBody, hw, hc, if_false]
    cases runs
    · exact ANDc_fst Ts hcc _ _ _ _ _
    · exact runsANDc_fst Ts hcc _ _ _ _ _ _

/-! ## Loops -/

theorem andNodesC_eq : (Ts : List Nav) → (os : List (Option Nat)) → (ℓ res : Nat) →
    andNodesC Ts os ℓ res = (andNodes Ts os ℓ res).map fun x => (x, ⟨Ts.length, 0, 0⟩)
  | [], _, _, _ => rfl
  | _ :: _, [], _, _ => rfl
  | T :: Ts, o :: os, ℓ, res => by
    rw [andNodesC, andNodes, R_map_bind]
    refine R_bind_congr _ fun id _ => ?_
    rw [R_map_bind]
    refine R_bind_congr _ fun node _ => ?_
    rw [andNodesC_eq Ts os ℓ (res &&& node)]
    cases andNodes Ts os ℓ (res &&& node) with
    | error _ => rfl
    | ok x => simp [Except.map, bind, Except.bind, Cost.add, Cost.node, Nat.add_comm]

theorem childrenC_eq (get : Nav → Nat → Nat → R Nat) (skip : Bool) (ℓ : Nat) : (Ts : List Nav) → (os : List (Option Nat)) →
    childrenC get skip ℓ Ts os = (children get skip ℓ Ts os).map fun x => (x, ⟨0, if skip then 0 else Ts.length, 0⟩)
  | [], _ => by cases skip <;> rfl
  | _ :: _, [] => rfl
  | T :: Ts, o :: os => by
    rw [childrenC, children, childrenC_eq get skip ℓ Ts os]
    cases skip with
    | true => cases children get true ℓ Ts os <;> rfl
    | false =>
      cases readRoot o with
      | error _ => rfl
      | ok id =>
        simp only [Bool.false_eq_true, if_false, R_bind_ok]
        cases get T id ℓ with
        | error _ => rfl
        | ok c =>
          cases children get false ℓ Ts os with
          | error _ => rfl
          | ok x => simp [Except.map, bind, Except.bind, pure, Except.pure, Cost.add, Cost.move, Nat.add_comm]

theorem andWordsC_eq : (Ts : List FNav) → (os : List (Option Nat)) → (w : Nat) →
    andWordsC Ts os w = (andWords Ts os w).map fun x => (x, ⟨0, 0, Ts.length⟩)
  | [], _, _ => rfl
  | _ :: _, [], _ => rfl
  | T :: Ts, o :: os, w => by
    rw [andWordsC, andWords, R_map_bind]
    refine R_bind_congr _ fun id _ => ?_
    rw [R_map_bind]
    refine R_bind_congr _ fun x _ => ?_
    rw [andWordsC_eq Ts os (w &&& x)]
    cases andWords Ts os (w &&& x) with
    | error _ => rfl
    | ok x => simp [Except.map, bind, Except.bind, Cost.add, Cost.word, Nat.add_comm]

theorem partialNodesC_eq : (Ts : List Nav) → (os : List (Option Nat)) → (as : List Bool) → (ℓ res n00 : Nat) →
    partialNodesC false Ts os as ℓ res n00 = (partialNodes false Ts os as ℓ res n00).map fun x => (x, ⟨Ts.length, 0, 0⟩)
  | [], _, _, _, _, _ => rfl
  | _ :: _, [], _, _, _, _ => rfl
  | T :: Ts, o :: os, as, ℓ, res, n00 => by
    unfold partialNodesC partialNodes
    simp only [Bool.false_eq_true, if_false]
    rw [R_map_bind]
    refine R_bind_congr _ fun id _ => ?_
    rw [R_map_bind]
    refine R_bind_congr _ fun node _ => ?_
    rw [partialNodesC_eq Ts os as ℓ (res &&& node) n00]
    cases partialNodes false Ts os as ℓ (res &&& node) n00 with
    | error _ => rfl
    | ok x => simp [Except.map, bind, Except.bind, Cost.add, Cost.node, Nat.add_comm]

theorem runsNodesC_eq : (Ts : List Nav) → (os : List (Option Nat)) → (as : List Bool) → (ℓ an orr : Nat) →
    runsNodesC Ts os as ℓ an orr = (runsNodes Ts os as ℓ an orr).map fun x => (x, ⟨(as.take Ts.length).count true, 0, 0⟩)
  | [], _, _, _, _, _ => by simp [runsNodesC, runsNodes, Cost.zero, Except.map]
  | _ :: _, [], _, _, _, _ => rfl
  | _ :: _, _ :: _, [], _, _, _ => rfl
  | T :: Ts, o :: os, a :: as, ℓ, an, orr => by
    rw [runsNodesC, runsNodes]
    cases a with
    | false =>
      simp only [Bool.false_eq_true, if_false]
      rw [R_map_bind, runsNodesC_eq Ts os as ℓ an orr, R_bind_map]
      refine R_bind_congr _ fun x _ => ?_
      simp [Except.map]
    | true =>
      simp only [if_true]
      rw [R_map_bind]
      refine R_bind_congr _ fun id _ => ?_
      rw [R_map_bind]
      refine R_bind_congr _ fun node _ => ?_
      rw [ite_map]
      refine if_congr Iff.rfl ?_ ?_
      · rw [R_map_bind, runsNodesC_eq Ts os as ℓ (an &&& node) (orr ||| node), R_bind_map]
        refine R_bind_congr _ fun x _ => ?_
        simp [Except.map, Cost.add, Cost.node, Nat.add_comm]
      · rw [R_map_bind, runsNodesC_eq Ts os as ℓ an (orr ||| node), R_bind_map]
        refine R_bind_congr _ fun x _ => ?_
        simp [Except.map, Cost.add, Cost.node, Nat.add_comm]

theorem childrenActiveC_eq (get : Nav → Nat → Nat → R Nat) (skip : Bool) (ℓ : Nat) : (Ts : List Nav) → (os : List (Option Nat)) →
    (as : List Bool) → childrenActiveC get skip ℓ Ts os as =
      (childrenActive get skip ℓ Ts os as).map fun x => (x, ⟨0, if skip then 0 else (as.take Ts.length).count true, 0⟩)
  | [], _, _ => by simp [childrenActiveC, childrenActive, Cost.zero, Except.map]
  | _ :: _, [], _ => rfl
  | _ :: _, _ :: _, [] => rfl
  | T :: Ts, o :: os, a :: as => by
    rw [childrenActiveC, childrenActive, childrenActiveC_eq get skip ℓ Ts os as]
    cases skip with
    | true => cases a <;> cases childrenActive get true ℓ Ts os as <;> rfl
    | false =>
      cases a with
      | false =>
        cases childrenActive get false ℓ Ts os as with
        | error _ => rfl
        | ok x => simp [Except.map, bind, Except.bind, pure, Except.pure, Cost.add, Cost.zero]
      | true =>
        cases readRoot o with
        | error _ => rfl
        | ok id =>
          simp only [Bool.not_false, Bool.and_self, if_true, R_bind_ok]
          cases get T id ℓ with
          | error _ => rfl
          | ok c =>
            cases childrenActive get false ℓ Ts os as with
            | error _ => rfl
            | ok x => simp [Except.map, bind, Except.bind, pure, Except.pure, Cost.add, Cost.move, Nat.add_comm]

theorem andWordsActiveC_eq : (Ts : List FNav) → (os : List (Option Nat)) → (as : List Bool) → (w : Nat) →
    andWordsActiveC Ts os as w = (andWordsActive Ts os as w).map fun x => (x, ⟨0, 0, (as.take Ts.length).count true⟩)
  | [], _, _, _ => by simp [andWordsActiveC, andWordsActive, Cost.zero, Except.map]
  | _ :: _, [], _, _ => rfl
  | _ :: _, _ :: _, [], _ => rfl
  | T :: Ts, o :: os, a :: as, w => by
    rw [andWordsActiveC, andWordsActive]
    cases a with
    | false =>
      simp only [Bool.false_eq_true, if_false]
      rw [andWordsActiveC_eq Ts os as w]
      simp
    | true =>
      simp only [if_true]
      rw [R_map_bind]
      refine R_bind_congr _ fun id _ => ?_
      rw [R_map_bind]
      refine R_bind_congr _ fun x _ => ?_
      rw [andWordsActiveC_eq Ts os as (w &&& x)]
      cases andWordsActive Ts os as (w &&& x) with
      | error _ => rfl
      | ok x => simp [Except.map, bind, Except.bind, Cost.add, Cost.word, Nat.add_comm]

end CBT
