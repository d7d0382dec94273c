import Verif.Proof.AnyInterErr
import Verif.Proof.CostInter
import Verif.Proof.CostPar
import Mathlib.Data.List.Perm.Subperm

/-!
# Run-aware parallel calls on tries in any state

The search for tasks drops what it should not (C12), but it does nothing that the sequential search does not do: it returns whenever the
sequential call does, a part of its result, and reads no more.
-/

namespace CBT

/-- Componentwise. -/
def CostLe (a b : Cost) : Prop := a.nodes ≤ b.nodes ∧ a.moves ≤ b.moves ∧ a.words ≤ b.words

/-- The nodes at the roots. -/
def nodesRead (ℓ : Nat) : List Nav → List (Option Nat) → R (List Nat)
  | [], _ => .ok []
  | _ :: _, [] => .error .oob
  | T :: Ts, o :: os => do
    let id ← readRoot o
    let v ← T.getNode id ℓ
    let vs ← nodesRead ℓ Ts os
    .ok (v :: vs)

theorem nodesRead_length (ℓ : Nat) : (Ts : List Nav) → (os : List (Option Nat)) → (vs : List Nat) → nodesRead ℓ Ts os = .ok vs →
    vs.length = Ts.length
  | [], _, vs, h => by cases h; rfl
  | _ :: _, [], _, h => by cases h
  | T :: Ts, o :: os, vs, h => by
    rw [nodesRead] at h
    obtain ⟨_, -, h⟩ := bind_ok h
    obtain ⟨_, -, h⟩ := bind_ok h
    obtain ⟨ws, h1, h⟩ := bind_ok h
    cases h
    simp [nodesRead_length ℓ Ts os ws h1]

theorem partialNodesC_all (ℓ : Nat) : (Ts : List Nav) → (os : List (Option Nat)) → (n : Nat) → Ts.length ≤ n → (res n00 : Nat) →
    partialNodesC true Ts os (List.replicate n true) ℓ res n00 = (nodesRead ℓ Ts os >>= fun vs =>
      .ok ((List.replicate Ts.length true, vs.foldl (· &&& ·) res, vs.foldl (· ||| ·) n00), ⟨Ts.length, 0, 0⟩))
  | [], os, n, _, res, n00 => by rw [partialNodesC]; rfl
  | _ :: _, [], _, _, _, _ => by rw [partialNodesC]; rfl
  | T :: Ts, o :: os, n, hn, res, n00 => by
    obtain ⟨n, rfl⟩ : ∃ j, n = j + 1 := ⟨n - 1, by simp at hn; omega⟩
    rw [List.replicate_succ, partialNodesC, nodesRead]
    simp only [if_true, Bool.or_true]
    cases readRoot o with
    | error e => rfl
    | ok id =>
      simp only [R_bind_ok]
      cases T.getNode id ℓ with
      | error e => rfl
      | ok v =>
        simp only [R_bind_ok]
        rw [partialNodesC_all ℓ Ts os n (by simpa using hn)]
        cases nodesRead ℓ Ts os with
        | error e => rfl
        | ok vs =>
          simp only [R_bind_ok, List.foldl_cons, List.length_cons, List.replicate_succ, Cost.add, Cost.node]
          rw [Nat.add_comm 1]

theorem runsNodesC_all (ℓ : Nat) : (Ts : List Nav) → (os : List (Option Nat)) → (n : Nat) → Ts.length ≤ n → (an orr : Nat) →
    runsNodesC Ts os (List.replicate n true) ℓ an orr = (nodesRead ℓ Ts os >>= fun vs =>
      .ok ((vs.map fun v => decide (v ≠ 0), (vs.filter fun v => decide (v ≠ 0)).foldl (· &&& ·) an, vs.foldl (· ||| ·) orr), ⟨Ts.length, 0, 0⟩))
  | [], os, n, _, an, orr => by rw [runsNodesC]; rfl
  | _ :: _, [], _, _, _, _ => by simp [runsNodesC, nodesRead, bind, Except.bind]
  | T :: Ts, o :: os, n, hn, an, orr => by
    obtain ⟨n, rfl⟩ : ∃ j, n = j + 1 := ⟨n - 1, by simp at hn; omega⟩
    rw [List.replicate_succ, runsNodesC, nodesRead]
    simp only [if_true]
    cases readRoot o with
    | error e => rfl
    | ok id =>
      simp only [R_bind_ok]
      cases T.getNode id ℓ with
      | error e => rfl
      | ok v =>
        simp only [R_bind_ok]
        by_cases hv : v ≠ 0
        · rw [if_pos hv, runsNodesC_all ℓ Ts os n (by simpa using hn)]
          cases nodesRead ℓ Ts os with
          | error e => rfl
          | ok vs =>
            have hd : decide (v ≠ 0) = true := decide_eq_true hv
            simp only [R_bind_ok, List.foldl_cons, List.length_cons, List.map_cons, hd, List.filter_cons, if_true, Cost.add, Cost.node]
            rw [Nat.add_comm 1]
        · rw [if_neg hv, runsNodesC_all ℓ Ts os n (by simpa using hn)]
          cases nodesRead ℓ Ts os with
          | error e => rfl
          | ok vs =>
            simp only [R_bind_ok, List.foldl_cons, List.length_cons, List.map_cons, hv, decide_false, List.filter_cons, Bool.false_eq_true,
              if_false, Cost.add, Cost.node]
            rw [Nat.add_comm 1]

theorem foldl_and_zero : (vs : List Nat) → vs.foldl (· &&& ·) 0 = 0
  | [] => rfl
  | v :: vs => by rw [List.foldl_cons, Nat.zero_and, foldl_and_zero vs]

theorem foldl_and_nonzero : (vs : List Nat) → (r : Nat) → vs.foldl (· &&& ·) r ≠ 0 → ∀ v ∈ vs, v ≠ 0
  | [], _, _ => by simp
  | w :: vs, r, h => by
    intro v hv
    rcases List.mem_cons.1 hv with rfl | hv
    · rintro rfl
      rw [List.foldl_cons, Nat.and_zero, foldl_and_zero] at h
      exact h rfl
    · exact foldl_and_nonzero vs _ h v hv

/-- If the search for tasks goes on, so does the run-aware search, with all tries. -/
theorem nodes_agree {vs : List Nat} (h : vs.foldl (· &&& ·) 3 ≠ 0) :
    (vs.map fun v => decide (v ≠ 0)) = List.replicate vs.length true ∧
      (vs.filter fun v => decide (v ≠ 0)) = vs := by
  have hv := foldl_and_nonzero vs 3 h
  constructor
  · rw [List.eq_replicate_iff]
    refine ⟨by simp, fun b hb => ?_⟩
    obtain ⟨v, h1, rfl⟩ := List.mem_map.1 hb
    exact decide_eq_true (hv v h1)
  · rw [List.filter_eq_self]
    exact fun v h1 => decide_eq_true (hv v h1)

theorem childrenActiveC_all (get : Nav → Nat → Nat → R Nat) (ℓ : Nat) : (Ts : List Nav) → (os : List (Option Nat)) →
    childrenActiveC get false ℓ Ts os (List.replicate Ts.length true) = childrenC get false ℓ Ts os
  | [], os => by simp [childrenActiveC, childrenC]
  | _ :: _, [] => by simp [childrenActiveC, childrenC]
  | T :: Ts, o :: os => by
    rw [List.length_cons, List.replicate_succ, childrenActiveC, childrenC]
    simp only [childrenActiveC_all get ℓ Ts os, Bool.not_false, Bool.and_true, if_true, Bool.false_eq_true, if_false]

theorem childrenC_length {get : Nav → Nat → Nat → R Nat} {skip : Bool} {ℓ : Nat} {Ts : List Nav} {os ln : List (Option Nat)} {k : Cost}
    (h : childrenC get skip ℓ Ts os = .ok (ln, k)) : ln.length = Ts.length := by
  have := childrenC_fst get skip ℓ Ts os
  rw [h] at this
  exact children_length this.symm

/-! ## Prefixes -/

theorem runsNodesC_take (ℓ : Nat) : (Ts : List Nav) → (os : List (Option Nat)) → (as : List Bool) → (an orr : Nat) →
    runsNodesC Ts (os.take Ts.length) (as.take Ts.length) ℓ an orr = runsNodesC Ts os as ℓ an orr
  | [], os, as, an, orr => by simp [runsNodesC]
  | T :: Ts, [], as, an, orr => by simp [runsNodesC]
  | T :: Ts, o :: os, [], an, orr => by simp [runsNodesC]
  | T :: Ts, o :: os, a :: as, an, orr => by
    rw [List.length_cons, List.take_succ_cons, List.take_succ_cons, runsNodesC, runsNodesC]
    simp only [runsNodesC_take ℓ Ts os as]

theorem childrenActiveC_take (get : Nav → Nat → Nat → R Nat) (skip : Bool) (ℓ : Nat) : (Ts : List Nav) → (os : List (Option Nat)) →
    (as : List Bool) → childrenActiveC get skip ℓ Ts (os.take Ts.length) as = childrenActiveC get skip ℓ Ts os as
  | [], os, as => by simp [childrenActiveC]
  | T :: Ts, [], as => by simp [childrenActiveC]
  | T :: Ts, o :: os, [] => by simp [childrenActiveC]
  | T :: Ts, o :: os, a :: as => by
    rw [List.length_cons, List.take_succ_cons, childrenActiveC, childrenActiveC]
    simp only [childrenActiveC_take get skip ℓ Ts os as]

/-- What an end condition must do: it appends, and it looks at no more roots than there are tries. -/
structure RunsBaseC (Ts : List Nav) (c : CfgC) : Prop where
  app : ∀ os as p r, c.runsBase os as p r = (c.runsBase os as p [] >>= fun x => .ok (r ++ x.1, x.2))
  take : ∀ os as p r, c.runsBase (os.take Ts.length) (as.take Ts.length) p r = c.runsBase os as p r

theorem runsANDc_take {Ts : List Nav} {c : CfgC} (hB : RunsBaseC Ts c) (k ℓ : Nat) (os : List (Option Nat)) (as : List Bool) (p : Nat)
    (r : List Nat) : runsANDc Ts c k ℓ (os.take Ts.length) (as.take Ts.length) p r = runsANDc Ts c k ℓ os as p r := by
  cases k with
  | zero => rw [runsANDc, runsANDc, hB.take]
  | succ k =>
    rw [runsANDc, runsANDc, runsNodesC_take]
    simp only [childrenActiveC_take]

theorem fillRange_app (p k : Nat) (r : List Nat) : fillRange p k r = (fillRange p k [] >>= fun x => .ok (r ++ x)) := by
  rw [fillRange, fillRange]
  cases shl1 k with
  | error e => rfl
  | ok s => rfl

theorem runsANDc_app {Ts : List Nav} {c : CfgC} (hB : RunsBaseC Ts c) : (k ℓ : Nat) → (os : List (Option Nat)) → (as : List Bool) →
    (p : Nat) → (r : List Nat) →
    runsANDc Ts c k ℓ os as p r = (runsANDc Ts c k ℓ os as p [] >>= fun x => .ok (r ++ x.1, x.2))
  | 0, ℓ, os, as, p, r => by rw [runsANDc, runsANDc, hB.app]
  | k + 1, ℓ, os, as, p, r => by
    rw [runsANDc, runsANDc]
    cases runsNodesC Ts os as ℓ 3 0 with
    | error e => rfl
    | ok x =>
      obtain ⟨⟨tmp, an, orr⟩, κ⟩ := x
      simp only [R_bind_ok]
      by_cases h0 : an = 0 ∧ orr ≠ 0
      · simp [h0]
      rw [if_neg h0, if_neg h0]
      by_cases ho : orr = 0
      · rw [if_pos ho, if_pos ho, fillRange_app]
        cases fillRange p (c.cfg.top - ℓ) [] with
        | error e => rfl
        | ok x => rfl
      rw [if_neg ho, if_neg ho]
      by_cases h2 : an = 2
      · rw [if_pos h2, if_pos h2]
        cases childrenActiveC Nav.getLeftChild (c.cfg.skipLast && decide (k = 0)) ℓ Ts os tmp with
        | error e => rfl
        | ok y =>
          simp only [R_bind_ok]
          rw [runsANDc_app hB k _ y.1 tmp p r]
          cases runsANDc Ts c k (ℓ + 1) y.1 tmp p [] with
          | error e => rfl
          | ok z => rfl
      rw [if_neg h2, if_neg h2]
      by_cases h1 : an = 1
      · rw [if_pos h1, if_pos h1]
        cases shl1 (c.cfg.top - ℓ - 1) with
        | error e => rfl
        | ok s =>
          simp only [R_bind_ok]
          cases childrenActiveC Nav.getRightChild (c.cfg.skipLast && decide (k = 0)) ℓ Ts os tmp with
          | error e => rfl
          | ok y =>
            simp only [R_bind_ok]
            rw [runsANDc_app hB k _ y.1 tmp _ r]
            cases runsANDc Ts c k (ℓ + 1) y.1 tmp (p ||| s) [] with
            | error e => rfl
            | ok z => rfl
      rw [if_neg h1, if_neg h1]
      by_cases h3 : an = 3
      · rw [if_pos h3, if_pos h3]
        cases shl1 (c.cfg.top - ℓ - 1) with
        | error e => rfl
        | ok s =>
          simp only [R_bind_ok]
          cases childrenActiveC Nav.getLeftChild (c.cfg.skipLast && decide (k = 0)) ℓ Ts os tmp with
          | error e => rfl
          | ok y =>
            simp only [R_bind_ok]
            rw [runsANDc_app hB k _ y.1 tmp p r]
            cases runsANDc Ts c k (ℓ + 1) y.1 tmp p [] with
            | error e => rfl
            | ok z =>
              simp only [R_bind_ok]
              rw [runsANDc_app hB k _ (succRoots y.1) tmp _ (r ++ z.1), runsANDc_app hB k _ (succRoots y.1) tmp _ z.1]
              cases runsANDc Ts c k (ℓ + 1) (succRoots y.1) tmp (p ||| s) [] with
              | error e => rfl
              | ok w => simp only [R_bind_ok, List.append_assoc]
      · rw [if_neg h3, if_neg h3, R_bind_ok, List.append_nil]

/-! ## Costs -/

theorem CostLe.refl (a : Cost) : CostLe a a := ⟨Nat.le_refl _, Nat.le_refl _, Nat.le_refl _⟩

theorem CostLe.trans {a b c : Cost} (h : CostLe a b) (h' : CostLe b c) : CostLe a c :=
  ⟨Nat.le_trans h.1 h'.1, Nat.le_trans h.2.1 h'.2.1, Nat.le_trans h.2.2 h'.2.2⟩

theorem CostLe.add {a b c d : Cost} (h : CostLe a b) (h' : CostLe c d) : CostLe (a.add c) (b.add d) :=
  ⟨Nat.add_le_add h.1 h'.1, Nat.add_le_add h.2.1 h'.2.1, Nat.add_le_add h.2.2 h'.2.2⟩

theorem CostLe.left {a b c : Cost} (h : CostLe a b) : CostLe a (b.add c) :=
  ⟨Nat.le_trans h.1 (Nat.le_add_right _ _), Nat.le_trans h.2.1 (Nat.le_add_right _ _), Nat.le_trans h.2.2 (Nat.le_add_right _ _)⟩

/-- The costs of the first node count. -/
theorem runsANDc_cost {Ts : List Nav} {c : CfgC} {k ℓ : Nat} {os : List (Option Nat)} {as : List Bool} {p : Nat} {L : List Nat} {κ κ0 : Cost}
    {x : List Bool × Nat × Nat} (h0 : runsNodesC Ts os as ℓ 3 0 = .ok (x, κ0)) (h : runsANDc Ts c (k + 1) ℓ os as p [] = .ok (L, κ)) :
    CostLe κ0 κ := by
  obtain ⟨tmp, an, orr⟩ := x
  rw [runsANDc, h0] at h
  simp only [R_bind_ok] at h
  split at h
  · cases h; exact .refl _
  split at h
  · obtain ⟨_, -, h⟩ := bind_ok h
    cases h; exact .refl _
  split at h
  · obtain ⟨_, -, h⟩ := bind_ok h
    obtain ⟨_, -, h⟩ := bind_ok h
    cases h; exact (CostLe.refl _).left.left
  split at h
  · obtain ⟨_, -, h⟩ := bind_ok h
    obtain ⟨_, -, h⟩ := bind_ok h
    obtain ⟨_, -, h⟩ := bind_ok h
    cases h; exact (CostLe.refl _).left.left
  split at h
  · obtain ⟨_, -, h⟩ := bind_ok h
    obtain ⟨_, -, h⟩ := bind_ok h
    obtain ⟨_, -, h⟩ := bind_ok h
    obtain ⟨_, -, h⟩ := bind_ok h
    cases h; exact (CostLe.refl _).left.left.left
  · cases h; exact .refl _

/-! ## Tasks -/

/-- The outputs of the tasks, one after the other, and the sum of their costs. -/
def OutsC {α : Type} (f : α → R (List Nat × Cost)) : List α → List Nat → Cost → Prop
  | [], L, κ => L = [] ∧ κ = .zero
  | T :: l, L, κ => ∃ o κ1 L' κ2, f T = .ok (o, κ1) ∧ OutsC f l L' κ2 ∧ L = o ++ L' ∧ κ = κ1.add κ2

theorem OutsC_append {α : Type} {f : α → R (List Nat × Cost)} : {l m : List α} → {L1 L2 : List Nat} → {κ1 κ2 : Cost} →
    OutsC f l L1 κ1 → OutsC f m L2 κ2 → OutsC f (l ++ m) (L1 ++ L2) (κ1.add κ2)
  | [], m, _, _, _, _, ⟨rfl, rfl⟩, h => by rw [Cost.zero_add]; exact h
  | T :: l, m, _, L2, _, κ2, ⟨o, κ1, L', κ', h1, h2, rfl, rfl⟩, h =>
    ⟨o, κ1, L' ++ L2, κ'.add κ2, h1, OutsC_append h2 h, List.append_assoc .., Cost.add_assoc ..⟩

theorem OutsC_map {α β : Type} {f : β → R (List Nat × Cost)} (g : α → β) : (l : List α) → (L : List Nat) → (κ : Cost) →
    (OutsC f (l.map g) L κ ↔ OutsC (fun x => f (g x)) l L κ)
  | [], L, κ => by simp [OutsC]
  | T :: l, L, κ => by simp only [List.map_cons, OutsC, OutsC_map g l]

theorem OutsC_singleton {α : Type} {f : α → R (List Nat × Cost)} {T : α} {L : List Nat} {κ : Cost} (h : f T = .ok (L, κ)) :
    OutsC f [T] L κ := ⟨L, κ, [], .zero, h, ⟨rfl, rfl⟩, by simp, rfl⟩

theorem OutsC_mapM {α : Type} {f : α → R (List Nat × Cost)} : {l : List α} → {L : List Nat} → {κ : Cost} → OutsC f l L κ →
    ∃ outs, l.mapM f = .ok outs ∧ (outs.map Prod.fst).flatten = L ∧ (outs.map Prod.snd).foldr Cost.add .zero = κ
  | [], _, _, ⟨rfl, rfl⟩ => ⟨[], rfl, rfl, rfl⟩
  | T :: l, _, _, ⟨o, κ1, L', κ', h1, h2, rfl, rfl⟩ => by
    obtain ⟨outs, h3, rfl, rfl⟩ := OutsC_mapM h2
    refine ⟨(o, κ1) :: outs, ?_, rfl, rfl⟩
    rw [List.mapM_cons, h1, R_bind_ok, h3]
    rfl

/-- What the search for tasks returns when the sequential search returns `(L, κ)`: parts of it. -/
def Parts (x : R (PSt × Cost)) (s : PSt) (L : List Nat) (κ : Cost) (Ts : List Nav) (f : Task → R (List Nat × Cost)) (b : Nat) : Prop :=
  ∃ fill new κp Lt κt, x = .ok (⟨s.r ++ fill, s.tasks ++ new⟩, κp) ∧
    (∀ T ∈ new, T.roots.length = Ts.length ∧ T.active = List.replicate Ts.length true) ∧ new.length ≤ b ∧ OutsC f new Lt κt ∧
    (fill ++ Lt).Subperm L ∧ CostLe (κp.add κt) κ

theorem Parts.none {s : PSt} {L : List Nat} {κ κ0 : Cost} {Ts : List Nav} {f : Task → R (List Nat × Cost)} {b : Nat} (h : CostLe κ0 κ) :
    Parts (.ok (s, κ0)) s L κ Ts f b :=
  ⟨[], [], κ0, [], .zero, by simp, by simp, by simp, ⟨rfl, rfl⟩, List.nil_subperm, h⟩

theorem Parts.bind {x : R (PSt × Cost)} {s : PSt} {L : List Nat} {κ κ0 : Cost} {Ts : List Nav} {f : Task → R (List Nat × Cost)} {b b' : Nat}
    (h : Parts x s L κ Ts f b) (hb : b ≤ b') : Parts (x >>= fun y => .ok (y.1, κ0.add y.2)) s L (κ0.add κ) Ts f b' := by
  obtain ⟨fill, new, κp, Lt, κt, rfl, h2, h3, h4, h5, h6⟩ := h
  refine ⟨fill, new, κ0.add κp, Lt, κt, rfl, h2, by omega, h4, h5, ?_⟩
  rw [Cost.add_assoc]
  exact (CostLe.refl _).add h6

theorem subperm_four {a b c d L M : List Nat} (h : (a ++ b).Subperm L) (h' : (c ++ d).Subperm M) : ((a ++ c) ++ (b ++ d)).Subperm (L ++ M) := by
  refine List.Subperm.trans (List.Perm.subperm ?_) (h.append h')
  rw [List.append_assoc, List.append_assoc]
  refine List.Perm.append_left a ?_
  rw [← List.append_assoc, ← List.append_assoc]
  exact List.Perm.append_right d List.perm_append_comm

theorem CostLe.four {a b c d x y : Cost} (h : CostLe (a.add b) x) (h' : CostLe (c.add d) y) :
    CostLe ((a.add c).add (b.add d)) (x.add y) := by
  obtain ⟨h1, h2, h3⟩ := h
  obtain ⟨h4, h5, h6⟩ := h'
  simp only [Cost.add] at *
  refine ⟨?_, ?_, ?_⟩ <;> simp only <;> omega

section
variable {Ts : List Nav} {c : CfgC}

theorem partialC_parts (hB : RunsBaseC Ts c) (m : Nat) (hm : c.cfg.skipLast = false ∨ 0 < m) : (k ℓ : Nat) → (os : List (Option Nat)) →
    (n : Nat) → Ts.length ≤ os.length → Ts.length ≤ n → (part : Nat) → (s : PSt) → (L : List Nat) → (κ : Cost) →
    runsANDc Ts c (k + m) ℓ os (List.replicate n true) part [] = .ok (L, κ) →
    Parts (partialANDc Ts c.cfg true k ℓ os (List.replicate n true) part s) s L κ Ts
      (fun T => runsANDc Ts c m (ℓ + k) T.roots T.active T.part []) (2 ^ k)
  | 0, ℓ, os, n, hlen, hn, part, s, L, κ, h => by
    have htake : (List.replicate n true).take Ts.length = List.replicate Ts.length true := by
      rw [List.take_replicate, Nat.min_eq_left hn]
    refine ⟨[], [⟨part, os.take Ts.length, List.replicate Ts.length true⟩], .zero, L, κ, ?_, ?_, by simp, OutsC_singleton ?_, ?_, ?_⟩
    · rw [partialANDc, if_neg (by simp; omega), htake]
      simp
    · simp only [List.mem_singleton, forall_eq, List.length_take]
      exact ⟨by omega, trivial⟩
    · show runsANDc Ts c m (ℓ + 0) (os.take Ts.length) (List.replicate Ts.length true) part [] = _
      rw [← htake, runsANDc_take hB, Nat.add_zero, ← h, Nat.zero_add]
    · exact List.Subperm.refl _
    · rw [Cost.zero_add]; exact .refl _
  | k + 1, ℓ, os, n, hlen, hn, part, s, L, κ, h => by
    have hskip : (c.cfg.skipLast && decide (k + m = 0)) = false := by
      rcases hm with h | h
      · simp [h]
      · rw [decide_eq_false (by omega), Bool.and_false]
    rw [show k + 1 + m = (k + m) + 1 by omega] at h
    have h' := h
    rw [show ℓ + (k + 1) = ℓ + 1 + k by omega]
    rw [runsANDc, runsNodesC_all ℓ Ts os n hn, hskip] at h
    rw [partialANDc, partialNodesC_all ℓ Ts os n hn]
    have hpow : 2 ^ (k + 1) = 2 ^ k + 2 ^ k := by rw [Nat.pow_succ]; omega
    have hpos := Nat.two_pow_pos k
    cases hv : nodesRead ℓ Ts os with
    | error e => rw [hv] at h; cases h
    | ok vs =>
      have hvl := nodesRead_length _ _ _ _ hv
      rw [hv] at h
      simp only [R_bind_ok] at h
      simp only [R_bind_ok, Bool.not_true, Bool.false_eq_true, false_and, if_false, true_and]
      by_cases h00 : vs.foldl (· ||| ·) 0 = 0
      · rw [if_pos h00]
        rw [if_neg (by simp [h00]), if_pos h00] at h
        obtain ⟨x, hx, h⟩ := bind_ok h
        cases h
        rw [fillRange_app, hx]
        refine ⟨L, [], _, [], .zero, by rw [List.append_nil]; rfl, by simp, Nat.zero_le _, ⟨rfl, rfl⟩, ?_, .refl _⟩
        rw [List.append_nil]
      rw [if_neg h00]
      by_cases hr : vs.foldl (· &&& ·) 3 = 0
      · simp only [hr, OfNat.zero_ne_ofNat, Nat.zero_ne_one, if_false]
        exact .none (runsANDc_cost (by rw [runsNodesC_all ℓ Ts os n hn, hv, R_bind_ok]) h')
      obtain ⟨ht, hf⟩ := nodes_agree hr
      rw [ht, hf, hvl] at h
      simp only [childrenActiveC_all] at h
      rw [if_neg (fun h => hr h.1), if_neg h00] at h
      by_cases h2 : vs.foldl (· &&& ·) 3 = 2
      · rw [if_pos h2] at h ⊢
        obtain ⟨⟨ln, k1⟩, hc, h⟩ := bind_ok h
        obtain ⟨⟨L', k2⟩, h3, h⟩ := bind_ok h
        cases h
        rw [hc, R_bind_ok]
        have hl := childrenC_length hc
        exact (partialC_parts hB m hm k (ℓ + 1) ln _ (by rw [hl]) (Nat.le_refl _) part s _ k2 h3).bind (κ0 := Cost.add ⟨Ts.length, 0, 0⟩ k1) (b' := 2 ^ (k + 1)) (by omega)
      rw [if_neg h2] at h ⊢
      by_cases h1 : vs.foldl (· &&& ·) 3 = 1
      · rw [if_pos h1] at h ⊢
        obtain ⟨sh, hs, h⟩ := bind_ok h
        obtain ⟨⟨ln, k1⟩, hc, h⟩ := bind_ok h
        obtain ⟨⟨L', k2⟩, h3, h⟩ := bind_ok h
        cases h
        rw [hs, R_bind_ok, hc, R_bind_ok]
        have hl := childrenC_length hc
        exact (partialC_parts hB m hm k (ℓ + 1) ln _ (by rw [hl]) (Nat.le_refl _) _ s _ k2 h3).bind (κ0 := Cost.add ⟨Ts.length, 0, 0⟩ k1) (b' := 2 ^ (k + 1)) (by omega)
      rw [if_neg h1] at h ⊢
      by_cases h3 : vs.foldl (· &&& ·) 3 = 3
      · rw [if_pos h3] at h ⊢
        obtain ⟨sh, hs, h⟩ := bind_ok h
        obtain ⟨⟨ln, k1⟩, hc, h⟩ := bind_ok h
        obtain ⟨⟨La, k2⟩, ha, h⟩ := bind_ok h
        obtain ⟨⟨Lb, k3⟩, hb, h⟩ := bind_ok h
        cases h
        rw [runsANDc_app hB] at hb
        obtain ⟨⟨Lb', k3'⟩, hb', h⟩ := bind_ok hb
        cases h
        rw [hs, R_bind_ok, hc, R_bind_ok]
        have hl := childrenC_length hc
        obtain ⟨fa, na, κa, Lta, κta, a1, a2, a3, a4, a5, a6⟩ :=
          partialC_parts hB m hm k (ℓ + 1) ln _ (by rw [hl]) (Nat.le_refl _) part s La k2 ha
        simp only at a1 ⊢
        rw [a1, R_bind_ok]
        obtain ⟨fb, nb, κb, Ltb, κtb, b1, b2, b3, b4, b5, b6⟩ :=
          partialC_parts hB m hm k (ℓ + 1) (succRoots ln) _ (by simp [succRoots, hl]) (Nat.le_refl _) (part ||| sh) ⟨s.r ++ fa, s.tasks ++ na⟩ Lb' k3' hb'
        simp only at b1 ⊢
        rw [b1, R_bind_ok]
        refine ⟨fa ++ fb, na ++ nb, ((Cost.add ⟨Ts.length, 0, 0⟩ k1).add κa).add κb, Lta ++ Ltb, κta.add κtb, ?_, ?_, ?_, OutsC_append a4 b4, subperm_four a5 b5, ?_⟩
        · simp only [List.append_assoc]
        · intro T hT
          rcases List.mem_append.1 hT with h | h
          · exact a2 T h
          · exact b2 T h
        · rw [List.length_append]; omega
        · have := (CostLe.refl (Cost.add ⟨Ts.length, 0, 0⟩ k1)).add (CostLe.four a6 b6)
          simpa only [Cost.add_assoc] using this
      · rw [if_neg h3]
        exact .none (runsANDc_cost (by rw [runsNodesC_all ℓ Ts os n hn, hv, R_bind_ok]) h')

theorem fillC_parts (hB : RunsBaseC Ts c) (m : Nat) (hm : c.cfg.skipLast = false ∨ 0 < m) {cut N total : Nat} (hN : N < 2 ^ 16) :
    (todo : List Task) → (i used : Nat) → (s : PSt) → (∀ T ∈ todo, T.roots.length = Ts.length ∧ T.active = List.replicate Ts.length true) →
    used = s.tasks.length + todo.length → used ≤ N → total = i + todo.length → (L : List Nat) → (κ : Cost) →
    OutsC (fun T => runsANDc Ts c (1 + m) cut T.roots T.active T.part []) todo L κ →
    ∃ fill new rest κf L1 κ1 L2 κ2, fillThreadsC Ts c.cfg true cut N total todo i used s =
        .ok ((rest, s.tasks.length + new.length + rest.length, ⟨s.r ++ fill, s.tasks ++ new⟩), κf) ∧
      OutsC (fun T => runsANDc Ts c m (cut + 1) T.roots T.active T.part []) new L1 κ1 ∧
      OutsC (fun T => runsANDc Ts c (1 + m) cut T.roots T.active T.part []) rest L2 κ2 ∧
      (fill ++ (L1 ++ L2)).Subperm L ∧ CostLe (κf.add (κ1.add κ2)) κ
  | [], i, used, s, _, hu, _, _, L, κ, h => by
    refine ⟨[], [], [], .zero, [], .zero, L, κ, ?_, ⟨rfl, rfl⟩, h, List.Subperm.refl _, ?_⟩
    · rw [fillThreadsC, hu]; simp
    · rw [Cost.zero_add, Cost.zero_add]; exact .refl _
  | t :: todo, i, used, s, hr, hu, hN', htot, L, κ, h => by
    rw [List.length_cons] at hu htot
    rw [fillThreadsC]
    by_cases hc : (N + 2 ^ 32 - used) % 2 ^ 32 > 1
    · rw [if_pos hc]
      have hlt : used + 1 < N := by omega
      obtain ⟨o, κo, L', κ', h1, h2, rfl, rfl⟩ := h
      obtain ⟨hr1, hr2⟩ := hr t (by simp)
      obtain ⟨fa, na, κa, Lta, κta, a1, a2, a3, a4, a5, a6⟩ :=
        partialC_parts hB m hm 1 cut t.roots Ts.length (by rw [hr1]) (Nat.le_refl _) t.part s o κo (by rw [← hr2]; exact h1)
      rw [hr2, a1, R_bind_ok]
      have hu' : (total + (s.tasks ++ na).length - (i + 1)) % 2 ^ 16 = (s.tasks ++ na).length + todo.length := by
        rw [List.length_append]
        omega
      simp only
      rw [hu']
      obtain ⟨fb, nb, rest, κb, L1, κ1, L2, κ2, b1, b2, b3, b4, b5⟩ :=
        fillC_parts hB m hm (total := total) hN todo (i + 1) _ ⟨s.r ++ fa, s.tasks ++ na⟩ (fun T hT => hr T (by simp [hT])) rfl
          (by show (s.tasks ++ na).length + todo.length ≤ N; rw [List.length_append]; omega) (by omega) L' κ' h2
      rw [b1, R_bind_ok]
      refine ⟨fa ++ fb, na ++ nb, rest, κa.add κb, Lta ++ L1, κta.add κ1, L2, κ2, ?_, OutsC_append a4 b2, b3, ?_, ?_⟩
      · simp only [List.length_append, List.append_assoc, Nat.add_assoc]
      · rw [List.append_assoc Lta]
        exact subperm_four a5 b4
      · rw [Cost.add_assoc κta]
        exact CostLe.four a6 b5
    · rw [if_neg hc]
      refine ⟨[], [], t :: todo, .zero, [], .zero, L, κ, ?_, ⟨rfl, rfl⟩, h, List.Subperm.refl _, ?_⟩
      · simp [hu]
      · rw [Cost.zero_add, Cost.zero_add]; exact .refl _

end

theorem mapM_map_ok {α β γ : Type} {f : α → R β} (h : β → γ) : {l : List α} → {outs : List β} → l.mapM f = .ok outs →
    l.mapM (fun t => f t >>= fun x => pure (h x)) = .ok (outs.map h)
  | [], _, hl => by cases hl; rfl
  | t :: l, _, hl => by
    rw [List.mapM_cons] at hl
    obtain ⟨o, h1, hl⟩ := bind_eq_ok.1 hl
    obtain ⟨os, h2, hl⟩ := bind_eq_ok.1 hl
    cases hl
    rw [List.mapM_cons, h1, mapM_map_ok h h2]
    rfl

theorem threadC_jobs (Ts : List Nav) (c : CfgC) (A B : List Task) (i j t : Nat) :
    threadC Ts c true (A ++ B) (List.replicate A.length i ++ List.replicate B.length j) t =
      (vGet (A.map (fun T => (T, i)) ++ B.map fun T => (T, j)) t >>= fun p =>
        runsANDc Ts c (c.cfg.stop - p.2) p.2 p.1.roots p.1.active p.1.part []) := by
  rw [threadC]
  by_cases hA : t < A.length
  · simp [vGet, List.getElem?_append_left, hA]
  · by_cases hB : t - A.length < B.length
    · simp [vGet, List.getElem?_append_right, hB, Nat.le_of_not_lt hA]
    · simp [vGet, List.getElem?_append_right, hB, Nat.le_of_not_lt hA]

/-- A run-aware parallel call does a part of what the sequential call does. -/
theorem costBody_runs_any {Ts : List Nav} {c : CfgC} (hB : RunsBaseC Ts c) {height m : Nat} {env : Env} (hlen : Ts.length ≤ 16)
    (hw : env.hw ≠ 0) (hw2 : env.hw < 2 ^ 16) (hh : height < 2 ^ 63) (hcut : Nat.log2 env.hw + 2 ≤ height)
    (hstop : c.cfg.stop = Nat.log2 env.hw + 1 + m) (hm : c.cfg.skipLast = false ∨ 0 < m) {L : List Nat} {κ : Cost}
    (h : costBody Ts c height true false env = .ok (L, κ)) :
    ∃ L' κ', costBody Ts c height true true env = .ok (L', κ') ∧ L'.Subperm L ∧ CostLe κ' κ := by
  have hseq : costBody Ts c height true false env =
      runsANDc Ts c (Nat.log2 env.hw + (1 + m)) 0 (List.replicate 16 (some 0)) (List.replicate 16 true) 0 [] := by
    rw [costBody]
    simp only [hw, Bool.false_eq_true, false_and, if_false, if_true, hstop, Nat.add_assoc]
  have hcut' : Nat.log2 env.hw ≤ (height + 2 ^ 64 - 2) % 2 ^ 64 := by omega
  rw [hseq] at h
  have hpow : 2 ^ Nat.log2 env.hw < 2 ^ 16 := Nat.lt_of_le_of_lt (Nat.log2_self_le hw) hw2
  obtain ⟨fa, new, κp, Lt, κt, a1, a2, a3, a4, a5, a6⟩ :=
    partialC_parts hB (1 + m) (.inr (by omega)) (Nat.log2 env.hw) 0 (List.replicate 16 (some 0)) 16 (by simpa using hlen) hlen 0
      { r := [], tasks := [] } L κ h
  rw [costBody]
  simp only [hw, if_false, true_and, hcut', if_true]
  rw [a1, R_bind_ok]
  simp only [List.nil_append]
  simp only [Nat.zero_add] at a4
  by_cases hn : new.length = 0
  · rw [if_pos hn]
    rw [List.length_eq_zero_iff.1 hn] at a4
    obtain ⟨rfl, rfl⟩ := a4
    rw [List.append_nil] at a5
    exact ⟨fa, κp, rfl, a5, a6⟩
  rw [if_neg hn, Nat.mod_eq_of_lt (by omega), List.take_length]
  obtain ⟨fb, new', rest, κf, L1, κ1, L2, κ2, b1, b2, b3, b4, b5⟩ :=
    fillC_parts hB m hm (total := new.length) hpow new 0 new.length ⟨fa, []⟩ a2 (by simp) a3 (by simp) Lt κt a4
  rw [b1, R_bind_ok]
  simp only [List.nil_append, List.length_nil, Nat.zero_add]
  have hsub : (fa ++ fb ++ (L1 ++ L2)).Subperm L := by
    refine List.Subperm.trans ?_ a5
    rw [List.append_assoc]
    exact (List.Subperm.refl _).append b4
  have hcost : CostLe ((κp.add κf).add (κ1.add κ2)) κ := by
    refine CostLe.trans ?_ a6
    rw [Cost.add_assoc]
    exact (CostLe.refl _).add b5
  by_cases hn' : (new' ++ rest).length = 0
  · rw [if_pos hn']
    rw [List.length_append] at hn'
    rw [List.length_eq_zero_iff.1 (show new'.length = 0 by omega)] at b2
    rw [List.length_eq_zero_iff.1 (show rest.length = 0 by omega)] at b3
    obtain ⟨rfl, rfl⟩ := b2
    obtain ⟨rfl, rfl⟩ := b3
    rw [List.append_nil, List.append_nil] at hsub
    exact ⟨_, _, rfl, hsub, hcost⟩
  rw [if_neg hn']
  have hO : OutsC (fun p : Task × Nat => runsANDc Ts c (c.cfg.stop - p.2) p.2 p.1.roots p.1.active p.1.part [])
      (new'.map (fun T => (T, Nat.log2 env.hw + 1)) ++ rest.map fun T => (T, Nat.log2 env.hw)) (L1 ++ L2) (κ1.add κ2) := by
    have e1 : c.cfg.stop - (Nat.log2 env.hw + 1) = m := by omega
    have e2 : c.cfg.stop - Nat.log2 env.hw = 1 + m := by omega
    refine OutsC_append ?_ ?_
    · rw [OutsC_map]; simpa only [e1] using b2
    · rw [OutsC_map]; simpa only [e2] using b3
  obtain ⟨outs, o1, o2, o3⟩ := OutsC_mapM hO
  have hfun : threadC Ts c true (new' ++ rest)
      (List.replicate new'.length (Nat.log2 env.hw + 1) ++ List.replicate rest.length (Nat.log2 env.hw)) = fun t =>
      vGet (new'.map (fun T => (T, Nat.log2 env.hw + 1)) ++ rest.map fun T => (T, Nat.log2 env.hw)) t >>= fun p =>
        runsANDc Ts c (c.cfg.stop - p.2) p.2 p.1.roots p.1.active p.1.part [] := funext fun t => threadC_jobs ..
  have hmap : (List.range (new'.length + rest.length)).mapM (threadC Ts c true (new' ++ rest)
      (List.replicate new'.length (Nat.log2 env.hw + 1) ++ List.replicate rest.length (Nat.log2 env.hw))) = .ok outs := by
    have hlen' : new'.length + rest.length =
        (new'.map (fun T => (T, Nat.log2 env.hw + 1)) ++ rest.map fun T => (T, Nat.log2 env.hw)).length := by simp
    rw [hfun, hlen', mapM_range_vGet, o1]
  have g1 := section_gather env.sched1 env.sched2 (new'.length + rest.length) (fa ++ fb)
    (fun t => threadC Ts c true (new' ++ rest)
      (List.replicate new'.length (Nat.log2 env.hw + 1) ++ List.replicate rest.length (Nat.log2 env.hw)) t >>= fun x => pure x.1)
  rw [if_neg (by rwa [List.length_append] at hn'), mapM_map_ok Prod.fst hmap, R_bind_ok, o2] at g1
  simp only [bind_assoc, R_pure, R_bind_ok] at g1
  obtain ⟨res, g2, g3⟩ := bind_eq_ok.1 g1
  simp only [R_pure]
  have g4 := mapM_map_ok Prod.snd hmap
  simp only [R_pure] at g4
  rw [g2, R_bind_ok, g3, R_bind_ok, g4, R_bind_ok, o3]
  exact ⟨_, _, rfl, hsub, hcost⟩

theorem runsNodesC_len {ℓ : Nat} : {Ts : List Nav} → {os : List (Option Nat)} → {as : List Bool} → {an orr : Nat} →
    {x : (List Bool × Nat × Nat) × Cost} → runsNodesC Ts os as ℓ an orr = .ok x → Ts.length ≤ os.length
  | [], _, _, _, _, _, _ => Nat.zero_le _
  | _ :: _, [], _, _, _, _, h => by simp [runsNodesC] at h
  | _ :: _, _ :: _, [], _, _, _, h => by simp [runsNodesC] at h
  | T :: Ts, o :: os, a :: as, an, orr, x, h => by
    rw [List.length_cons, List.length_cons]
    refine Nat.succ_le_succ ?_
    rw [runsNodesC] at h
    split at h
    · obtain ⟨_, -, h⟩ := bind_ok h
      obtain ⟨_, -, h⟩ := bind_ok h
      split at h
      · obtain ⟨_, h, -⟩ := bind_ok h
        exact runsNodesC_len h
      · obtain ⟨_, h, -⟩ := bind_ok h
        exact runsNodesC_len h
    · obtain ⟨_, h, -⟩ := bind_ok h
      exact runsNodesC_len h

theorem flat_runsBaseC (Ts : List Nav) (h : Nat) : RunsBaseC Ts (flatCfgC h) where
  app os as p r := by simp [flatCfgC]
  take os as p r := rfl

theorem andWordsActiveC_take : (Ts : List FNav) → (os : List (Option Nat)) → (as : List Bool) → (w : Nat) →
    andWordsActiveC Ts (os.take Ts.length) (as.take Ts.length) w = andWordsActiveC Ts os as w
  | [], os, as, w => by simp [andWordsActiveC]
  | T :: Ts, [], as, w => by simp [andWordsActiveC]
  | T :: Ts, o :: os, [], w => by simp [andWordsActiveC]
  | T :: Ts, o :: os, a :: as, w => by
    rw [List.length_cons, List.take_succ_cons, List.take_succ_cons, andWordsActiveC, andWordsActiveC]
    simp only [andWordsActiveC_take Ts os as]

theorem fast_runsBaseC (lg : Nat) (Ts : List FNav) (h : Nat) : RunsBaseC (Ts.map FNav.toNav) (fastCfgC lg Ts h) where
  app os as p r := by
    simp only [fastCfgC]
    rw [bind_assoc]
    refine bind_congr fun x => ?_
    rw [emitWord_app, bind_assoc, bind_assoc]
    rfl
  take os as p r := by
    simp only [fastCfgC]
    rw [List.length_map, andWordsActiveC_take]

theorem costBody_fallback {Ts : List Nav} {c : CfgC} {height : Nat} {runs : Bool} {env : Env} (h2 : 2 ≤ height) (hh : height < 2 ^ 63)
    (hcut : height < Nat.log2 env.hw + 2) :
    costBody Ts c height runs true env = costBody Ts c height runs false env := by
  have : ¬ Nat.log2 env.hw ≤ (height + 2 ^ 64 - 2) % 2 ^ 64 := by omega
  simp only [costBody, this, and_false, Bool.false_eq_true, if_false]

/-- For any number of tries and of threads. -/
theorem costBody_runs_le {Ts : List Nav} {c : CfgC} (hB : RunsBaseC Ts c) {height : Nat} {env : Env} (hw : env.hw ≠ 0)
    (hw2 : env.hw < 2 ^ 16) (h2 : 2 ≤ height) (hh : height < 2 ^ 63)
    (hstop : c.cfg.stop = height ∧ c.cfg.skipLast = true ∨ c.cfg.stop + 1 = height ∧ c.cfg.skipLast = false) {L : List Nat} {κ : Cost}
    (h : costBody Ts c height true false env = .ok (L, κ)) :
    ∃ L' κ', costBody Ts c height true true env = .ok (L', κ') ∧ L'.Subperm L ∧ CostLe κ' κ := by
  by_cases hcut : Nat.log2 env.hw + 2 ≤ height
  · have hlen : Ts.length ≤ 16 := by
      rw [costBody] at h
      simp only [hw, Bool.false_eq_true, false_and, if_false, if_true] at h
      rw [show c.cfg.stop = c.cfg.stop - 1 + 1 by omega, runsANDc] at h
      obtain ⟨x, hx, -⟩ := bind_ok h
      exact Nat.le_trans (runsNodesC_len hx) (by simp)
    exact costBody_runs_any hB (m := c.cfg.stop - (Nat.log2 env.hw + 1)) hlen hw hw2 hh hcut (by omega) (by
      rcases hstop with h | h
      · exact .inr (by omega)
      · exact .inl h.2) h
  · exact ⟨L, κ, by rw [costBody_fallback h2 hh (by omega), h], List.Subperm.refl _, .refl _⟩

end CBT
