import Verif.Proof.CostPar
import Verif.Proof.CostInter
import Verif.Proof.CostRuns
import Verif.Proof.ExactRuns

/-!
# The counters of run-aware parallel calls, on trees
-/

namespace CBT

open Spec

/-- What `partialAND` counts on the first `k` levels; `n` tries. -/
def topCost (n : Nat) : (k : Nat) → {d : Nat} → List (Tr (d + k)) → Cost
  | 0, _, _ => .zero
  | k + 1, d, ts => (Cost.add ⟨n, if allL (d := d + k) ts || allR (d := d + k) ts then n else 0, 0⟩
      (if allL (d := d + k) ts then topCost n k (lefts (d := d + k) ts) else .zero)).add
      (if allR (d := d + k) ts then topCost n k (rights (d := d + k) ts) else .zero)

/-- What `runsAND` counts on the tasks. -/
def taskCostR (lc : Nat → Cost) {d : Nat} (us : List (Nat × List (Tr d))) : Cost := costSum (us.map fun u => treeCostR lc d u.2)

/-- What replacing tasks by their halves counts. -/
def halfCost (n : Nat) {d : Nat} (us : List (Nat × List (Tr (d + 1)))) : Cost := costSum (us.map fun u => topCost n 1 u.2)

/-- What a run-aware parallel call counts. -/
def parCostR (lc : Nat → Cost) (b n : Nat) {d k : Nat} (ts : List (Tr (d + 1 + k))) : Cost :=
  ((topCost n k ts).add (halfCost n ((walk b k 0 ts).take (splitCount b ts)))).add
    ((taskCostR lc (((walk b k 0 ts).take (splitCount b ts)).flatMap fun u => walk b 1 u.1 u.2)).add
      (taskCostR lc ((walk b k 0 ts).drop (splitCount b ts))))

/-- All tries are active. -/
theorem partialNodesC_runs : (Ts : List Nav) → (os : List (Option Nat)) → (as : List Bool) → (ℓ res n00 : Nat) → (∀ a ∈ as, a = true) →
    partialNodesC true Ts os as ℓ res n00 = (partialNodes true Ts os as ℓ res n00).map fun x => (x, ⟨Ts.length, 0, 0⟩)
  | [], _, _, _, _, _, _ => rfl
  | _ :: _, [], _, _, _, _, _ => rfl
  | T :: Ts, o :: os, [], ℓ, res, n00, _ => by
    unfold partialNodesC partialNodes
    rfl
  | T :: Ts, o :: os, a :: as, ℓ, res, n00, h => by
    obtain rfl := h a List.mem_cons_self
    unfold partialNodesC partialNodes
    simp only [if_true]
    rw [R_map_bind]
    refine R_bind_congr _ fun id _ => ?_
    rw [R_map_bind]
    refine R_bind_congr _ fun node _ => ?_
    rw [partialNodesC_runs Ts os as ℓ _ _ fun a ha => h a (List.mem_cons_of_mem _ ha), R_map_bind, R_bind_map]
    refine R_bind_congr _ fun x _ => ?_
    simp [Except.map, Cost.add, Cost.node, Nat.add_comm]

section
variable {α : Type} (nav : α → Nav) (leaf : α → Nat → Nat → Nat → Prop)

theorem partialANDc_runs {as : List α} {c : Cfg} {b : Nat} (htop : c.top < 64) (hne : as ≠ []) :
    ∀ (k d ℓ : Nat) (ts : List (Tr (d + k))) (os : List (Option Nat)) (act : List Bool) (part : Nat) (s : PSt),
    Reps nav leaf (d + k) ℓ as ts os → ActOK true as.length act → c.top = ℓ + (d + k) + b → 2 ^ (d + k + b) ∣ part →
    ∃ r new, partialANDc (as.map nav) c true k ℓ os act part s = .ok (⟨r, s.tasks ++ new⟩, topCost as.length k ts) ∧
      List.Forall₂ (TaskR nav leaf as b d (ℓ + k)) new (walk b k part ts) := by
  intro k
  induction k with
  | zero =>
    intro d ℓ ts os act part s hr ha ht hd
    refine ⟨s.r, [⟨part, os.take (as.map nav).length, act.take (as.map nav).length⟩], ?_, .cons ⟨?_, ?_, rfl, hd⟩ .nil⟩
    · rw [partialANDc, if_neg]
      · simp only [if_true]; rfl
      · rintro (h | ⟨h1, h2⟩)
        · rw [List.length_map] at h
          have := hr.length_le
          omega
        · rw [List.length_map] at h2
          have := (ha h1).1
          omega
    · simpa using hr.take
    · intro h
      have := ha h
      simp only [List.length_map]
      exact ⟨by simpa using this.1, fun a ha => this.2 a (List.mem_of_mem_take ha)⟩
  | succ k ih =>
    intro d ℓ ts os act part s hr ha ht hd
    have hd' : 2 ^ (d + k + b + 1) ∣ part := by rwa [show d + k + b + 1 = d + (k + 1) + b by omega]
    have hs : shl1 (c.top - ℓ - 1) = .ok (2 ^ (d + k + b)) := by
      rw [ht, show ℓ + (d + (k + 1)) + b - ℓ - 1 = d + k + b by omega]; exact shl1_ok (by omega)
    obtain ⟨tmp, h3, hat⟩ := partialNodes_reps (runs := true) (d := d + k) nav leaf as ts os act hr ha true true false false
    rw [Bool.true_and, Bool.true_and, Bool.false_or, Bool.false_or, Bool.true_and, Bool.true_and, node2_tt, node2_ff] at h3
    rw [partialANDc, partialNodesC_runs _ _ _ _ _ _ (ha rfl).2, h3, R_map_ok, walk, topCost]
    simp only [R_bind_ok, hs, or_two_pow hd', Bool.not_true, Bool.false_eq_true, false_and, if_false, true_and, childrenC_eq, List.length_map]
    rw [show ℓ + (k + 1) = ℓ + 1 + k by omega]
    by_cases hfull : anyL (d := d + k) ts = false ∧ anyR (d := d + k) ts = false
    · obtain ⟨h1, h2⟩ := hfull
      have hL : allL (d := d + k) ts = false ∧ allR (d := d + k) ts = false := by
        cases ts with
        | nil => cases as with
          | nil => exact (hne rfl).elim
          | cons _ _ => simp [Reps] at hr
        | cons t ts =>
          simp only [anyL, anyR, List.any_cons, Bool.or_eq_false_iff] at h1 h2
          exact ⟨by simp only [allL, List.all_cons, h1.1, Bool.false_and], by simp only [allR, List.all_cons, h2.1, Bool.false_and]⟩
      simp only [h1, h2, node2_ff, if_true]
      rw [ht, show ℓ + (d + (k + 1)) + b - ℓ = d + (k + 1) + b by omega,
        fillRange_ok s.r (by omega) hd (P := fun _ => true) (fun x _ => rfl), R_bind_ok, hL.1, hL.2]
      exact ⟨s.r ++ enum (d + (k + 1) + b) (fun _ => true) part, [], by simp [Cost.add, Cost.zero], .nil⟩
    · have hn00 : node2 (anyL (d := d + k) ts) (anyR (d := d + k) ts) ≠ 0 := by
        intro h2
        rw [node2_eq_zero] at h2
        exact hfull h2
      simp only [hn00, if_false]
      cases hL : allL (d := d + k) ts with
      | false =>
        cases hR : allR (d := d + k) ts with
        | false =>
          simp only [node2_ff, Nat.reduceEqDiff, if_false, Bool.false_eq_true, List.append_nil]
          exact ⟨s.r, [], by simp [Cost.add, Cost.zero], .nil⟩
        | true =>
          obtain ⟨cs, e1, h1⟩ := children_right (d := d + k) nav leaf as ts os hr hR
          simp only [node2_ft, Nat.reduceEqDiff, if_false, if_true, e1, R_bind_ok, R_map_ok, Bool.false_eq_true, List.nil_append]
          obtain ⟨r, new, e2, h4⟩ := ih d (ℓ + 1) _ cs tmp _ s h1 hat (by omega) (dvd_hi hd')
          refine ⟨r, new, ?_, h4⟩
          rw [e2, R_bind_ok]
          simp [Cost.add, Cost.zero]
      | true =>
        obtain ⟨cs, e1, h1, h2⟩ := children_left (d := d + k) nav leaf as ts os hr hL
        obtain ⟨r, new, e2, h4⟩ := ih d (ℓ + 1) _ cs tmp part s h1 hat (by omega) (dvd_lo hd')
        cases hR : allR (d := d + k) ts with
        | false =>
          simp only [node2_tf, Nat.reduceEqDiff, if_false, if_true, e1, R_bind_ok, R_map_ok, Bool.false_eq_true, List.append_nil]
          refine ⟨r, new, ?_, h4⟩
          rw [e2, R_bind_ok]
          simp [Cost.add, Cost.zero]
        | true =>
          simp only [node2_tt, Nat.reduceEqDiff, if_false, if_true, e1, R_bind_ok, R_map_ok, e2]
          obtain ⟨r', new', e2', h4'⟩ := ih d (ℓ + 1) _ _ tmp _ ⟨r, s.tasks ++ new⟩ (h2 hR) hat (by omega) (dvd_hi hd')
          refine ⟨r', new ++ new', ?_, List.rel_append h4 h4'⟩
          rw [e2', R_bind_ok, List.append_assoc]
          simp [Cost.add]

theorem fillThreadsC_runs {as : List α} {c : Cfg} {b d cut n total : Nat} (htop : c.top < 64)
    (hne : as ≠ []) (hct : c.top = cut + (d + 1) + b) (hth : n < 2 ^ 16) :
    ∀ (todo : List Task) (us : List (Nat × List (Tr (d + 1)))) (i used : Nat) (s : PSt),
    List.Forall₂ (TaskR nav leaf as b (d + 1) cut) todo us → used = todo.length + s.tasks.length → used ≤ n →
    total = todo.length + i →
    ∃ r new, fillThreadsC (as.map nav) c true cut n total todo i used s =
        .ok ((todo.drop (replaced n used (us.map fun u => (walk b 1 u.1 u.2).length)),
          (s.tasks ++ new).length + (todo.drop (replaced n used (us.map fun u => (walk b 1 u.1 u.2).length))).length,
          ⟨r, s.tasks ++ new⟩), halfCost as.length (us.take (replaced n used (us.map fun u => (walk b 1 u.1 u.2).length)))) ∧
      List.Forall₂ (TaskR nav leaf as b d (cut + 1)) new
        ((us.take (replaced n used (us.map fun u => (walk b 1 u.1 u.2).length))).flatMap fun u => walk b 1 u.1 u.2) := by
  intro todo
  induction todo with
  | nil =>
    intro us i used s h hu hle ht
    cases h
    refine ⟨s.r, [], ?_, .nil⟩
    rw [fillThreadsC, hu]
    simp [replaced, halfCost, costSum]
  | cons T todo ih =>
    intro us i used s h hu hle ht
    cases h with
    | @cons _ u _ us hto h =>
      rw [fillThreadsC]
      have hmod : (n + 2 ^ 32 - used) % 2 ^ 32 = n - used := by omega
      rw [hmod]
      simp only [List.length_cons] at hu ht
      rw [List.map_cons, replaced]
      by_cases hgt : used + 1 < n
      · rw [if_pos (by omega), if_pos hgt]
        obtain ⟨h1, h2, h3, h4⟩ := hto
        obtain ⟨r, new, e, g1⟩ := partialANDc_runs nav leaf (as := as) (c := c) (b := b) htop hne 1 d cut
          u.2 T.roots T.active T.part s h1 h2 (by omega) (h3 ▸ h4)
        rw [e, R_bind_ok]
        rw [h3] at g1
        have hl : new.length = (walk b 1 u.1 u.2).length := g1.length_eq
        have hl2 := walk_length_le b 1 u.1 u.2
        have hu' : (total + (s.tasks ++ new).length - (i + 1)) % 2 ^ 16 = todo.length + (s.tasks ++ new).length := by
          rw [List.length_append]; omega
        dsimp only
        rw [hu']
        have hlast : used + (walk b 1 u.1 u.2).length - 1 = todo.length + (s.tasks ++ new).length := by
          rw [List.length_append]; omega
        rw [hlast]
        obtain ⟨r', new', e', k1⟩ := ih us (i + 1) _ ⟨r, s.tasks ++ new⟩ h rfl
          (by rw [List.length_append]; omega) (by omega)
        dsimp only at e'
        rw [e', R_bind_ok]
        refine ⟨r', new ++ new', ?_, ?_⟩
        · rw [Nat.add_comm 1, List.take_succ_cons, List.drop_succ_cons, List.append_assoc]
          rfl
        · rw [Nat.add_comm 1, List.take_succ_cons, List.flatMap_cons]
          exact List.rel_append g1 k1
      · rw [if_neg (by omega), if_neg hgt]
        refine ⟨s.r, [], ?_, .nil⟩
        simp [halfCost, costSum]
        omega

/-- What a task counts. -/
theorem taskR_cost {as : List α} {c : CfgC} {b e d ℓ : Nat} {lc : Nat → Cost} (hc : LeafOKRc nav leaf as c b e lc)
    (h64 : c.cfg.top < 64) (htop : c.cfg.top = ℓ + d + b) {T : Task} {v : Nat × List (Tr d)} (h : TaskR nav leaf as b d ℓ T v) :
    ∃ out, runsANDc (as.map nav) c (d + e) ℓ T.roots T.active T.part [] = .ok (out, treeCostR lc d v.2) := by
  obtain ⟨h1, h2, h3, h4⟩ := h
  have := runsANDc_reps nav leaf hc h64 d ℓ (v.2.map some) _ _ T.part []
    (RepsA.of_reps nav leaf _ _ _ _ h1 (h2 rfl).1 (h2 rfl).2) htop (h3 ▸ h4)
  rw [actives_some] at this
  exact ⟨_, this⟩

theorem costBody_par_runs {as : List α} {c : CfgC} {b e d height : Nat} {env : Env} {ts : List (Tr (d + 1 + Nat.log2 env.hw))}
    {lc : Nat → Cost} (hc : LeafOKRc nav leaf as c b e lc) (hne : as ≠ [])
    (hts : List.Forall₂ (fun a t => Rep (nav a) (leaf a) (d + 1 + Nat.log2 env.hw) 0 t 0) as ts) (hlen : as.length ≤ 16)
    (hstop : c.cfg.stop = d + 1 + Nat.log2 env.hw + e)
    (htop : c.cfg.top = d + 1 + Nat.log2 env.hw + b) (h64 : c.cfg.top < 64) (hw : env.hw ≠ 0) (hw' : env.hw < 2 ^ 16)
    (hh : Nat.log2 env.hw ≤ (height + 2 ^ 64 - 2) % 2 ^ 64) {R : List Nat} {κ : Cost}
    (hx : costBody (as.map nav) c height true true env = .ok (R, κ)) : κ = parCostR lc b as.length ts := by
  have hthr : 2 ^ Nat.log2 env.hw ≤ env.hw := Nat.log2_self_le hw
  have key : ∀ {y : List Nat × Cost} {r k}, (Except.ok y : CBT.R (List Nat × Cost)) = .ok (r, k) → y.2 = k := by
    intro y r k h
    cases h
    rfl
  rw [costBody] at hx
  simp only [hw, hh, and_self, if_true, if_false] at hx
  generalize Nat.log2 env.hw = cut at *
  obtain ⟨r1, tasks, e1, h1⟩ := partialANDc_runs nav leaf (as := as) (c := c.cfg) (b := b) h64 hne cut (d + 1) 0
    ts _ (List.replicate 16 true) 0 ⟨[], []⟩ (Reps.root nav leaf 16 hlen hts) (fun _ => ⟨by simpa using hlen, by simp⟩) (by omega) (dvd_zero _)
  rw [Nat.zero_add] at h1
  rw [e1, R_bind_ok] at hx
  simp only [List.nil_append] at hx
  have hle := walk_length_le b cut 0 ts
  have hl := h1.length_eq
  rw [parCostR, splitCount]
  by_cases h0 : tasks.length = 0
  · have hnil : walk b cut 0 ts = [] := List.length_eq_zero_iff.1 (hl.symm.trans h0)
    rw [if_pos h0] at hx
    rw [← key hx, hnil]
    simp [halfCost, taskCostR, costSum, Cost.add, Cost.zero]
  rw [if_neg h0] at hx
  have hmod : tasks.length % 2 ^ 16 = tasks.length := Nat.mod_eq_of_lt (by omega)
  rw [hmod, List.take_length] at hx
  obtain ⟨r2, new, e2, k1⟩ := fillThreadsC_runs nav leaf (n := 2 ^ cut) (total := tasks.length) h64 hne (by omega) (by omega) tasks _ 0
    tasks.length ⟨r1, []⟩ h1 (by simp) (by omega) (by simp)
  rw [e2, R_bind_ok] at hx
  simp only [List.nil_append] at hx
  rw [hl] at hx k1
  generalize replaced (2 ^ cut) (walk b cut 0 ts).length ((walk b cut 0 ts).map fun u => (walk b 1 u.1 u.2).length) = m at *
  have hok2 := List.forall₂_drop m h1
  generalize hrest : tasks.drop m = rest at *
  generalize hN : ((walk b cut 0 ts).take m).flatMap (fun u => walk b 1 u.1 u.2) = vN at *
  generalize hR : (walk b cut 0 ts).drop m = vR at *
  by_cases hz : (new ++ rest).length = 0
  · rw [if_pos hz] at hx
    rw [List.length_eq_zero_iff, List.append_eq_nil_iff] at hz
    obtain ⟨rfl, rfl⟩ := hz
    cases k1
    cases hok2
    rw [← key hx]
    simp [taskCostR, costSum, Cost.add, Cost.zero]
  rw [if_neg hz] at hx
  obtain ⟨results, _, hx⟩ := bind_ok hx
  obtain ⟨r, _, hx⟩ := bind_ok hx
  have hthread : ∀ t < new.length + rest.length, (do
      let (_, k) ← threadC (as.map nav) c true (new ++ rest) (List.replicate new.length (cut + 1) ++ List.replicate rest.length cut) t
      pure k : CBT.R Cost) =
      .ok ((vN.map (fun v => treeCostR lc d v.2) ++ vR.map fun v => treeCostR lc (d + 1) v.2)[t]?.getD .zero) := by
    intro t ht
    by_cases htn : t < new.length
    · obtain ⟨task, hget, v, _, hv, hok⟩ := forall2_idx k1 htn
      have e3 : vGet (new ++ rest) t = .ok task := by rw [vGet, List.getElem?_append_left htn, hget]
      have e4 : vGet (List.replicate new.length (cut + 1) ++ List.replicate rest.length cut) t = .ok (cut + 1) := by
        rw [vGet, List.getElem?_append_left (by simpa using htn), List.getElem?_replicate, if_pos htn]
      obtain ⟨out, hout⟩ := taskR_cost nav leaf hc h64 (by omega) hok
      rw [threadC]
      simp only [e3, e4, R_bind_ok, if_true]
      rw [show c.cfg.stop - (cut + 1) = d + e by omega, hout,
        List.getElem?_append_left (by simpa [← k1.length_eq] using htn), List.getElem?_map, hv]
      rfl
    · obtain ⟨task, hget, v, _, hv, hok⟩ := forall2_idx hok2 (i := t - new.length) (by omega)
      have e3 : vGet (new ++ rest) t = .ok task := by
        rw [vGet, List.getElem?_append_right (by omega), hget]
      have e4 : vGet (List.replicate new.length (cut + 1) ++ List.replicate rest.length cut) t = .ok cut := by
        rw [vGet, List.getElem?_append_right (by simpa using htn), List.getElem?_replicate, if_pos (by simp; omega)]
      obtain ⟨out, hout⟩ := taskR_cost nav leaf hc h64 (by omega) hok
      rw [threadC]
      simp only [e3, e4, R_bind_ok, if_true]
      rw [show c.cfg.stop - cut = d + 1 + e by omega, hout,
        List.getElem?_append_right (by simpa [← k1.length_eq] using htn), List.length_map, ← k1.length_eq, List.getElem?_map, hv]
      rfl
  rw [mapM_ok _ (fun t ht => hthread t (List.mem_range.1 ht)), R_bind_ok] at hx
  rw [← key hx]
  dsimp only
  have hlen2 : new.length + rest.length =
      (vN.map (fun v => treeCostR lc d v.2) ++ vR.map fun v => treeCostR lc (d + 1) v.2).length := by
    rw [List.length_append, List.length_map, List.length_map, k1.length_eq, hok2.length_eq]
  have hl3 : ∀ l : List Cost, (List.range l.length).map (fun t => l[t]?.getD .zero) = l := by
    intro l
    apply List.ext_getElem
    · simp
    · intro i h1 h2
      simp [List.getElem?_eq_getElem h2]
  rw [hlen2, hl3]
  exact congrArg (fun x => Cost.add _ x) (costSum_append _ _)

end

end CBT
