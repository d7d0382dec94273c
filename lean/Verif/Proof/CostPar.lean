import Verif.Proof.CostSets
import Verif.Proof.StrictPar

/-!
# The counters of parallel calls without runs

What is read above the cut, to split tasks, and by the threads adds up to what a sequential call reads.
-/

namespace CBT

open Spec

def costSum (l : List Cost) : Cost := l.foldr Cost.add .zero

theorem costSum_append : (l m : List Cost) → costSum (l ++ m) = (costSum l).add (costSum m)
  | [], m => (Cost.zero_add _).symm
  | a :: l, m => by
    have := costSum_append l m
    simp only [costSum, List.cons_append, List.foldr_cons] at this ⊢
    rw [this, Cost.add_assoc]

theorem costSum_cons (a : Cost) (l : List Cost) : costSum (a :: l) = a.add (costSum l) := rfl

section
variable {α : Type} (nav : α → Nav) (leaf : α → Nat → Nat → Nat → Prop)

/-- What `AND` counts on the tasks. -/
def taskCost (lc : Cost) (n : Nat) {d : Nat} (us : List (Nat × List (Tr d))) : Cost := costSum (us.map fun u => treeCost lc n d u.2)

theorem taskCost_append (lc : Cost) (n : Nat) {d : Nat} (us vs : List (Nat × List (Tr d))) :
    taskCost lc n (us ++ vs) = (taskCost lc n us).add (taskCost lc n vs) := by rw [taskCost, List.map_append, costSum_append]; rfl

theorem taskCost_cons (lc : Cost) (n : Nat) {d : Nat} (u : Nat × List (Tr d)) (vs : List (Nat × List (Tr d))) :
    taskCost lc n (u :: vs) = (treeCost lc n d u.2).add (taskCost lc n vs) := rfl

theorem partialANDc_plain {as : List α} {c : Cfg} {b : Nat} (lc : Cost) (htop : c.top < 64) :
    ∀ (k d ℓ : Nat) (ts : List (Tr (d + k))) (os : List (Option Nat)) (act : List Bool) (part : Nat) (s : PSt),
    Reps nav leaf (d + k) ℓ as ts os → c.top = ℓ + (d + k) + b → 2 ^ (d + k + b) ∣ part →
    ∃ new κ, partialANDc (as.map nav) c false k ℓ os act part s = .ok (⟨s.r, s.tasks ++ new⟩, κ) ∧
      List.Forall₂ (TaskP nav leaf as b d (ℓ + k)) new (walk b k part ts) ∧
      κ.add (taskCost lc as.length (walk b k part ts)) = treeCost lc as.length (d + k) ts := by
  intro k
  induction k with
  | zero =>
    intro d ℓ ts os act part s hr ht hd
    refine ⟨[⟨part, os.take (as.map nav).length, []⟩], .zero, ?_, .cons ⟨?_, rfl, hd⟩ .nil, ?_⟩
    · rw [partialANDc, if_neg]
      · simp
      · rintro (h | ⟨h1, _⟩)
        · rw [List.length_map] at h
          have := hr.length_le
          omega
        · cases h1
    · simpa using hr.take
    · rw [Cost.zero_add]; rfl
  | succ k ih =>
    intro d ℓ ts os act part s hr ht hd
    have hd' : 2 ^ (d + k + b + 1) ∣ part := by rwa [show d + k + b + 1 = d + (k + 1) + b by omega]
    have hs : shl1 (c.top - ℓ - 1) = .ok (2 ^ (d + k + b)) := by
      rw [ht, show ℓ + (d + (k + 1)) + b - ℓ - 1 = d + k + b by omega]; exact shl1_ok (by omega)
    obtain ⟨tmp, h3, -⟩ := partialNodes_reps (runs := false) (d := d + k) nav leaf as ts os act hr (fun h => nomatch h) true true false false
    rw [Bool.true_and, Bool.true_and, node2_tt, node2_ff] at h3
    rw [partialANDc, partialNodesC_eq, h3, walk, R_map_ok, show treeCost lc as.length (d + (k + 1)) ts =
      (Cost.add ⟨as.length, if allL (d := d + k) ts || allR (d := d + k) ts then as.length else 0, 0⟩
        (if allL (d := d + k) ts then treeCost lc as.length (d + k) (lefts (d := d + k) ts) else .zero)).add
      (if allR (d := d + k) ts then treeCost lc as.length (d + k) (rights (d := d + k) ts) else .zero) from rfl]
    simp only [R_bind_ok, hs, or_two_pow hd', Bool.not_false, Bool.false_eq_true, false_and, if_false, true_and, childrenC_eq, List.length_map]
    rw [show ℓ + (k + 1) = ℓ + 1 + k by omega]
    cases hL : allL (d := d + k) ts with
    | false =>
      cases hR : allR (d := d + k) ts with
      | false =>
        simp only [node2_ff, Bool.false_eq_true, if_true, if_false, List.append_nil]
        exact ⟨[], ⟨as.length, 0, 0⟩, by simp, .nil, by simp [Cost.add, Cost.zero, taskCost, costSum]⟩
      | true =>
        obtain ⟨cs, e1, h1⟩ := children_right (d := d + k) nav leaf as ts os hr hR
        simp only [node2_ft, Nat.reduceEqDiff, if_false, if_true, e1, R_bind_ok, R_map_ok, Bool.false_eq_true, List.nil_append, one_ne_zero]
        obtain ⟨new, κ, e2, h4, h5⟩ := ih d (ℓ + 1) _ cs tmp (part + 2 ^ (d + k + b)) s h1 (by omega) (dvd_hi hd')
        refine ⟨new, _, by rw [e2]; rfl, h4, ?_⟩
        rw [Cost.add_assoc, h5]
        simp [Cost.add, Cost.zero]
    | true =>
      obtain ⟨cs, e1, h1, h2⟩ := children_left (d := d + k) nav leaf as ts os hr hL
      obtain ⟨new, κ, e2, h4, h5⟩ := ih d (ℓ + 1) _ cs tmp part s h1 (by omega) (dvd_lo hd')
      cases hR : allR (d := d + k) ts with
      | false =>
        simp only [node2_tf, Nat.reduceEqDiff, if_false, if_true, e1, R_bind_ok, R_map_ok, Bool.false_eq_true,
          List.append_nil, two_ne_zero]
        refine ⟨new, _, by rw [e2]; rfl, h4, ?_⟩
        rw [Cost.add_assoc, h5]
        simp [Cost.add, Cost.zero]
      | true =>
        simp only [node2_tt, Nat.reduceEqDiff, if_false, if_true, e1, R_bind_ok, R_map_ok, e2]
        obtain ⟨new', κ', e2', h4', h5'⟩ := ih d (ℓ + 1) _ _ tmp _ ⟨s.r, s.tasks ++ new⟩ (h2 hR) (by omega) (dvd_hi hd')
        refine ⟨new ++ new', _, by rw [e2', List.append_assoc]; rfl, List.rel_append h4 h4', ?_⟩
        rw [taskCost_append, ← h5, ← h5']
        simp [Cost.add]
        omega

theorem fillThreadsC_plain {as : List α} {c : Cfg} {b d cut n total : Nat} (lc : Cost) (htop : c.top < 64)
    (hct : c.top = cut + (d + 1) + b) (hth : n < 2 ^ 16) :
    ∀ (todo : List Task) (us : List (Nat × List (Tr (d + 1)))) (i used : Nat) (s : PSt),
    List.Forall₂ (TaskP nav leaf as b (d + 1) cut) todo us → used = todo.length + s.tasks.length → used ≤ n →
    total = todo.length + i →
    ∃ new m κ, fillThreadsC (as.map nav) c false cut n total todo i used s =
        .ok ((todo.drop m, (s.tasks ++ new).length + (todo.drop m).length, ⟨s.r, s.tasks ++ new⟩), κ) ∧
      List.Forall₂ (TaskP nav leaf as b d (cut + 1)) new ((us.take m).flatMap fun u => walk b 1 u.1 u.2) ∧
      κ.add ((taskCost lc as.length ((us.take m).flatMap fun u => walk b 1 u.1 u.2)).add (taskCost lc as.length (us.drop m))) =
        taskCost lc as.length us := by
  intro todo
  induction todo with
  | nil =>
    intro us i used s h hu hle ht
    cases h
    refine ⟨[], 0, .zero, ?_, .nil, rfl⟩
    rw [fillThreadsC, hu]
    simp
  | cons T todo ih =>
    intro us i used s h hu hle ht
    cases h with
    | @cons _ u _ us hto h =>
      rw [fillThreadsC]
      have hmod : (n + 2 ^ 32 - used) % 2 ^ 32 = n - used := by omega
      rw [hmod]
      simp only [List.length_cons] at hu ht
      by_cases hgt : used + 1 < n
      · rw [if_pos (by omega)]
        obtain ⟨h1, h3, h4⟩ := hto
        obtain ⟨new, κ, e, g1, g2⟩ := partialANDc_plain nav leaf (as := as) (c := c) (b := b) lc htop 1 d cut
          u.2 T.roots T.active T.part s h1 (by omega) (h3 ▸ h4)
        rw [e, R_bind_ok]
        rw [h3] at g1 g2
        have hl : new.length = (walk b 1 u.1 u.2).length := g1.length_eq
        have hl2 := walk_length_le b 1 u.1 u.2
        have hu' : (total + (s.tasks ++ new).length - (i + 1)) % 2 ^ 16 = todo.length + (s.tasks ++ new).length := by
          rw [List.length_append]; omega
        dsimp only
        rw [hu']
        obtain ⟨new', m, κ', e', k1, k2⟩ := ih us (i + 1) _ ⟨s.r, s.tasks ++ new⟩ h rfl
          (by rw [List.length_append]; omega) (by omega)
        dsimp only at e'
        rw [e']
        refine ⟨new ++ new', m + 1, κ.add κ', ?_, ?_, ?_⟩
        · rw [List.drop_succ_cons, R_bind_ok, List.append_assoc]
        · rw [List.take_succ_cons, List.flatMap_cons]
          exact List.rel_append g1 k1
        · rw [List.take_succ_cons, List.flatMap_cons, List.drop_succ_cons, taskCost_append, taskCost_cons, ← k2, ← g2]
          simp only [Cost.add, Cost.mk.injEq]
          refine ⟨?_, ?_, ?_⟩ <;> omega
      · rw [if_neg (by omega)]
        refine ⟨[], 0, .zero, ?_, .nil, ?_⟩
        · simp; omega
        · rw [List.take_zero, List.drop_zero, Cost.zero_add]
          exact Cost.zero_add _

/-- What a task counts. -/
theorem taskP_cost {as : List α} {c : CfgC} {b e d ℓ : Nat} {lc : Cost} (hc : LeafOKc nav leaf as c b e lc)
    (h64 : c.cfg.top ≤ 64) (htop : c.cfg.top = ℓ + d + b) {T : Task} {v : Nat × List (Tr d)} (h : TaskP nav leaf as b d ℓ T v) :
    ANDc (as.map nav) c (d + e) ℓ T.roots T.part [] = .ok (enum (d + b) (allHas b d v.2) v.1, treeCost lc as.length d v.2) := by
  obtain ⟨h1, h2, h3⟩ := h
  rw [h2, ANDc_reps nav leaf hc h64 d ℓ v.2 _ _ [] h1 htop h3, List.nil_append]

theorem costBody_par {as : List α} {c : CfgC} {b e d height : Nat} {env : Env} {ts : List (Tr (d + 1 + Nat.log2 env.hw))} {lc : Cost}
    (hc : LeafOKc nav leaf as c b e lc)
    (hts : List.Forall₂ (fun a t => Rep (nav a) (leaf a) (d + 1 + Nat.log2 env.hw) 0 t 0) as ts) (hlen : as.length ≤ 16)
    (hstop : c.cfg.stop = d + 1 + Nat.log2 env.hw + e)
    (htop : c.cfg.top = d + 1 + Nat.log2 env.hw + b) (h64 : c.cfg.top < 64) (hw : env.hw ≠ 0) (hw' : env.hw < 2 ^ 16)
    (hh : Nat.log2 env.hw ≤ (height + 2 ^ 64 - 2) % 2 ^ 64) {R : List Nat} {κ : Cost}
    (hx : costBody (as.map nav) c height false true env = .ok (R, κ)) : κ = treeCost lc as.length _ ts := by
  have hthr : 2 ^ Nat.log2 env.hw ≤ env.hw := Nat.log2_self_le hw
  have key : ∀ {y : List Nat × Cost} {r k}, (Except.ok y : CBT.R (List Nat × Cost)) = .ok (r, k) → y.2 = k := by
    intro y r k h
    cases h
    rfl
  rw [costBody] at hx
  simp only [hw, hh, and_self, if_true, if_false] at hx
  generalize Nat.log2 env.hw = cut at *
  obtain ⟨tasks, κ1, e1, h1, h1'⟩ := partialANDc_plain nav leaf (as := as) (c := c.cfg) (b := b) lc h64 cut (d + 1) 0
    ts _ (List.replicate 16 true) 0 ⟨[], []⟩ (Reps.root nav leaf 16 hlen hts) (by omega) (dvd_zero _)
  rw [Nat.zero_add] at h1
  rw [e1, R_bind_ok] at hx
  simp only [List.nil_append] at hx
  have hle := walk_length_le b cut 0 ts
  have hl := h1.length_eq
  rw [← h1']
  by_cases h0 : tasks.length = 0
  · have hnil : walk b cut 0 ts = [] := List.length_eq_zero_iff.1 (hl.symm.trans h0)
    rw [if_pos h0] at hx
    rw [← key hx, hnil]
    exact (Cost.add_zero _).symm
  rw [if_neg h0] at hx
  have hmod : tasks.length % 2 ^ 16 = tasks.length := Nat.mod_eq_of_lt (by omega)
  rw [hmod, List.take_length] at hx
  obtain ⟨new, m, κ2, e2, k1, k2⟩ := fillThreadsC_plain nav leaf (n := 2 ^ cut) (total := tasks.length) lc h64 (by omega) (by omega) tasks _ 0
    tasks.length ⟨[], []⟩ h1 (by simp) (by omega) (by simp)
  rw [e2, R_bind_ok] at hx
  simp only [List.nil_append] at hx
  rw [← k2]
  have hok2 := List.forall₂_drop m h1
  generalize hrest : tasks.drop m = rest at *
  generalize hN : ((walk b cut 0 ts).take m).flatMap (fun u => walk b 1 u.1 u.2) = vN at *
  generalize hR : (walk b cut 0 ts).drop m = vR at *
  by_cases hz : (new ++ rest).length = 0
  · rw [if_pos hz] at hx
    rw [List.length_eq_zero_iff, List.append_eq_nil_iff] at hz
    obtain ⟨rfl, rfl⟩ := hz
    cases k1
    cases hok2
    rw [← key hx]
    rfl
  rw [if_neg hz] at hx
  obtain ⟨results, _, hx⟩ := bind_ok hx
  obtain ⟨r, _, hx⟩ := bind_ok hx
  have hthread : ∀ t < new.length + rest.length, (do
      let (_, k) ← threadC (as.map nav) c false (new ++ rest) (List.replicate new.length (cut + 1) ++ List.replicate rest.length cut) t
      pure k : CBT.R Cost) =
      .ok ((vN.map (fun v => treeCost lc as.length d v.2) ++ vR.map fun v => treeCost lc as.length (d + 1) v.2)[t]?.getD .zero) := by
    intro t ht
    by_cases htn : t < new.length
    · obtain ⟨task, hget, v, _, hv, hok⟩ := forall2_idx k1 htn
      have e3 : vGet (new ++ rest) t = .ok task := by rw [vGet, List.getElem?_append_left htn, hget]
      have e4 : vGet (List.replicate new.length (cut + 1) ++ List.replicate rest.length cut) t = .ok (cut + 1) := by
        rw [vGet, List.getElem?_append_left (by simpa using htn), List.getElem?_replicate, if_pos htn]
      rw [threadC]
      simp only [e3, e4, R_bind_ok, Bool.false_eq_true, if_false]
      rw [show c.cfg.stop - (cut + 1) = d + e by omega, taskP_cost nav leaf hc (by omega) (by omega) hok,
        List.getElem?_append_left (by simpa [← k1.length_eq] using htn), List.getElem?_map, hv]
      rfl
    · obtain ⟨task, hget, v, _, hv, hok⟩ := forall2_idx hok2 (i := t - new.length) (by omega)
      have e3 : vGet (new ++ rest) t = .ok task := by
        rw [vGet, List.getElem?_append_right (by omega), hget]
      have e4 : vGet (List.replicate new.length (cut + 1) ++ List.replicate rest.length cut) t = .ok cut := by
        rw [vGet, List.getElem?_append_right (by simpa using htn), List.getElem?_replicate, if_pos (by simp; omega)]
      rw [threadC]
      simp only [e3, e4, R_bind_ok, Bool.false_eq_true, if_false]
      rw [show c.cfg.stop - cut = d + 1 + e by omega, taskP_cost nav leaf hc (by omega) (by omega) hok,
        List.getElem?_append_right (by simpa [← k1.length_eq] using htn), List.length_map, ← k1.length_eq, List.getElem?_map, hv]
      rfl
  rw [mapM_ok _ (fun t ht => hthread t (List.mem_range.1 ht)), R_bind_ok] at hx
  rw [← key hx]
  dsimp only
  have hlen2 : new.length + rest.length =
      (vN.map (fun v => treeCost lc as.length d v.2) ++ vR.map fun v => treeCost lc as.length (d + 1) v.2).length := by
    rw [List.length_append, List.length_map, List.length_map, k1.length_eq, hok2.length_eq]
  have hl3 : ∀ l : List Cost, (List.range l.length).map (fun t => l[t]?.getD .zero) = l := by
    intro l
    apply List.ext_getElem
    · simp
    · intro i h1 h2
      simp [List.getElem?_eq_getElem h2]
  rw [hlen2, hl3, Cost.add_assoc]
  exact congrArg (fun x => κ1.add (κ2.add x)) (costSum_append _ _)

theorem costBody_seq {as : List α} {c : CfgC} {b e d height : Nat} {env : Env} {ts : List (Tr d)} {lc : Cost}
    (hc : LeafOKc nav leaf as c b e lc)
    (hts : List.Forall₂ (fun a t => Rep (nav a) (leaf a) d 0 t 0) as ts) (hlen : as.length ≤ 16) (hstop : c.cfg.stop = d + e)
    (htop : c.cfg.top = d + b) (h64 : c.cfg.top < 64) (hw : env.hw ≠ 0) {parallel : Bool}
    (hh : parallel = true → ¬ Nat.log2 env.hw ≤ (height + 2 ^ 64 - 2) % 2 ^ 64) {R : List Nat} {κ : Cost}
    (hx : costBody (as.map nav) c height false parallel env = .ok (R, κ)) : κ = treeCost lc as.length _ ts := by
  rw [costBody] at hx
  have : ¬ (parallel = true ∧ Nat.log2 env.hw ≤ (height + 2 ^ 64 - 2) % 2 ^ 64) := fun h => hh h.1 h.2
  simp only [hw, if_false, this, Bool.false_eq_true, hstop] at hx
  rw [ANDc_reps nav leaf hc (by omega) d 0 ts _ 0 [] (Reps.root nav leaf 16 hlen hts) (by omega) (dvd_zero _)] at hx
  cases hx
  rfl

/-- What a call without runs counts, in any mode. -/
theorem costBody_plain {as : List α} {c : CfgC} {b e d : Nat} {env : Env} {ts : List (Tr d)} {lc : Cost}
    (hc : LeafOKc nav leaf as c b e lc)
    (hts : List.Forall₂ (fun a t => Rep (nav a) (leaf a) d 0 t 0) as ts) (hlen : as.length ≤ 16) (hstop : c.cfg.stop = d + e)
    (htop : c.cfg.top = d + b) (h64 : c.cfg.top < 64) (hw : env.hw ≠ 0) {parallel : Bool} (hd : parallel = true → 1 ≤ d ∧ env.hw < 2 ^ 16)
    (hd' : d ≤ 62) {R : List Nat} {κ : Cost}
    (hx : costBody (as.map nav) c (d + 1) false parallel env = .ok (R, κ)) : κ = treeCost lc as.length _ ts := by
  by_cases hh : parallel = true ∧ Nat.log2 env.hw ≤ (d + 1 + 2 ^ 64 - 2) % 2 ^ 64
  · obtain ⟨rfl, hh⟩ := hh
    obtain ⟨h1, h2⟩ := hd rfl
    obtain ⟨d', rfl⟩ : ∃ d', d = d' + 1 + Nat.log2 env.hw := ⟨d - 1 - Nat.log2 env.hw, by omega⟩
    exact costBody_par nav leaf hc hts hlen hstop htop h64 hw h2 hh hx
  · exact costBody_seq nav leaf hc hts hlen hstop htop h64 hw (fun h h' => hh ⟨h, h'⟩) hx

end

end CBT
