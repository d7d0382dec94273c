import Verif.Proof.ExactList
import Verif.Proof.ManyThreads

/-!
# What a parallel call returns on any number of hardware threads: walking the trees
-/

namespace CBT

open Spec

/-- The members reported by `partialAND` itself. -/
def rpOut (runs : Bool) (b k : Nat) {d : Nat} (p : Nat) (ts : List (Tr (d + k))) : List Nat :=
  if runs then enum (d + k + b) (rp b k ts) p else []

/-- What a task finds. -/
def outW (runs : Bool) (b : Nat) {d : Nat} (v : Nat × List (Tr d)) : List Nat := enum (d + b) (allS runs b d v.2) v.1

/-- The tasks that the first `uint16_t` counter leaves. -/
def keptW (b : Nat) {d k : Nat} (ts : List (Tr (d + k))) : List (Nat × List (Tr d)) :=
  (walk b k 0 ts).take ((walk b k 0 ts).length % 2 ^ 16)

/-- The number of tasks replaced by their halves, up to 65536 threads. -/
def splitW (b k : Nat) {d : Nat} (us : List (Nat × List (Tr (d + 1)))) : Nat :=
  replaced (2 ^ k) us.length (us.map fun u => (walk b 1 u.1 u.2).length)

/-- The halves of the tasks. -/
def halfW (b : Nat) {d : Nat} (us : List (Nat × List (Tr (d + 1)))) : List (Nat × List (Tr d)) := us.flatMap fun u => walk b 1 u.1 u.2

/-- The result of a parallel call. -/
def wideOut (runs : Bool) (b : Nat) {d k : Nat} (ts : List (Tr (d + 1 + k))) : R (List Nat) :=
  if k ≤ 16 then
    .ok (rpOut runs b k 0 ts ++ ((keptW b ts).take (splitW b k (keptW b ts))).flatMap (fun u => rpOut runs b 1 u.1 u.2) ++
      ((halfW b ((keptW b ts).take (splitW b k (keptW b ts)))).flatMap (outW runs b) ++
        ((keptW b ts).drop (splitW b k (keptW b ts))).flatMap (outW runs b)))
  else if (halfW b (keptW b ts)).length ≠ 0 ∧ (halfW b (keptW b ts)).length % 2 ^ 16 = 0 then .error .conv
  else .ok (rpOut runs b k 0 ts ++ (keptW b ts).flatMap (fun u => rpOut runs b 1 u.1 u.2) ++
    ((halfW b (keptW b ts)).take ((halfW b (keptW b ts)).length % 2 ^ 16)).flatMap (outW runs b))

section
variable {α : Type} (nav : α → Nav) (leaf : α → Nat → Nat → Nat → Prop)

/-- The task walks the trees in the block. -/
def TaskW (runs : Bool) (as : List α) (b d ℓ : Nat) (T : Task) (v : Nat × List (Tr d)) : Prop :=
  Reps nav leaf d ℓ as v.2 T.roots ∧ ActOK runs as.length T.active ∧ T.part = v.1 ∧ 2 ^ (d + b) ∣ v.1

theorem partialAND_plainW {as : List α} {c : Cfg} {b : Nat} (htop : c.top < 64) :
    ∀ (k d ℓ : Nat) (ts : List (Tr (d + k))) (os : List (Option Nat)) (act : List Bool) (part : Nat) (s : PSt),
    Reps nav leaf (d + k) ℓ as ts os → ActOK false as.length act → c.top = ℓ + (d + k) + b → 2 ^ (d + k + b) ∣ part →
    ∃ new, partialAND (as.map nav) c false k ℓ os act part s = .ok ⟨s.r, s.tasks ++ new⟩ ∧
      List.Forall₂ (TaskW nav leaf false as b d (ℓ + k)) new (walk b k part ts) := by
  intro k
  induction k with
  | zero =>
    intro d ℓ ts os act part s hr ha ht hd
    refine ⟨[⟨part, os.take (as.map nav).length, []⟩], ?_, .cons ⟨?_, fun h => by simp at h, rfl, hd⟩ .nil⟩
    · rw [partialAND, if_neg]
      · simp
      · rintro (h | ⟨h1, h2⟩)
        · rw [List.length_map] at h
          have := hr.length_le
          omega
        · simp at h1
    · simpa using hr.take
  | succ k ih =>
    intro d ℓ ts os act part s hr ha ht hd
    have hd' : 2 ^ (d + k + b + 1) ∣ part := by rwa [show d + k + b + 1 = d + (k + 1) + b by omega]
    have hs : shl1 (c.top - ℓ - 1) = .ok (2 ^ (d + k + b)) := by
      rw [ht, show ℓ + (d + (k + 1)) + b - ℓ - 1 = d + k + b by omega]; exact shl1_ok (by omega)
    obtain ⟨tmp, h3, hat⟩ := partialNodes_reps (runs := false) (d := d + k) nav leaf as ts os act hr ha true true false false
    rw [Bool.true_and, Bool.true_and, Bool.false_or, Bool.false_or, Bool.false_and, Bool.false_and, node2_tt, node2_ff] at h3
    rw [partialAND, h3]
    simp only [R_bind_ok, hs, or_two_pow hd']
    rw [walk, show ℓ + (k + 1) = ℓ + 1 + k by omega]
    cases hL : allL (d := d + k) ts with
    | false =>
      cases hR : allR (d := d + k) ts with
      | false =>
        simp only [node2_ff, Nat.reduceEqDiff, if_false, Bool.false_eq_true, false_and, ite_self]
        exact ⟨[], by simp, by simp⟩
      | true =>
        obtain ⟨cs, e1, h1⟩ := children_right (d := d + k) nav leaf as ts os hr hR
        simp only [node2_ft, Nat.reduceEqDiff, one_ne_zero, and_false, if_false, if_true, e1, R_bind_ok, Bool.false_eq_true, false_and]
        obtain ⟨new, e2, h4⟩ := ih d (ℓ + 1) _ cs tmp _ s h1 hat (by omega) (dvd_hi hd')
        exact ⟨new, e2, by simpa using h4⟩
    | true =>
      obtain ⟨cs, e1, h1, h2⟩ := children_left (d := d + k) nav leaf as ts os hr hL
      obtain ⟨new, e2, h4⟩ := ih d (ℓ + 1) _ cs tmp part s h1 hat (by omega) (dvd_lo hd')
      cases hR : allR (d := d + k) ts with
      | false =>
        simp only [node2_tf, Nat.reduceEqDiff, OfNat.ofNat_ne_zero, and_false, if_false, if_true, e1, R_bind_ok, Bool.false_eq_true, false_and]
        exact ⟨new, e2, by simpa using h4⟩
      | true =>
        simp only [node2_tt, Nat.reduceEqDiff, OfNat.ofNat_ne_zero, and_false, if_false, if_true, e1, R_bind_ok, e2, Bool.false_eq_true, false_and]
        obtain ⟨new', e2', h4'⟩ := ih d (ℓ + 1) _ _ tmp _ ⟨s.r, s.tasks ++ new⟩ (h2 hR) hat (by omega) (dvd_hi hd')
        refine ⟨new ++ new', by rw [e2']; simp, List.rel_append h4 h4'⟩

theorem partialAND_wide {runs : Bool} {as : List α} {c : Cfg} {b : Nat} (htop : c.top < 64) (hne : as ≠ [])
    (k d ℓ : Nat) (ts : List (Tr (d + k))) (os : List (Option Nat)) (act : List Bool) (part : Nat) (s : PSt)
    (hr : Reps nav leaf (d + k) ℓ as ts os) (ha : ActOK runs as.length act) (ht : c.top = ℓ + (d + k) + b) (hd : 2 ^ (d + k + b) ∣ part) :
    ∃ new, partialAND (as.map nav) c runs k ℓ os act part s = .ok ⟨s.r ++ rpOut runs b k part ts, s.tasks ++ new⟩ ∧
      List.Forall₂ (TaskW nav leaf runs as b d (ℓ + k)) new (walk b k part ts) := by
  cases runs with
  | false =>
    obtain ⟨new, e, h⟩ := partialAND_plainW nav leaf (b := b) htop k d ℓ ts os act part s hr ha ht hd
    exact ⟨new, by rw [e]; simp [rpOut], h⟩
  | true => exact partialAND_exact nav leaf htop hne k d ℓ ts os act part s hr ha ht hd

/-- Up to 65536 threads. -/
theorem fillThreads_wide {runs : Bool} {as : List α} {c : Cfg} {b d cut n total : Nat} (htop : c.top < 64)
    (hne : as ≠ []) (hct : c.top = cut + (d + 1) + b) (hth : n ≤ 2 ^ 16) :
    ∀ (todo : List Task) (us : List (Nat × List (Tr (d + 1)))) (i used : Nat) (s : PSt),
    List.Forall₂ (TaskW nav leaf runs as b (d + 1) cut) todo us → used = todo.length + s.tasks.length → used ≤ n → used < 2 ^ 16 →
    total = todo.length + i →
    ∃ new, fillThreads (as.map nav) c runs cut n total todo i used s =
        .ok (todo.drop (replaced n used (us.map fun u => (walk b 1 u.1 u.2).length)),
          threadCount n used (us.map fun u => (walk b 1 u.1 u.2).length),
          ⟨s.r ++ (us.take (replaced n used (us.map fun u => (walk b 1 u.1 u.2).length))).flatMap fun u => rpOut runs b 1 u.1 u.2,
            s.tasks ++ new⟩) ∧
      List.Forall₂ (TaskW nav leaf runs as b d (cut + 1)) new
        (halfW b (us.take (replaced n used (us.map fun u => (walk b 1 u.1 u.2).length)))) ∧
      threadCount n used (us.map fun u => (walk b 1 u.1 u.2).length) = (s.tasks ++ new).length +
        (todo.drop (replaced n used (us.map fun u => (walk b 1 u.1 u.2).length))).length := by
  intro todo
  induction todo with
  | nil =>
    intro us i used s h hu hle h16 ht
    cases h
    refine ⟨[], ?_, .nil, ?_⟩
    · rw [fillThreads, hu]
      simp [threadCount, replaced]
    · simpa [threadCount, replaced] using hu
  | cons T todo ih =>
    intro us i used s h hu hle h16 ht
    cases h with
    | @cons _ u _ us hto h =>
      rw [fillThreads]
      have hmod : (n + 2 ^ 32 - used) % 2 ^ 32 = n - used := by omega
      rw [hmod]
      simp only [List.length_cons] at hu ht
      rw [List.map_cons, replaced, threadCount]
      by_cases hgt : used + 1 < n
      · rw [if_pos (by omega), if_pos hgt, if_pos hgt]
        obtain ⟨h1, h2, h3, h4⟩ := hto
        obtain ⟨new, e, g1⟩ := partialAND_wide nav leaf (as := as) (c := c) (b := b) htop hne 1 d cut
          u.2 T.roots T.active T.part s h1 h2 (by omega) (h3 ▸ h4)
        rw [e, R_bind_ok]
        rw [h3] at g1
        have hl : new.length = (walk b 1 u.1 u.2).length := g1.length_eq
        have hl2 := walk_length_le b 1 u.1 u.2
        have hu' : (total + (s.tasks ++ new).length - (i + 1)) % 2 ^ 16 = todo.length + (s.tasks ++ new).length := by
          rw [List.length_append]; omega
        dsimp only
        rw [hu']
        have hlast : used + (walk b 1 u.1 u.2).length - 1 = todo.length + (s.tasks ++ new).length := by
          rw [List.length_append]; omega
        rw [hlast]
        obtain ⟨new', e', k1, k2⟩ := ih us (i + 1) _ ⟨s.r ++ rpOut runs b 1 u.1 u.2, s.tasks ++ new⟩ h rfl
          (by rw [List.length_append]; omega) (by rw [List.length_append]; omega) (by omega)
        dsimp only at k2 e'
        rw [h3, e']
        refine ⟨new ++ new', ?_, ?_, ?_⟩
        · rw [Nat.add_comm 1, List.take_succ_cons, List.drop_succ_cons, List.flatMap_cons, List.append_assoc, List.append_assoc]
        · rw [Nat.add_comm 1, List.take_succ_cons, halfW, List.flatMap_cons]
          exact List.rel_append g1 k1
        · rw [Nat.add_comm 1, List.drop_succ_cons, k2, List.append_assoc]
      · rw [if_neg (by omega), if_neg hgt, if_neg hgt]
        refine ⟨[], ?_, .nil, ?_⟩
        · simp
        · simp; omega

/-- From 131072 threads on. -/
theorem fillThreads_all {runs : Bool} {as : List α} {c : Cfg} {b d cut n total : Nat} (htop : c.top < 64)
    (hne : as ≠ []) (hct : c.top = cut + (d + 1) + b) (hth : 2 ^ 17 ≤ n ∧ n < 2 ^ 32) :
    ∀ (todo : List Task) (us : List (Nat × List (Tr (d + 1)))) (i used : Nat) (s : PSt),
    List.Forall₂ (TaskW nav leaf runs as b (d + 1) cut) todo us → used < 2 ^ 16 → used = (todo.length + s.tasks.length) % 2 ^ 16 →
    total = todo.length + i →
    ∃ new, fillThreads (as.map nav) c runs cut n total todo i used s =
        .ok ([], (s.tasks ++ new).length % 2 ^ 16, ⟨s.r ++ us.flatMap fun u => rpOut runs b 1 u.1 u.2, s.tasks ++ new⟩) ∧
      List.Forall₂ (TaskW nav leaf runs as b d (cut + 1)) new (halfW b us) := by
  intro todo
  induction todo with
  | nil =>
    intro us i used s h hlt hu ht
    cases h
    refine ⟨[], ?_, .nil⟩
    rw [fillThreads, hu]
    simp
  | cons T todo ih =>
    intro us i used s h hlt hu ht
    cases h with
    | @cons _ u _ us hto h =>
      rw [fillThreads]
      have hmod : (n + 2 ^ 32 - used) % 2 ^ 32 = n - used := by omega
      rw [hmod, if_pos (by omega)]
      simp only [List.length_cons] at hu ht
      obtain ⟨h1, h2, h3, h4⟩ := hto
      obtain ⟨new, e, g1⟩ := partialAND_wide nav leaf (as := as) (c := c) (b := b) htop hne 1 d cut
        u.2 T.roots T.active T.part s h1 h2 (by omega) (h3 ▸ h4)
      rw [e, R_bind_ok]
      rw [h3] at g1
      obtain ⟨new', e', k1⟩ := ih us (i + 1) ((total + (s.tasks ++ new).length - (i + 1)) % 2 ^ 16)
        ⟨s.r ++ rpOut runs b 1 u.1 u.2, s.tasks ++ new⟩ h
        (Nat.mod_lt _ (by omega)) (by rw [show total + (s.tasks ++ new).length - (i + 1) = todo.length + (s.tasks ++ new).length by omega])
        (by omega)
      dsimp only at e'
      refine ⟨new ++ new', by rw [h3, e']; simp, ?_⟩
      rw [halfW, List.flatMap_cons]
      exact List.rel_append g1 k1

theorem TaskW.toOK {runs : Bool} {as : List α} {b d ℓ : Nat} {T : Task} {v : Nat × List (Tr d)} (h : TaskW nav leaf runs as b d ℓ T v) :
    TaskOK nav leaf False 0 runs as b d ℓ T (outW runs b v) := by
  obtain ⟨h1, h2, h3, h4⟩ := h
  exact ⟨v.2, h1, h2, h3 ▸ h4, by rw [outW, h3], fun h => h.elim⟩

theorem forall2_wide {runs : Bool} {as : List α} {b d ℓ : Nat} {Ts : List Task} {vs : List (Nat × List (Tr d))}
    (h : List.Forall₂ (TaskW nav leaf runs as b d ℓ) Ts vs) :
    List.Forall₂ (TaskOK nav leaf False 0 runs as b d ℓ) Ts (vs.map (outW runs b)) := by
  induction h with
  | nil => exact .nil
  | cons h1 _ ih => exact .cons (TaskW.toOK nav leaf h1) ih

/-- The first `used` tasks are carried out. -/
theorem run_first {runs : Bool} {as : List α} {c : Cfg} {b e d cut : Nat} (hP : LeafOK nav leaf as c b e)
    (hR : LeafOKR nav leaf as c b e) (h64 : c.top < 64) (hstop : c.stop = d + 1 + cut + e) (htop : c.top = d + 1 + cut + b)
    {new rest : List Task} {oN oR : List (List Nat)} (hok1 : List.Forall₂ (TaskOK nav leaf False 0 runs as b d (cut + 1)) new oN)
    (hok2 : List.Forall₂ (TaskOK nav leaf False 0 runs as b (d + 1) cut) rest oR) {used : Nat} (hu : used ≤ new.length + rest.length)
    (h0 : used ≠ 0) (r : List Nat) (sched1 sched2 : List Nat) :
    (do
      let results ← parallelFor actPush sched1 used used
          (fun t => do
            let task ← vGet (new ++ rest) t
            let level ← vGet (List.replicate new.length (cut + 1) ++ List.replicate rest.length cut) t
            let out ← if runs then runsAND (as.map nav) c (c.stop - level) level task.roots task.active task.part []
                      else AND (as.map nav) c (c.stop - level) level task.roots task.part []
            pure (out.map fun x => (t, x)))
          (List.replicate used [])
      gather sched2 r results used) = .ok (r ++ ((oN ++ oR).take used).flatten) := by
  have hlN := hok1.length_eq
  have hlR := hok2.length_eq
  have hused : used = ((oN ++ oR).take used).length := by
    rw [List.length_take, List.length_append]; omega
  have hnil : (oN ++ oR).take used ≠ [] := by
    rw [← List.length_pos_iff, ← hused]; omega
  generalize ho : (oN ++ oR).take used = os at *
  rw [hused, parallelFor_push hnil, R_bind_ok, gather_ok _ _ _ hnil]
  intro t ht
  have htu : t < used := by omega
  have hget' : os[t] = (oN ++ oR)[t]'(by rw [List.length_append]; omega) := by
    subst ho
    rw [List.getElem_take]
  rw [hget']
  have htl : t < (oN ++ oR).length := by rw [List.length_append]; omega
  by_cases htn : t < new.length
  · obtain ⟨task, hget, hok⟩ := forall2_get hok1 (i := t) (by omega)
    have e3 : vGet (new ++ rest) t = .ok task := by
      rw [vGet, List.getElem?_append_left htn, hget]
    have e4 : vGet (List.replicate new.length (cut + 1) ++ List.replicate rest.length cut) t = .ok (cut + 1) := by
      rw [vGet, List.getElem?_append_left (by simpa using htn), List.getElem?_replicate, if_pos htn]
    rw [e3, e4]
    simp only [R_bind_ok]
    have hrun := task_run nav leaf hP hR h64 (by omega) (by omega) hok
    have hfin : (Except.ok (oN[t].map fun x => (t, x)) : R _) = .ok (((oN ++ oR)[t]'htl).map fun x => (t, x)) := by
      rw [List.getElem_append_left (show t < oN.length by omega)]
    cases runs with
    | true => rw [if_pos rfl] at hrun ⊢; rw [hrun]; exact hfin
    | false => rw [if_neg (by simp)] at hrun ⊢; rw [hrun]; exact hfin
  · obtain ⟨task, hget, hok⟩ := forall2_get hok2 (i := t - new.length) (by omega)
    have e3 : vGet (new ++ rest) t = .ok task := by
      rw [vGet, List.getElem?_append_right (by omega), hget]
    have e4 : vGet (List.replicate new.length (cut + 1) ++ List.replicate rest.length cut) t = .ok cut := by
      rw [vGet, List.getElem?_append_right (by simpa using htn), List.getElem?_replicate, if_pos (by simp; omega)]
    rw [e3, e4]
    simp only [R_bind_ok]
    have hrun := task_run nav leaf hP hR h64 (by omega) (by omega) hok
    have hfin : (Except.ok (oR[t - new.length].map fun x => (t, x)) : R _) = .ok (((oN ++ oR)[t]'htl).map fun x => (t, x)) := by
      rw [List.getElem_append_right (show oN.length ≤ t by omega)]
      simp only [hlN]
    cases runs with
    | true => rw [if_pos rfl] at hrun ⊢; rw [hrun]; exact hfin
    | false => rw [if_neg (by simp)] at hrun ⊢; rw [hrun]; exact hfin

/-- The parallel path. -/
theorem par_body_wide {runs : Bool} {as : List α} {c : Cfg} {b e d height : Nat} {env : Env} {ts : List (Tr (d + 1 + Nat.log2 env.hw))}
    (hne : as ≠ []) (hP : LeafOK nav leaf as c b e) (hR : LeafOKR nav leaf as c b e)
    (hts : List.Forall₂ (fun a t => Rep (nav a) (leaf a) (d + 1 + Nat.log2 env.hw) 0 t 0) as ts) (hlen : as.length ≤ 16)
    (hstop : c.stop = d + 1 + Nat.log2 env.hw + e)
    (htop : c.top = d + 1 + Nat.log2 env.hw + b) (h64 : c.top < 64) (hw : env.hw ≠ 0) (hw' : env.hw < 2 ^ 32)
    (hh : Nat.log2 env.hw ≤ (height + 2 ^ 64 - 2) % 2 ^ 64) :
    intersectBody (as.map nav) c height runs true env = wideOut runs b ts := by
  have hthr : 2 ^ Nat.log2 env.hw ≤ env.hw := Nat.log2_self_le hw
  rw [intersectBody, if_neg hw]
  simp only [hh, and_self, if_true]
  generalize Nat.log2 env.hw = cut at *
  obtain ⟨tasks, e1, h1⟩ := partialAND_wide nav leaf (runs := runs) (as := as) (c := c) (b := b) h64 hne cut (d + 1) 0
    ts _ (List.replicate 16 true) 0 ⟨[], []⟩ (Reps.root nav leaf 16 hlen hts) (fun _ => ⟨by simpa using hlen, by simp⟩) (by omega) (dvd_zero _)
  rw [Nat.zero_add] at h1
  rw [e1, R_bind_ok]
  simp only [List.nil_append]
  have hle := walk_length_le b cut 0 ts
  have hl := h1.length_eq
  have h1k := List.forall₂_take (tasks.length % 2 ^ 16) h1
  have hkept : (walk b cut 0 ts).take (tasks.length % 2 ^ 16) = keptW b ts := by rw [keptW, hl]
  rw [hkept] at h1k
  have hlk : (tasks.take (tasks.length % 2 ^ 16)).length = tasks.length % 2 ^ 16 := by
    rw [List.length_take]; exact Nat.min_eq_left (Nat.mod_le _ _)
  have hlk' := h1k.length_eq
  have hmlt : tasks.length % 2 ^ 16 < 2 ^ 16 := Nat.mod_lt _ (by omega)
  have hmle : tasks.length % 2 ^ 16 ≤ tasks.length := Nat.mod_le _ _
  by_cases h0 : tasks.length = 0
  · rw [if_pos h0, wideOut]
    have hk : keptW b ts = [] := by
      rw [keptW, List.length_eq_zero_iff.1 (hl.symm.trans h0)]; rfl
    simp [hk, halfW]
  rw [if_neg h0]
  generalize hkp : tasks.take (tasks.length % 2 ^ 16) = kept at *
  generalize hM : tasks.length % 2 ^ 16 = M at *
  generalize hus : keptW b ts = us at *
  rw [wideOut, hus]
  by_cases hc : cut ≤ 16
  · rw [if_pos hc]
    have hp : 2 ^ cut ≤ 2 ^ 16 := Nat.pow_le_pow_right (by omega) hc
    obtain ⟨new, e2, k1, k2⟩ := fillThreads_wide nav leaf (n := 2 ^ cut) (total := M) h64 hne (by omega) hp kept us 0 M
      ⟨rpOut runs b cut 0 ts, []⟩ h1k (by simp [hlk]) (by omega) hmlt (by simp [hlk])
    rw [e2, R_bind_ok]
    have hMu : M = us.length := by omega
    simp only [List.nil_append] at k2 ⊢
    rw [hMu, show replaced (2 ^ cut) us.length (us.map fun u => (walk b 1 u.1 u.2).length) = splitW b cut us from rfl] at k1 k2 ⊢
    generalize splitW b cut us = m at *
    have hok1 := forall2_wide nav leaf k1
    have hok2 := forall2_wide nav leaf (List.forall₂_drop m h1k)
    rw [k2]
    generalize hrest : kept.drop m = rest at *
    by_cases hz : (new ++ rest).length = 0
    · rw [if_pos hz]
      rw [List.length_eq_zero_iff, List.append_eq_nil_iff] at hz
      obtain ⟨rfl, rfl⟩ := hz
      have hl1 := k1.length_eq
      have hl2 := hok2.length_eq
      rw [List.length_map] at hl2
      rw [List.length_eq_zero_iff.1 hl1.symm, List.length_eq_zero_iff.1 hl2.symm]
      simp
    rw [if_neg hz]
    rw [List.length_append] at hz
    rw [run_first nav leaf hP hR h64 hstop htop hok1 hok2 (Nat.le_refl _) hz, hok1.length_eq, hok2.length_eq,
      ← List.length_append, List.take_length]
    rw [List.flatten_append, ← List.flatMap_def, ← List.flatMap_def]
  · rw [if_neg hc]
    have hp : 2 ^ 17 ≤ 2 ^ cut := Nat.pow_le_pow_right (by omega) (by omega)
    obtain ⟨new, e2, k1⟩ := fillThreads_all nav leaf (n := 2 ^ cut) (total := M) h64 hne (by omega) ⟨hp, by omega⟩ kept us 0 M
      ⟨rpOut runs b cut 0 ts, []⟩ h1k hmlt (by rw [hlk]; exact (Nat.mod_eq_of_lt hmlt).symm) (by simp [hlk])
    rw [e2, R_bind_ok]
    simp only [List.nil_append, List.append_nil]
    have hok1 := forall2_wide nav leaf k1
    have hl1 := k1.length_eq
    rw [hl1]
    by_cases hz : (halfW b us).length = 0
    · rw [if_pos hz, if_neg (fun h => h.1 hz), List.length_eq_zero_iff.1 hz]
      simp
    rw [if_neg hz]
    by_cases hm : (halfW b us).length % 2 ^ 16 = 0
    · rw [if_pos ⟨hz, hm⟩, hm]
      rfl
    rw [if_neg (fun h => hm h.2)]
    have := run_first nav leaf hP hR h64 hstop htop hok1 (List.Forall₂.nil (R := TaskOK nav leaf False 0 runs as b (d + 1) cut))
      (used := (halfW b us).length % 2 ^ 16) (by rw [hl1]; exact Nat.mod_le _ _) hm
      (rpOut runs b cut 0 ts ++ us.flatMap fun u => rpOut runs b 1 u.1 u.2) env.sched1 env.sched2
    simp only [List.append_nil, List.length_nil, List.replicate_zero, hl1] at this ⊢
    rw [this, ← List.map_take, ← List.flatMap_def]

end

/-! ## Plain tries: the `runs` flag does not matter -/

theorem rp_plain {b : Nat} : (k : Nat) → {d : Nat} → (ts : List (Tr (d + k))) → ts ≠ [] → (∀ t ∈ ts, NE b (d + k) t) → ∀ x, rp b k ts x = false
  | 0, _, _, _, _, _ => rfl
  | k + 1, d, ts, hne, hn, x => by
    have hb : allBare (d := d + k) ts = false := by
      cases ts with
      | nil => exact (hne rfl).elim
      | cons t ts =>
        have hb : Tr.bare (d := d + k) t = false := (hn t List.mem_cons_self).1
        cases h : allBare (d := d + k) (t :: ts) with
        | false => rfl
        | true =>
          simp only [allBare, anyL, anyR, List.any_cons, Bool.and_eq_true, Bool.not_eq_true', Bool.or_eq_false_iff] at h
          rw [bare_iff.2 ⟨h.1.1, h.2.1⟩] at hb
          cases hb
    have hl : ∀ t ∈ lefts (d := d + k) ts, NE b (d + k) t := ne_lefts hn
    have hr : ∀ t ∈ rights (d := d + k) ts, NE b (d + k) t := ne_rights hn
    rw [rp, hb, Bool.false_or]
    split
    · cases hL : allL (d := d + k) ts with
      | false => rfl
      | true =>
        have hne' : lefts (d := d + k) ts ≠ [] := by
          cases ts with
          | nil => exact (hne rfl).elim
          | cons t ts =>
            simp only [allL, List.all_cons, Bool.and_eq_true] at hL
            obtain ⟨u, hu⟩ := Option.isSome_iff_exists.1 hL.1
            simp [lefts, hu]
        rw [rp_plain k _ hne' hl]; rfl
    · cases hR : allR (d := d + k) ts with
      | false => rfl
      | true =>
        have hne' : rights (d := d + k) ts ≠ [] := by
          cases ts with
          | nil => exact (hne rfl).elim
          | cons t ts =>
            simp only [allR, List.all_cons, Bool.and_eq_true] at hR
            obtain ⟨u, hu⟩ := Option.isSome_iff_exists.1 hR.1
            simp [rights, hu]
        rw [rp_plain k _ hne' hr]; rfl

theorem walk_plain {b : Nat} : (k : Nat) → {d : Nat} → (p : Nat) → (ts : List (Tr (d + k))) → ts ≠ [] → (∀ t ∈ ts, NE b (d + k) t) →
    ∀ u ∈ walk b k p ts, u.2 ≠ [] ∧ ∀ t ∈ u.2, NE b d t
  | 0, _, p, ts, hne, hn, u, hu => by
    rw [walk, List.mem_singleton] at hu
    subst hu
    exact ⟨hne, hn⟩
  | k + 1, d, p, ts, hne, hn, u, hu => by
    have hl : ∀ t ∈ lefts (d := d + k) ts, NE b (d + k) t := ne_lefts hn
    have hr : ∀ t ∈ rights (d := d + k) ts, NE b (d + k) t := ne_rights hn
    rw [walk, List.mem_append] at hu
    rcases hu with hu | hu
    · cases hL : allL (d := d + k) ts with
      | false => rw [hL] at hu; simp at hu
      | true =>
        have hne' : lefts (d := d + k) ts ≠ [] := by
          cases ts with
          | nil => exact (hne rfl).elim
          | cons t ts =>
            simp only [allL, List.all_cons, Bool.and_eq_true] at hL
            obtain ⟨u, hu⟩ := Option.isSome_iff_exists.1 hL.1
            simp [lefts, hu]
        rw [if_pos hL] at hu
        exact walk_plain k _ _ hne' hl u hu
    · cases hR : allR (d := d + k) ts with
      | false => rw [hR] at hu; simp at hu
      | true =>
        have hne' : rights (d := d + k) ts ≠ [] := by
          cases ts with
          | nil => exact (hne rfl).elim
          | cons t ts =>
            simp only [allR, List.all_cons, Bool.and_eq_true] at hR
            obtain ⟨u, hu⟩ := Option.isSome_iff_exists.1 hR.1
            simp [rights, hu]
        rw [if_pos hR] at hu
        exact walk_plain k _ _ hne' hr u hu

theorem rpOut_plain {runs : Bool} {b k d p : Nat} {ts : List (Tr (d + k))} (hne : ts ≠ []) (hn : ∀ t ∈ ts, NE b (d + k) t) :
    rpOut runs b k p ts = [] := by
  rw [rpOut]
  split
  · exact enum_false fun x _ => rp_plain k ts hne hn x
  · rfl

theorem outW_plain {runs : Bool} {b d : Nat} {v : Nat × List (Tr d)} (hn : ∀ t ∈ v.2, NE b d t) : outW runs b v = taskOut b v := by
  cases runs with
  | true => rfl
  | false =>
    rw [outW, taskOut]
    refine enum_congr fun x _ => ?_
    rw [allS, allS, Bool.eq_iff_iff, List.all_eq_true, List.all_eq_true]
    refine forall₂_congr fun t ht => ?_
    rw [hasS, hasS, if_neg (by simp), if_pos rfl, (hn t ht).hasR_eq]

/-- On plain trees the flag does not matter. -/
theorem wideOut_plain {runs : Bool} {b d k : Nat} {ts : List (Tr (d + 1 + k))} (hne : ts ≠ []) (hn : ∀ t ∈ ts, NE b (d + 1 + k) t) :
    wideOut runs b ts = wideOut true b ts := by
  have hk : ∀ u ∈ keptW b ts, u.2 ≠ [] ∧ ∀ t ∈ u.2, NE b (d + 1) t := fun u hu => walk_plain k _ ts hne hn u (List.mem_of_mem_take hu)
  have hh : ∀ us : List (Nat × List (Tr (d + 1))), (∀ u ∈ us, u ∈ keptW b ts) → ∀ v ∈ halfW b us, ∀ t ∈ v.2, NE b d t := by
    intro us hus v hv
    obtain ⟨u, hu, hv⟩ := List.mem_flatMap.1 hv
    exact (walk_plain 1 _ u.2 (hk u (hus u hu)).1 (hk u (hus u hu)).2 v hv).2
  have e1 : ∀ us : List (Nat × List (Tr (d + 1))), (∀ u ∈ us, u ∈ keptW b ts) →
      us.flatMap (fun u => rpOut runs b 1 u.1 u.2) = us.flatMap (fun u => rpOut true b 1 u.1 u.2) := fun us hus =>
    List.flatMap_congr fun u hu => by
      rw [rpOut_plain (k := 1) (hk u (hus u hu)).1 (hk u (hus u hu)).2, rpOut_plain (k := 1) (hk u (hus u hu)).1 (hk u (hus u hu)).2]
  have e2 : ∀ vs : List (Nat × List (Tr d)), (∀ v ∈ vs, ∀ t ∈ v.2, NE b d t) → vs.flatMap (outW runs b) = vs.flatMap (outW true b) :=
    fun vs hvs => List.flatMap_congr fun v hv => by rw [outW_plain (hvs v hv), outW_plain (hvs v hv)]
  have e3 : ∀ us : List (Nat × List (Tr (d + 1))), (∀ u ∈ us, u ∈ keptW b ts) → us.flatMap (outW runs b) = us.flatMap (outW true b) :=
    fun us hus => List.flatMap_congr fun v hv => by rw [outW_plain (hk v (hus v hv)).2, outW_plain (hk v (hus v hv)).2]
  have ht : ∀ n, ∀ u ∈ (keptW b ts).take n, u ∈ keptW b ts := fun n u hu => List.mem_of_mem_take hu
  have hd : ∀ n, ∀ u ∈ (keptW b ts).drop n, u ∈ keptW b ts := fun n u hu => List.mem_of_mem_drop hu
  rw [wideOut, wideOut, rpOut_plain (k := k) hne hn, rpOut_plain (k := k) hne hn, e1 _ (ht _), e2 _ (hh _ (ht _)), e3 _ (hd _), e1 _ fun _ h => h,
    e2 _ fun v hv => hh _ (fun _ h => h) v (List.mem_of_mem_take hv)]

end CBT
