import Verif.Proof.AnyInterErr
import Verif.Proof.Affinity

/-!
# The only error of decoding, and of a call with `runs`, is a read outside an array
-/

namespace CBT

theorem Good.weaken {α : Type} {P Q : α → Prop} {x : R α} (h : Good P x) (hq : ∀ a, P a → Q a) : Good Q x := by
  rcases h with ⟨a, h, hp⟩ | h
  · exact .inl ⟨a, h, hq a hp⟩
  · exact .inr h

theorem Good.ite {α : Type} {P : α → Prop} {x y : R α} {p : Prop} [Decidable p] (hx : Good P x) (hy : Good P y) : Good P (if p then x else y) := by
  split
  · exact hx
  · exact hy

theorem fillRange_good {k : Nat} (h : k < 64) (p : Nat) (r : List Nat) : Good (fun _ => True) (fillRange p k r) := by
  rw [fillRange]
  exact (shl1_good h).bind fun _ _ => .ok trivial

/-! ## `decode` -/

theorem recDecode_good {n : Nav} (hn : OobNav n) (hh : n.height ≤ 64) : (rem : Nat) → (out : List Nat) → (part id ℓ : Nat) →
    Good (fun _ => True) (recDecode n rem out part id ℓ)
  | 0, out, part, id, ℓ => .ok trivial
  | rem + 1, out, part, id, ℓ => by
    rw [recDecode]
    refine (hn.node _ _).bind fun node _ => ?_
    have hr : ∀ out, Good (fun _ => True) (if node = 1 ∨ node = 3 then do
        let s ← shl1 (n.height - ℓ - 1)
        let c ← n.getRightChild id ℓ
        recDecode n rem out (part ||| s) c (ℓ + 1)
      else pure out) := fun out => .ite ((shl1_good (by omega)).bind fun _ _ => (hn.right _ _).bind fun _ _ => recDecode_good hn hh rem ..)
        (.ok trivial)
    by_cases h : node = 2 ∨ node = 3
    · simp only [if_pos h]
      exact (hn.left _ _).bind fun _ _ => (recDecode_good hn hh rem ..).bind fun out _ => hr out
    · simp only [if_neg h]
      exact hr out

theorem runsRecDecode_good {n : Nav} (hn : OobNav n) (hh : n.height ≤ 63) : (rem : Nat) → (out : List Nat) → (part id ℓ : Nat) →
    Good (fun _ => True) (runsRecDecode n rem out part id ℓ)
  | 0, out, part, id, ℓ => .ok trivial
  | rem + 1, out, part, id, ℓ => by
    rw [runsRecDecode]
    refine (hn.node _ _).bind fun node _ => .ite (fillRange_good (by omega) _ _) ?_
    have hr : ∀ out, Good (fun _ => True) (if node = 1 ∨ node = 3 then do
        let s ← shl1 (n.height - ℓ - 1)
        let c ← n.getRightChild id ℓ
        runsRecDecode n rem out (part ||| s) c (ℓ + 1)
      else pure out) := fun out => .ite ((shl1_good (by omega)).bind fun _ _ => (hn.right _ _).bind fun _ _ => runsRecDecode_good hn hh rem ..)
        (.ok trivial)
    by_cases h : node = 2 ∨ node = 3
    · simp only [if_pos h]
      exact (hn.left _ _).bind fun _ _ => (runsRecDecode_good hn hh rem ..).bind fun out _ => hr out
    · simp only [if_neg h]
      exact hr out

theorem wordEmit_good {lg : Nat} (hlg : lg ≤ 6) {n : FNav} (hw : ∀ i, Good (fun w => w < 2 ^ 2 ^ lg) (n.getWord i)) (id part : Nat) (out : List Nat) :
    Good (fun _ => True) (n.getWord id >>= fun w => emitWord lg part (2 ^ lg) w out) := by
  refine (hw id).bind fun w hw => ?_
  rw [emitWord_ok hlg _ hw]
  exact .ok trivial

theorem fastRecDecode_good {lg hu : Nat} (hlg : lg ≤ 6) {n : FNav} (hn : OobNav n.toNav) (hw : ∀ i, Good (fun w => w < 2 ^ 2 ^ lg) (n.getWord i))
    (hh : hu ≤ 64) : (rem : Nat) → (out : List Nat) → (part id ℓ : Nat) → Good (fun _ => True) (fastRecDecode lg hu n rem out part id ℓ)
  | 0, out, part, id, ℓ => by
    rw [fastRecDecode]
    exact wordEmit_good hlg hw ..
  | rem + 1, out, part, id, ℓ => by
    rw [fastRecDecode]
    refine (hn.node _ _).bind fun node _ => ?_
    have hr : ∀ out, Good (fun _ => True) (if node = 1 ∨ node = 3 then do
        let s ← shl1 (hu - ℓ - 1)
        let c ← n.getRightChild id ℓ
        fastRecDecode lg hu n rem out (part ||| s) c (ℓ + 1)
      else pure out) := fun out => .ite ((shl1_good (by omega)).bind fun _ _ => (hn.right _ _).bind fun _ _ =>
        fastRecDecode_good hlg hn hw hh rem ..) (.ok trivial)
    by_cases h : node = 2 ∨ node = 3
    · simp only [if_pos h]
      exact (hn.left _ _).bind fun _ _ => (fastRecDecode_good hlg hn hw hh rem ..).bind fun out _ => hr out
    · simp only [if_neg h]
      exact hr out

theorem fastRunsRecDecode_good {lg hu : Nat} (hlg : lg ≤ 6) {n : FNav} (hn : OobNav n.toNav)
    (hw : ∀ i, Good (fun w => w < 2 ^ 2 ^ lg) (n.getWord i)) (hh : hu ≤ 63) : (rem : Nat) → (out : List Nat) → (part id ℓ : Nat) →
    Good (fun _ => True) (fastRunsRecDecode lg hu n rem out part id ℓ)
  | 0, out, part, id, ℓ => by
    rw [fastRunsRecDecode]
    exact wordEmit_good hlg hw ..
  | rem + 1, out, part, id, ℓ => by
    rw [fastRunsRecDecode]
    refine (hn.node _ _).bind fun node _ => .ite (fillRange_good (by omega) _ _) ?_
    have hr : ∀ out, Good (fun _ => True) (if node = 1 ∨ node = 3 then do
        let s ← shl1 (hu - ℓ - 1)
        let c ← n.getRightChild id ℓ
        fastRunsRecDecode lg hu n rem out (part ||| s) c (ℓ + 1)
      else pure out) := fun out => .ite ((shl1_good (by omega)).bind fun _ _ => (hn.right _ _).bind fun _ _ =>
        fastRunsRecDecode_good hlg hn hw hh rem ..) (.ok trivial)
    by_cases h : node = 2 ∨ node = 3
    · simp only [if_pos h]
      exact (hn.left _ _).bind fun _ _ => (fastRunsRecDecode_good hlg hn hw hh rem ..).bind fun out _ => hr out
    · simp only [if_neg h]
      exact hr out

theorem FastTrie.wordLtGood {lg : Nat} {t : FastTrie} (hw : ∀ w ∈ t.lastLevel, w < 2 ^ 2 ^ lg) (pad i : Nat) :
    Good (fun w => w < 2 ^ 2 ^ lg) ((t.nav pad).getWord i) := by
  show Good _ (t.getWord i)
  rw [FastTrie.getWord]
  split
  · exact .inr rfl
  · rw [vGet]
    split
    · next x hx => exact .ok (hw _ (List.mem_of_getElem? hx))
    · exact .inr rfl

/-! ## `runsAND` -/

/-- The roots of the active tries are written. -/
def ActSome (os : List (Option Nat)) (as : List Bool) : Prop := ∀ p ∈ os.zip as, p.2 = true → p.1 ≠ none

theorem ActSome.cons {o : Option Nat} {os : List (Option Nat)} {a : Bool} {as : List Bool} :
    ActSome (o :: os) (a :: as) ↔ (a = true → o ≠ none) ∧ ActSome os as := by
  simp [ActSome]

theorem AllSome.act {os : List (Option Nat)} (h : AllSome os) (as : List Bool) : ActSome os as :=
  fun p hp _ => h p.1 (List.of_mem_zip hp).1

theorem succRoots_act {os : List (Option Nat)} {as : List Bool} (h : ActSome os as) : ActSome (succRoots os) as := by
  induction os generalizing as with
  | nil => simpa [succRoots] using h
  | cons o os ih =>
    cases as with
    | nil => simp [ActSome]
    | cons a as =>
      rw [ActSome.cons] at h
      rw [succRoots, List.map_cons, ActSome.cons]
      refine ⟨fun ha => ?_, ih h.2⟩
      cases o with
      | none => exact (h.1 ha rfl).elim
      | some x => simp

theorem runsNodes_good (ℓ : Nat) : (Ts : List Nav) → (∀ n ∈ Ts, OobNav n) → (os : List (Option Nat)) → (as : List Bool) → ActSome os as →
    (an orr : Nat) → Good (fun x => ActSome os x.1) (runsNodes Ts os as ℓ an orr)
  | [], _, os, _, _, _, _ => .ok (by simp [ActSome])
  | _ :: _, _, [], _, _, _, _ => .inr rfl
  | _ :: _, _, _ :: _, [], _, _, _ => .inr rfl
  | T :: Ts, hT, o :: os, a :: as, ho, an, orr => by
    rw [ActSome.cons] at ho
    have ih := fun an orr => runsNodes_good ℓ Ts (fun n hn => hT n (by simp [hn])) os as ho.2 an orr
    rw [runsNodes]
    cases a with
    | true =>
      simp only [if_true]
      refine (readRoot_good (ho.1 rfl)).bind fun _ _ => ((hT T (by simp)).node _ _).bind fun node _ => ?_
      refine .ite ((ih _ _).bind fun x hx => .ok ?_) ((ih _ _).bind fun x hx => .ok ?_)
      · exact ActSome.cons.2 ⟨fun _ => ho.1 rfl, hx⟩
      · exact ActSome.cons.2 ⟨by simp, hx⟩
    | false =>
      simp only [Bool.false_eq_true, if_false]
      exact (ih _ _).bind fun x hx => .ok (ActSome.cons.2 ⟨by simp, hx⟩)

theorem childrenActive_good {get : Nav → Nat → Nat → R Nat} (skip : Bool) (ℓ : Nat) : (Ts : List Nav) →
    (∀ n ∈ Ts, ∀ i ℓ, Good (fun _ => True) (get n i ℓ)) → (os : List (Option Nat)) → (as : List Bool) → ActSome os as →
    Good (fun ln => skip = false → ActSome ln as) (childrenActive get skip ℓ Ts os as)
  | [], _, _, _, _ => .ok (by simp [ActSome])
  | _ :: _, _, [], _, _ => .inr rfl
  | _ :: _, _, _ :: _, [], _ => .inr rfl
  | T :: Ts, hT, o :: os, a :: as, ho => by
    rw [ActSome.cons] at ho
    have ih := childrenActive_good skip ℓ Ts (fun n hn => hT n (by simp [hn])) os as ho.2
    rw [childrenActive]
    by_cases h : (a && !skip) = true
    · simp only [if_pos h]
      rw [Bool.and_eq_true] at h
      refine (readRoot_good (ho.1 h.1)).bind fun _ _ => (hT T (by simp) _ _).bind fun x _ => ih.bind fun ln hl => .ok fun hs => ?_
      exact ActSome.cons.2 ⟨by simp, hl hs⟩
    · simp only [if_neg h]
      refine ih.bind fun ln hl => .ok fun hs => ActSome.cons.2 ⟨fun ha => ?_, hl hs⟩
      exact absurd (by simp [ha, hs]) h

/-- The hypotheses on the end condition. -/
structure GoodCfgR (c : Cfg) : Prop where
  top : c.top ≤ 63
  base : ∀ os as p r, (c.skipLast = true ∨ ActSome os as) → Good (fun _ => True) (c.runsBase os as p r)

section
variable {Ts : List Nav} {c : Cfg}

theorem runsAND_good (hT : ∀ n ∈ Ts, OobNav n) (hc : GoodCfgR c) : (k ℓ : Nat) → (os : List (Option Nat)) → (as : List Bool) → (p : Nat) →
    (r : List Nat) → (c.skipLast = true ∧ k = 0 ∨ ActSome os as) → Good (fun _ => True) (runsAND Ts c k ℓ os as p r)
  | 0, ℓ, os, as, p, r, h => by
    rw [runsAND]
    exact hc.base _ _ _ _ (h.imp_left And.left)
  | k + 1, ℓ, os, as, p, r, h => by
    have ho : ActSome os as := by
      rcases h with h | h
      · exact absurd h.2 (by omega)
      · exact h
    have hs : Good (fun _ => True) (shl1 (c.top - ℓ - 1)) := shl1_good (by have := hc.top; omega)
    have hnext : ∀ ln tmp, ((c.skipLast && decide (k = 0)) = false → ActSome ln tmp) → c.skipLast = true ∧ k = 0 ∨ ActSome ln tmp := by
      intro ln tmp h
      by_cases hk : c.skipLast = true ∧ k = 0
      · exact .inl hk
      · refine .inr (h ?_)
        rw [Bool.and_eq_false_iff]
        by_cases h1 : c.skipLast = true
        · exact .inr (decide_eq_false fun h2 => hk ⟨h1, h2⟩)
        · exact .inl (by simpa using h1)
    rw [runsAND]
    refine (runsNodes_good ℓ Ts hT os as ho 3 0).bind fun x hx => ?_
    obtain ⟨tmp, an, orr⟩ := x
    have hl := childrenActive_good (get := Nav.getLeftChild) (c.skipLast && decide (k = 0)) ℓ Ts (fun n hn => (hT n hn).left) os tmp hx
    have hr := childrenActive_good (get := Nav.getRightChild) (c.skipLast && decide (k = 0)) ℓ Ts (fun n hn => (hT n hn).right) os tmp hx
    simp only
    split
    · exact .ok trivial
    split
    · exact fillRange_good (by have := hc.top; omega) _ _
    split
    · exact hl.bind fun ln h => runsAND_good hT hc k _ ln _ _ _ (hnext ln _ h)
    split
    · exact hs.bind fun _ _ => hr.bind fun ln h => runsAND_good hT hc k _ ln _ _ _ (hnext ln _ h)
    split
    · refine hs.bind fun _ _ => hl.bind fun ln h => (runsAND_good hT hc k _ ln _ _ _ (hnext ln _ h)).bind fun _ _ =>
        runsAND_good hT hc k _ _ _ _ _ ((hnext ln _ h).imp_right succRoots_act)
    · exact .ok trivial

/-! ## The parallel call -/

theorem partialNodes_good (ℓ : Nat) : (Ts : List Nav) → (∀ n ∈ Ts, OobNav n) → (os : List (Option Nat)) → AllSome os → (as : List Bool) →
    (res n00 : Nat) → Good (fun _ => True) (partialNodes true Ts os as ℓ res n00)
  | [], _, os, _, _, _, _ => by rw [partialNodes]; exact .ok trivial
  | _ :: _, _, [], _, _, _, _ => .inr rfl
  | _ :: _, _, _ :: _, _, [], _, _ => .inr rfl
  | T :: Ts, hT, o :: os, ho, a :: as, res, n00 => by
    have ih := fun res n00 => partialNodes_good ℓ Ts (fun n hn => hT n (by simp [hn])) os (fun o' h => ho o' (by simp [h])) as res n00
    rw [partialNodes]
    simp only [if_true]
    cases a with
    | true =>
      simp only [if_true]
      exact (readRoot_good (ho o (by simp))).bind fun _ _ => ((hT T (by simp)).node _ _).bind fun _ _ => (ih _ _).bind fun _ _ => .ok trivial
    | false =>
      simp only [Bool.false_eq_true, if_false]
      exact (ih _ _).bind fun _ _ => .ok trivial

theorem partialR_good (hT : ∀ n ∈ Ts, OobNav n) (hc : c.top ≤ 63) : (k ℓ : Nat) → (os : List (Option Nat)) → (act : List Bool) →
    (part : Nat) → (s : PSt) → AllSome os → TasksSome s → Good TasksSome (partialAND Ts c true k ℓ os act part s)
  | 0, ℓ, os, act, part, s, ho, hs => by
    rw [partialAND]
    split
    · exact .inr rfl
    · refine .ok fun T hT => ?_
      rcases List.mem_append.1 hT with h | h
      · exact hs T h
      · rw [List.mem_singleton.1 h]; exact take_some ho _
  | k + 1, ℓ, os, act, part, s, ho, hs => by
    have hsh : Good (fun _ => True) (shl1 (c.top - ℓ - 1)) := shl1_good (by omega)
    have hl := children_good (get := Nav.getLeftChild) false ℓ Ts (fun n hn => (hT n hn).left) os ho
    have hr := children_good (get := Nav.getRightChild) false ℓ Ts (fun n hn => (hT n hn).right) os ho
    rw [partialAND]
    refine (partialNodes_good ℓ Ts hT os ho act 3 0).bind fun x _ => ?_
    obtain ⟨tmp, res, n00⟩ := x
    simp only
    split
    · exact .ok hs
    split
    · exact (fillRange_good (by omega) _ _).bind fun _ _ => .ok hs
    split
    · exact hl.bind fun ln h => partialR_good hT hc k _ ln _ _ _ (h rfl) hs
    split
    · exact hsh.bind fun _ _ => hr.bind fun ln h => partialR_good hT hc k _ ln _ _ _ (h rfl) hs
    split
    · exact hsh.bind fun _ _ => hl.bind fun ln h => (partialR_good hT hc k _ ln _ _ _ (h rfl) hs).bind fun s' hs' =>
        partialR_good hT hc k _ _ _ _ _ (succRoots_some (h rfl)) hs'
    · exact .ok hs

theorem fillR_good (hT : ∀ n ∈ Ts, OobNav n) (hc : c.top ≤ 63) (cut N total : Nat) : (todo : List Task) → (i used : Nat) → (s : PSt) →
    (∀ T ∈ todo, AllSome T.roots) → TasksSome s →
    Good (fun x => (∀ T ∈ x.1, AllSome T.roots) ∧ TasksSome x.2.2) (fillThreads Ts c true cut N total todo i used s)
  | [], i, used, s, _, hs => by
    rw [fillThreads]; exact .ok ⟨by simp, hs⟩
  | t :: todo, i, used, s, h, hs => by
    rw [fillThreads]
    split
    · exact (partialR_good hT hc _ _ _ _ _ _ (h t (by simp)) hs).bind fun s' hs' =>
        fillR_good hT hc cut N total todo _ _ _ (fun T hT => h T (by simp [hT])) hs'
    · exact .ok ⟨h, hs⟩

end

/-- Every thread has a task, and the other way round. -/
theorem fillThreads_used (Ts : List Nav) (c : Cfg) (runs : Bool) (cut n total : Nat) : (todo : List Task) →
    (i used : Nat) → (s : PSt) → used ≤ n → used = todo.length + s.tasks.length → total = todo.length + i → n ≤ 2 ^ 15 →
    (rest : List Task) → (u : Nat) → (s' : PSt) → fillThreads Ts c runs cut n total todo i used s = .ok (rest, u, s') →
    u = s'.tasks.length + rest.length
  | [], i, used, s, hu, hl, ht, hn, rest, u, s', h => by
    rw [fillThreads] at h
    cases h
    simpa using hl
  | T :: todo, i, used, s, hu, hl, ht, hn, rest, u, s', h => by
    rw [fillThreads] at h
    simp only [List.length_cons] at hl ht
    split at h
    · obtain ⟨s1, h1, h⟩ := bind_ok h
      have hc := partialAND_count Ts c runs 1 _ _ _ _ _ _ h1
      have hm : (total + s1.tasks.length - (i + 1)) % 2 ^ 16 = todo.length + s1.tasks.length := by omega
      rw [hm] at h
      exact fillThreads_used Ts c runs cut n total todo (i + 1) _ s1 (by omega) rfl (by omega) hn rest u s' h
    · cases h
      simp only [List.length_cons]
      omega

/-- A call, with any tries, parallel or not. -/
theorem body_good {Ts : List Nav} {c : Cfg} (hT : ∀ n ∈ Ts, OobNav n) {runs : Bool} (hp : runs = false → GoodCfg c) (hr : runs = true → GoodCfgR c)
    {height : Nat} {par : Bool} {env : Env} (hw : env.hw ≠ 0) (hw2 : env.hw < 2 ^ 16) :
    Good (fun _ => True) (intersectBody Ts c height runs par env) := by
  have hroots : AllSome (List.replicate 16 (some 0)) := fun o ho => by rw [(List.mem_replicate.1 ho).2]; simp
  by_cases hcut : par = true ∧ Nat.log2 env.hw ≤ (height + 2 ^ 64 - 2) % 2 ^ 64
  · obtain ⟨rfl, hcut⟩ := hcut
    have hk : Nat.log2 env.hw ≤ 15 := Nat.lt_succ_iff.1 ((Nat.log2_lt hw).2 hw2)
    have hpow : 2 ^ Nat.log2 env.hw ≤ 2 ^ 15 := Nat.pow_le_pow_right (by decide) hk
    rw [body_section _ _ _ _ _ hw hcut]
    have g0 : Good TasksSome (partialAND Ts c runs (Nat.log2 env.hw) 0 (List.replicate 16 (some 0)) (List.replicate 16 true) 0
        { r := [], tasks := [] }) := by
      cases runs with
      | false => exact partial_good hT (hp rfl).top _ _ _ _ _ _ hroots (by simp [TasksSome])
      | true => exact partialR_good hT (hr rfl).top _ _ _ _ _ _ hroots (by simp [TasksSome])
    rcases g0 with ⟨s, e0, g0⟩ | e0
    swap
    · rw [e0]; exact .inr rfl
    have hc := partialAND_count Ts c runs _ _ _ _ _ _ _ e0
    simp only [List.length_nil, Nat.zero_add] at hc
    rw [e0, R_bind_ok]
    refine .ite (.ok trivial) ?_
    rw [Nat.mod_eq_of_lt (show s.tasks.length < 2 ^ 16 by omega), List.take_length]
    have f0 : Good (fun x => (∀ T ∈ x.1, AllSome T.roots) ∧ TasksSome x.2.2) (fillThreads Ts c runs (Nat.log2 env.hw)
        (2 ^ Nat.log2 env.hw) s.tasks.length s.tasks 0 s.tasks.length { s with tasks := [] }) := by
      cases runs with
      | false => exact fill_good hT (hp rfl).top _ _ _ _ _ _ _ g0 (by simp [TasksSome])
      | true => exact fillR_good hT (hr rfl).top _ _ _ _ _ _ _ g0 (by simp [TasksSome])
    rcases f0 with ⟨⟨rest, used, s'⟩, e1, f1, f2⟩ | e1
    swap
    · rw [e1]; exact .inr rfl
    have hu := fillThreads_used Ts c runs _ _ _ _ _ _ _ hc (by simp) (by simp) hpow _ _ _ e1
    rw [e1, R_bind_ok]
    simp only
    split
    · exact .ok trivial
    rename_i hne
    rw [if_neg (by rw [List.length_append] at hne; omega)]
    refine (Good.mapM _ fun t _ => ?_).bind fun _ _ => .ok trivial
    rw [threadOut_jobs]
    have hjobs : Good (fun p : Task × Nat => AllSome p.1.roots) (vGet (s'.tasks.map (fun T => (T, Nat.log2 env.hw + 1)) ++
        rest.map fun T => (T, Nat.log2 env.hw)) t) := by
      rw [vGet]
      split
      · rename_i p hp
        refine .ok ?_
        rcases List.mem_append.1 (List.mem_of_getElem? hp) with h | h
        · obtain ⟨T, hT, rfl⟩ := List.mem_map.1 h
          exact f2 T hT
        · obtain ⟨T, hT, rfl⟩ := List.mem_map.1 h
          exact f1 T hT
      · exact .inr rfl
    refine hjobs.bind fun p hp' => ?_
    cases runs with
    | false => exact AND_good hT (hp rfl) _ _ _ _ _ (.inr hp')
    | true => exact runsAND_good hT (hr rfl) _ _ _ _ _ _ (.inr (hp'.act _))
  · rw [intersectBody]
    simp only [hw, hcut, if_false]
    cases runs with
    | false => exact AND_good hT (hp rfl) _ _ _ _ _ (.inr hroots)
    | true => exact runsAND_good hT (hr rfl) _ _ _ _ _ _ (.inr (hroots.act _))

/-! ## The two end conditions -/

theorem flat_goodCfgR {h : Nat} (hh : h ≤ 63) : GoodCfgR (flatCfg h) where
  top := hh
  base _ _ _ _ _ := .ok trivial

theorem andWordsActive_good {lg : Nat} : (Ts : List FNav) → (∀ n ∈ Ts, ∀ i, Good (fun _ => True) (n.getWord i)) → (os : List (Option Nat)) →
    (as : List Bool) → ActSome os as → (w : Nat) → w < 2 ^ 2 ^ lg → Good (fun x => x < 2 ^ 2 ^ lg) (andWordsActive Ts os as w)
  | [], _, _, _, _, _, hw => .ok hw
  | _ :: _, _, [], _, _, _, _ => .inr rfl
  | _ :: _, _, _ :: _, [], _, _, _ => .inr rfl
  | T :: Ts, hT, o :: os, a :: as, ho, w, hw => by
    rw [ActSome.cons] at ho
    have ih := fun w hw => andWordsActive_good (lg := lg) Ts (fun n hn => hT n (by simp [hn])) os as ho.2 w hw
    rw [andWordsActive]
    cases a with
    | true => exact (readRoot_good (ho.1 rfl)).bind fun _ _ => (hT T (by simp) _).bind fun _ _ => ih _ (Nat.lt_of_le_of_lt Nat.and_le_left hw)
    | false => exact ih _ hw

theorem fast_goodCfgR {lg h : Nat} (hlg : lg ≤ 6) {Ts : List FNav} (hT : ∀ n ∈ Ts, ∀ i, Good (fun _ => True) (n.getWord i))
    (hh : h + lg ≤ 64) : GoodCfgR (fastCfg lg Ts h) where
  top := by show h + lg - 1 ≤ 63; omega
  base os as p r ho := by
    show Good _ (andWordsActive Ts os as (2 ^ 2 ^ lg - 1) >>= fun w => emitWord lg p (2 ^ lg) w r)
    have ho : ActSome os as := by
      rcases ho with h | h
      · cases h
      · exact h
    refine (andWordsActive_good (lg := lg) Ts hT os as ho _ (Nat.sub_lt (Nat.two_pow_pos _) (by omega))).bind fun w hw => ?_
    rw [emitWord_ok hlg _ hw]
    exact .ok trivial

end CBT
