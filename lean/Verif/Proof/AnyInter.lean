import Verif.Proof.Height1
import Verif.Proof.StrictPar
import Verif.Proof.Capacity

/-!
# `Intersect` on tries in any state

Nothing is assumed of the answers of the tries: they may be wrong or undefined.
-/

namespace CBT

theorem bind_eq_ok {α β : Type} {x : R α} {f : α → R β} {b : β} : (x >>= f) = .ok b ↔ ∃ a, x = .ok a ∧ f a = .ok b := by
  constructor
  · exact bind_ok
  · rintro ⟨a, rfl, h⟩; exact h

/-! ## The parallel section -/

theorem mapM_pushes (f : Nat → R (List Nat)) : (l : List Nat) → (e : UB) → l.mapM f = .error e →
    (l.map fun i => (i * 1, i * 1 + 1)).mapM (fun c => do
      let bs ← (chunkIndices c).mapM fun t => f t >>= fun out => pure (out.map fun x => (t, x))
      pure bs.flatten) = (.error e : R (List (List (Nat × Nat))))
  | [], _, h => by cases h
  | i :: l, e, h => by
    have hc : chunkIndices (i * 1, i * 1 + 1) = [i] := by simp [chunkIndices]
    rw [List.map_cons, List.mapM_cons, hc]
    rw [List.mapM_cons] at h
    cases hi : f i with
    | error e' =>
      rw [hi] at h
      cases h
      simp only [List.mapM_cons, hi]
      rfl
    | ok o =>
      rw [hi, R_bind_ok] at h
      have hl : l.mapM f = .error e := by
        cases hl : l.mapM f with
        | error e' => rw [hl] at h; cases h; rfl
        | ok os => rw [hl] at h; cases h
      have ih := mapM_pushes f l e hl
      simp only [List.mapM_cons, List.mapM_nil, hi, R_bind_ok, R_pure]
      simp only [R_pure] at ih
      rw [ih]
      rfl

/-- One index per thread: the results of the threads, or the error of the first index that has one. -/
theorem parallelFor_section (sched : List Nat) (n : Nat) (f : Nat → R (List Nat)) :
    parallelFor actPush sched n n (fun t => f t >>= fun out => pure (out.map fun x => (t, x))) (List.replicate n []) =
      if n = 0 then .error .conv else (List.range n).mapM f := by
  by_cases hn : n = 0
  · subst hn; rfl
  rw [if_neg hn]
  cases hf : (List.range n).mapM f with
  | error e =>
    have hp : parallelChunks n n = .ok ((List.range n).map (fun i => (i * 1, i * 1 + 1)) ++ [(n * 1, n * 1 + 0)]) := by
      rw [parallelChunks, if_neg hn, Nat.div_self (by omega), Nat.mod_self]
    rw [parallelFor, hp, R_bind_ok, List.mapM_append, mapM_pushes f _ e hf]
    rfl
  | ok outs =>
    have key : ∀ (l : List Nat) (outs : List (List Nat)), l.mapM f = .ok outs → List.Forall₂ (fun t o => f t = .ok o) l outs := by
      intro l
      induction l with
      | nil => intro outs h; cases h; exact .nil
      | cons t l ih =>
        intro outs h
        rw [List.mapM_cons] at h
        cases ht : f t with
        | error e => rw [ht] at h; cases h
        | ok o =>
          rw [ht, R_bind_ok] at h
          cases hl : l.mapM f with
          | error e => rw [hl] at h; cases h
          | ok os => rw [hl] at h; cases h; exact .cons ht (ih _ hl)
    have h2 := key _ _ hf
    have hlen : outs.length = n := by rw [← h2.length_eq, List.length_range]
    have h3 : ∀ t (ht : t < outs.length), f t = .ok outs[t] := by
      intro t ht
      have := h2.get (i := t) (by simpa [hlen] using ht) ht
      simpa using this
    have := parallelFor_push (sched := sched) (outs := outs)
      (body := fun t => f t >>= fun out => pure (out.map fun x => (t, x))) (by rintro rfl; exact hn hlen.symm)
      (fun t ht => by rw [h3 t ht]; rfl)
    rw [hlen] at this
    exact this

theorem mapM_length {α β : Type} {f : α → R β} : (l : List α) → (outs : List β) → l.mapM f = .ok outs → outs.length = l.length
  | [], _, h => by cases h; rfl
  | t :: l, outs, h => by
    rw [List.mapM_cons] at h
    cases ht : f t with
    | error e => rw [ht] at h; cases h
    | ok o =>
      rw [ht, R_bind_ok] at h
      cases hl : l.mapM f with
      | error e => rw [hl] at h; cases h
      | ok os => rw [hl] at h; cases h; simp [mapM_length l os hl]

/-- Both parallel sections: the results one after the other. -/
theorem section_gather (s1 s2 : List Nat) (n : Nat) (r : List Nat) (f : Nat → R (List Nat)) :
    (parallelFor actPush s1 n n (fun t => f t >>= fun out => pure (out.map fun x => (t, x))) (List.replicate n []) >>= fun results =>
      gather s2 r results n) =
      if n = 0 then .error .conv else (List.range n).mapM f >>= fun outs => .ok (r ++ outs.flatten) := by
  rw [parallelFor_section]
  by_cases hn : n = 0
  · rw [if_pos hn, if_pos hn]; rfl
  rw [if_neg hn, if_neg hn]
  cases hf : (List.range n).mapM f with
  | error e => rfl
  | ok outs =>
    have hl := mapM_length _ _ hf
    rw [List.length_range] at hl
    rw [R_bind_ok, R_bind_ok]
    have := gather_ok s2 r outs (by rintro rfl; exact hn hl.symm)
    rw [hl] at this
    exact this

/-- What one thread computes. -/
def threadOut (Ts : List Nav) (c : Cfg) (runs : Bool) (next : List Task) (levels : List Nat) (t : Nat) : R (List Nat) := do
  let task ← vGet next t
  let level ← vGet levels t
  if runs then runsAND Ts c (c.stop - level) level task.roots task.active task.part []
  else AND Ts c (c.stop - level) level task.roots task.part []

/-- The body of `Intersect` without the interleavings. -/
theorem body_section (Ts : List Nav) (c : Cfg) (height : Nat) (runs : Bool) (env : Env) (hw : env.hw ≠ 0)
    (hcut : Nat.log2 env.hw ≤ (height + 2 ^ 64 - 2) % 2 ^ 64) :
    intersectBody Ts c height runs true env =
      (partialAND Ts c runs (Nat.log2 env.hw) 0 (List.replicate 16 (some 0)) (List.replicate 16 true) 0 { r := [], tasks := [] } >>= fun s =>
        if s.tasks.length = 0 then .ok s.r else
          fillThreads Ts c runs (Nat.log2 env.hw) (2 ^ Nat.log2 env.hw) (s.tasks.length % 2 ^ 16)
            (s.tasks.take (s.tasks.length % 2 ^ 16)) 0 (s.tasks.length % 2 ^ 16) { s with tasks := [] } >>= fun x =>
          if (x.2.2.tasks ++ x.1).length = 0 then .ok x.2.2.r else
            if x.2.1 = 0 then .error .conv else
              (List.range x.2.1).mapM (threadOut Ts c runs (x.2.2.tasks ++ x.1)
                (List.replicate x.2.2.tasks.length (Nat.log2 env.hw + 1) ++ List.replicate x.1.length (Nat.log2 env.hw))) >>= fun outs =>
              .ok (x.2.2.r ++ outs.flatten)) := by
  rw [intersectBody]
  simp only [hw, if_false, true_and, hcut, if_true]
  refine bind_congr fun s => ?_
  split
  · rfl
  refine bind_congr fun x => ?_
  split
  · rfl
  rw [← section_gather env.sched1 env.sched2]
  congr 2
  funext t
  simp only [threadOut, bind_assoc]
  cases runs <;> rfl

/-- The schedules do not matter, in any state. -/
theorem body_sched (Ts : List Nav) (c : Cfg) (height : Nat) (runs par : Bool) (hw : Nat) (s1 s2 s1' s2' : List Nat) :
    intersectBody Ts c height runs par ⟨hw, s1, s2⟩ = intersectBody Ts c height runs par ⟨hw, s1', s2'⟩ := by
  by_cases h0 : hw = 0
  · subst h0; rfl
  by_cases hcut : Nat.log2 hw ≤ (height + 2 ^ 64 - 2) % 2 ^ 64
  · cases par with
    | true => rw [body_section _ _ _ _ _ h0 hcut, body_section _ _ _ _ _ h0 hcut]
    | false => rfl
  · have : ¬ (par = true ∧ Nat.log2 hw ≤ (height + 2 ^ 64 - 2) % 2 ^ 64) := fun h => hcut h.2
    simp only [intersectBody, this, if_false]

/-! ## Tasks of a plain call -/

/-- What an end condition must do: it appends, and it looks at no more roots than there are tries. -/
structure PlainBase (Ts : List Nav) (c : Cfg) : Prop where
  app : ∀ os p r, c.base os p r = (c.base os p [] >>= fun x => .ok (r ++ x))
  take : ∀ os p r, c.base (os.take Ts.length) p r = c.base os p r

/-- The outputs of the tasks, one after the other. -/
def Outs {α : Type} (f : α → R (List Nat)) : List α → List Nat → Prop
  | [], L => L = []
  | T :: l, L => ∃ o L', f T = .ok o ∧ Outs f l L' ∧ L = o ++ L'

theorem Outs_append {α : Type} {f : α → R (List Nat)} : (l m : List α) → (L : List Nat) →
    (Outs f (l ++ m) L ↔ ∃ L1 L2, Outs f l L1 ∧ Outs f m L2 ∧ L = L1 ++ L2)
  | [], m, L => by simp [Outs]
  | T :: l, m, L => by
    rw [List.cons_append]
    simp only [Outs]
    constructor
    · rintro ⟨o, L', h1, h2, rfl⟩
      obtain ⟨L1, L2, h3, h4, rfl⟩ := (Outs_append l m L').1 h2
      exact ⟨o ++ L1, L2, ⟨o, L1, h1, h3, rfl⟩, h4, by simp⟩
    · rintro ⟨L1, L2, ⟨o, L', h1, h2, rfl⟩, h4, rfl⟩
      exact ⟨o, L' ++ L2, h1, (Outs_append l m _).2 ⟨L', L2, h2, h4, rfl⟩, by simp⟩

theorem Outs_map {α β : Type} {f : β → R (List Nat)} (g : α → β) : (l : List α) → (L : List Nat) →
    (Outs f (l.map g) L ↔ Outs (fun x => f (g x)) l L)
  | [], L => by simp [Outs]
  | T :: l, L => by simp only [List.map_cons, Outs, Outs_map g l]

theorem Outs_mapM {α : Type} {f : α → R (List Nat)} : (l : List α) → (L : List Nat) →
    (Outs f l L ↔ (l.mapM f >>= fun outs => .ok outs.flatten) = .ok L)
  | [], L => by
    simp only [Outs, List.mapM_nil, R_pure, R_bind_ok, List.flatten_nil, Except.ok.injEq]
    exact eq_comm
  | T :: l, L => by
    simp only [Outs, List.mapM_cons]
    constructor
    · rintro ⟨o, L', h1, h2, rfl⟩
      obtain ⟨outs, h3, h4⟩ := bind_eq_ok.1 ((Outs_mapM l L').1 h2)
      cases h4
      rw [h1, R_bind_ok, h3]
      rfl
    · intro h
      obtain ⟨outs, h, h'⟩ := bind_eq_ok.1 h
      obtain ⟨o, ho, h⟩ := bind_eq_ok.1 h
      obtain ⟨os, hos, h⟩ := bind_eq_ok.1 h
      cases h
      cases h'
      exact ⟨o, os.flatten, ho, (Outs_mapM l _).2 (by rw [hos, R_bind_ok]), rfl⟩

theorem Outs_singleton {α : Type} {f : α → R (List Nat)} {T : α} {L : List Nat} : Outs f [T] L ↔ f T = .ok L := by
  simp only [Outs]
  constructor
  · rintro ⟨o, L', h, rfl, rfl⟩; simpa using h
  · exact fun h => ⟨L, [], h, rfl, by simp⟩

section
variable {Ts : List Nav} {c : Cfg}

theorem andNodes_take (ℓ : Nat) : (Ts : List Nav) → (os : List (Option Nat)) → (res : Nat) →
    andNodes Ts (os.take Ts.length) ℓ res = andNodes Ts os ℓ res
  | [], os, res => by simp [andNodes]
  | T :: Ts, [], res => rfl
  | T :: Ts, o :: os, res => by
    rw [List.length_cons, List.take_succ_cons, andNodes, andNodes]
    simp only [andNodes_take ℓ Ts os]

theorem children_take (get : Nav → Nat → Nat → R Nat) (skip : Bool) (ℓ : Nat) : (Ts : List Nav) → (os : List (Option Nat)) →
    children get skip ℓ Ts (os.take Ts.length) = children get skip ℓ Ts os
  | [], os => by simp [children]
  | T :: Ts, [] => rfl
  | T :: Ts, o :: os => by
    rw [List.length_cons, List.take_succ_cons, children, children]
    simp only [children_take get skip ℓ Ts os]

theorem children_length {get : Nav → Nat → Nat → R Nat} {skip : Bool} {ℓ : Nat} : {Ts : List Nav} → {os ln : List (Option Nat)} →
    children get skip ℓ Ts os = .ok ln → ln.length = Ts.length
  | [], os, ln, h => by simp [children] at h; simp [← h]
  | T :: Ts, [], ln, h => by simp [children] at h
  | T :: Ts, o :: os, ln, h => by
    rw [children] at h
    cases skip with
    | true =>
      obtain ⟨_, -, h⟩ := bind_eq_ok.1 h
      obtain ⟨cs, h1, h⟩ := bind_eq_ok.1 h
      cases h
      simp [children_length h1]
    | false =>
      obtain ⟨id, -, h⟩ := bind_eq_ok.1 h
      obtain ⟨x, -, h⟩ := bind_eq_ok.1 h
      obtain ⟨_, -, h⟩ := bind_eq_ok.1 h
      obtain ⟨cs, h1, h⟩ := bind_eq_ok.1 h
      cases h
      simp [children_length h1]

theorem AND_take (hB : PlainBase Ts c) (k ℓ : Nat) (os : List (Option Nat)) (p : Nat) (r : List Nat) :
    AND Ts c k ℓ (os.take Ts.length) p r = AND Ts c k ℓ os p r := by
  cases k with
  | zero => rw [AND, AND, hB.take]
  | succ k =>
    rw [AND, AND, andNodes_take]
    simp only [children_take]

theorem AND_app (hB : PlainBase Ts c) : (k ℓ : Nat) → (os : List (Option Nat)) → (p : Nat) → (r : List Nat) →
    AND Ts c k ℓ os p r = (AND Ts c k ℓ os p [] >>= fun x => .ok (r ++ x))
  | 0, ℓ, os, p, r => by rw [AND, AND, hB.app]
  | k + 1, ℓ, os, p, r => by
    rw [AND, AND]
    cases andNodes Ts os ℓ 3 with
    | error e => rfl
    | ok res =>
      simp only [R_bind_ok]
      by_cases h0 : res = 0
      · simp [h0]
      by_cases h2 : res = 2
      · simp only [h2, OfNat.ofNat_ne_zero, if_false, if_true]
        cases children Nav.getLeftChild (c.skipLast && decide (k = 0)) ℓ Ts os with
        | error e => rfl
        | ok ln => exact AND_app hB k _ ln p r
      by_cases h1 : res = 1
      · simp only [h1, Nat.succ_ne_self, Nat.reduceEqDiff, if_false, if_true]
        cases shl1 (c.top - ℓ - 1) with
        | error e => rfl
        | ok s =>
          simp only [R_bind_ok]
          cases children Nav.getRightChild (c.skipLast && decide (k = 0)) ℓ Ts os with
          | error e => rfl
          | ok ln => exact AND_app hB k _ ln _ r
      by_cases h3 : res = 3
      · simp only [h3, Nat.reduceEqDiff, OfNat.ofNat_ne_zero, if_false, if_true]
        cases shl1 (c.top - ℓ - 1) with
        | error e => rfl
        | ok s =>
          simp only [R_bind_ok]
          cases children Nav.getLeftChild (c.skipLast && decide (k = 0)) ℓ Ts os with
          | error e => rfl
          | ok ln =>
            simp only [R_bind_ok]
            rw [AND_app hB k (ℓ + 1) ln p r]
            cases AND Ts c k (ℓ + 1) ln p [] with
            | error e => rfl
            | ok a =>
              simp only [R_bind_ok]
              rw [AND_app hB k (ℓ + 1) (succRoots ln) _ (r ++ a), AND_app hB k (ℓ + 1) (succRoots ln) _ a]
              cases AND Ts c k (ℓ + 1) (succRoots ln) (p ||| s) [] with
              | error e => rfl
              | ok b => simp [R_bind_ok]
      · simp [h0, h1, h2, h3]

/-- The two kinds of outcome of the search for tasks: the tasks give the numbers of the sequential search, or both fail. -/
def Splits (x : R PSt) (s : PSt) (y : R (List Nat)) (Ts : List Nav) (f : Task → R (List Nat)) (b : Nat) : Prop :=
  (∃ new, x = .ok ⟨s.r, s.tasks ++ new⟩ ∧ (∀ T ∈ new, T.roots.length = Ts.length) ∧ new.length ≤ b ∧ ∀ L, y = .ok L ↔ Outs f new L) ∨
  ((∃ e, x = .error e) ∧ ∀ L, y ≠ .ok L)

theorem Splits.weaken {x : R PSt} {s : PSt} {y : R (List Nat)} {f : Task → R (List Nat)} {b b' : Nat} (h : Splits x s y Ts f b)
    (hb : b ≤ b') : Splits x s y Ts f b' := by
  rcases h with ⟨new, h1, h2, h3, h4⟩ | h
  · exact .inl ⟨new, h1, h2, by omega, h4⟩
  · exact .inr h

theorem Splits.fail {s : PSt} {f : Task → R (List Nat)} {b : Nat} (e e' : UB) :
    Splits (.error e) s (.error e') Ts f b := .inr ⟨⟨e, rfl⟩, fun L h => by cases h⟩

theorem partial_splits (hB : PlainBase Ts c) (m : Nat) (hm : c.skipLast = false ∨ 0 < m) : (k ℓ : Nat) → (os : List (Option Nat)) →
    Ts.length ≤ os.length → (act : List Bool) → (part : Nat) → (s : PSt) →
    Splits (partialAND Ts c false k ℓ os act part s) s (AND Ts c (k + m) ℓ os part []) Ts
      (fun T => AND Ts c m (ℓ + k) T.roots T.part []) (2 ^ k)
  | 0, ℓ, os, hlen, act, part, s => by
    left
    refine ⟨[⟨part, os.take Ts.length, []⟩], ?_, ?_, by simp, ?_⟩
    · rw [partialAND, if_neg (by simp; omega)]
      rfl
    · simp only [List.mem_singleton, forall_eq, List.length_take]; omega
    · intro L
      rw [Outs_singleton]
      simp only [AND_take hB, Nat.zero_add, Nat.add_zero]
  | k + 1, ℓ, os, hlen, act, part, s => by
    have hskip : (c.skipLast && decide (k + m = 0)) = false := by
      rcases hm with h | h
      · simp [h]
      · rw [decide_eq_false (by omega), Bool.and_false]
    rw [show k + 1 + m = (k + m) + 1 by omega, show ℓ + (k + 1) = ℓ + 1 + k by omega]
    rw [partialAND, AND, partialNodes_false, hskip]
    have hpow : 2 ^ (k + 1) = 2 ^ k + 2 ^ k := by rw [Nat.pow_succ]; omega
    have hpos := Nat.two_pow_pos k
    cases andNodes Ts os ℓ 3 with
    | error e => exact .fail e e
    | ok res =>
      simp only [R_bind_ok, Bool.not_false, true_and, Bool.false_eq_true, false_and, if_false]
      have hnone : Splits (.ok s) s (.ok ([] : List Nat)) Ts (fun T => AND Ts c m (ℓ + 1 + k) T.roots T.part []) (2 ^ (k + 1)) :=
        .inl ⟨[], by simp, by simp, by simp, fun L => ⟨fun h => by cases h; rfl, fun h => by cases h; rfl⟩⟩
      by_cases h0 : res = 0
      · simp only [h0, if_true]
        exact hnone
      by_cases h2 : res = 2
      · simp only [h2, OfNat.ofNat_ne_zero, if_false, if_true]
        cases hc : children Nav.getLeftChild false ℓ Ts os with
        | error e => exact .fail e e
        | ok ln =>
          exact (partial_splits hB m hm k (ℓ + 1) ln (by rw [children_length hc]) [] part s).weaken (by omega)
      by_cases h1 : res = 1
      · simp only [h1, Nat.succ_ne_self, Nat.reduceEqDiff, if_false, if_true]
        cases shl1 (c.top - ℓ - 1) with
        | error e => exact .fail e e
        | ok sh =>
          simp only [R_bind_ok]
          cases hc : children Nav.getRightChild false ℓ Ts os with
          | error e => exact .fail e e
          | ok ln =>
            exact (partial_splits hB m hm k (ℓ + 1) ln (by rw [children_length hc]) [] _ s).weaken (by omega)
      by_cases h3 : res = 3
      · simp only [h3, Nat.reduceEqDiff, OfNat.ofNat_ne_zero, if_false, if_true]
        cases shl1 (c.top - ℓ - 1) with
        | error e => exact .fail e e
        | ok sh =>
          simp only [R_bind_ok]
          cases hc : children Nav.getLeftChild false ℓ Ts os with
          | error e => exact .fail e e
          | ok ln =>
            simp only [R_bind_ok]
            have hl := children_length hc
            rcases partial_splits hB m hm k (ℓ + 1) ln (by rw [hl]) [] part s with ⟨new, g1, g2, g3, g4⟩ | ⟨⟨e, g1⟩, g2⟩
            · rw [g1, R_bind_ok]
              rcases partial_splits hB m hm k (ℓ + 1) (succRoots ln) (by simp [succRoots, hl]) [] (part ||| sh) ⟨s.r, s.tasks ++ new⟩ with
                ⟨new', g5, g6, g7, g8⟩ | ⟨⟨e, g5⟩, g6⟩
              · left
                refine ⟨new ++ new', ?_, ?_, ?_, ?_⟩
                · rw [g5, List.append_assoc]
                · intro T hT
                  rcases List.mem_append.1 hT with h | h
                  · exact g2 T h
                  · exact g6 T h
                · rw [List.length_append]; omega
                · intro L
                  rw [Outs_append, bind_eq_ok]
                  constructor
                  · rintro ⟨a, ha, h⟩
                    rw [AND_app hB, bind_eq_ok] at h
                    obtain ⟨b, hb, h⟩ := h
                    cases h
                    exact ⟨a, b, (g4 a).1 ha, (g8 b).1 hb, rfl⟩
                  · rintro ⟨a, b, ha, hb, rfl⟩
                    refine ⟨a, (g4 a).2 ha, ?_⟩
                    rw [AND_app hB, (g8 b).2 hb, R_bind_ok]
              · right
                refine ⟨⟨e, g5⟩, fun L h => ?_⟩
                obtain ⟨a, ha, h⟩ := bind_eq_ok.1 h
                rw [AND_app hB] at h
                obtain ⟨b, hb, h⟩ := bind_eq_ok.1 h
                exact g6 b hb
            · right
              refine ⟨⟨e, by rw [g1]; rfl⟩, fun L h => ?_⟩
              obtain ⟨a, ha, h⟩ := bind_eq_ok.1 h
              exact g2 a ha
      · simp only [h0, h1, h2, h3, if_false]
        exact hnone

theorem fill_splits (hB : PlainBase Ts c) (m : Nat) (hm : c.skipLast = false ∨ 0 < m) {cut N total : Nat} (hN : N < 2 ^ 16) :
    (todo : List Task) → (i used : Nat) → (s : PSt) → (∀ T ∈ todo, T.roots.length = Ts.length) →
    used = s.tasks.length + todo.length → used ≤ N → total = i + todo.length →
    (∃ new rest, fillThreads Ts c false cut N total todo i used s =
        .ok (rest, s.tasks.length + new.length + rest.length, ⟨s.r, s.tasks ++ new⟩) ∧
      ∀ L, Outs (fun T => AND Ts c (1 + m) cut T.roots T.part []) todo L ↔
        ∃ L1 L2, Outs (fun T => AND Ts c m (cut + 1) T.roots T.part []) new L1 ∧
          Outs (fun T => AND Ts c (1 + m) cut T.roots T.part []) rest L2 ∧ L = L1 ++ L2) ∨
    ((∃ e, fillThreads Ts c false cut N total todo i used s = .error e) ∧
      ∀ L, ¬ Outs (fun T => AND Ts c (1 + m) cut T.roots T.part []) todo L)
  | [], i, used, s, _, hu, _, _ => by
    left
    refine ⟨[], [], ?_, fun L => ?_⟩
    · rw [fillThreads, hu]; simp
    · simp [Outs]
  | t :: todo, i, used, s, hr, hu, hN', htot => by
    rw [List.length_cons] at hu htot
    rw [fillThreads]
    by_cases hc : (N + 2 ^ 32 - used) % 2 ^ 32 > 1
    · rw [if_pos hc]
      have hlt : used + 1 < N := by omega
      rcases partial_splits hB m hm 1 cut t.roots (by rw [hr t (by simp)]) t.active t.part s with ⟨new, g1, g2, g3, g4⟩ | ⟨⟨e, g1⟩, g2⟩
      · rw [g1, R_bind_ok]
        have hu' : (total + (s.tasks ++ new).length - (i + 1)) % 2 ^ 16 = (s.tasks ++ new).length + todo.length := by
          rw [List.length_append]
          omega
        rw [hu']
        rcases fill_splits hB m hm (total := total) hN todo (i + 1) _ ⟨s.r, s.tasks ++ new⟩ (fun T hT => hr T (by simp [hT])) rfl
          (by show (s.tasks ++ new).length + todo.length ≤ N; rw [List.length_append]; omega) (by omega) with ⟨new', rest, g5, g6⟩ | ⟨⟨e, g5⟩, g6⟩
        · left
          refine ⟨new ++ new', rest, ?_, fun L => ?_⟩
          · rw [g5]
            simp only [List.length_append, List.append_assoc, Nat.add_assoc]
          · simp only [Outs]
            constructor
            · rintro ⟨o, L', h1, h2, rfl⟩
              obtain ⟨L1, L2, h3, h4, rfl⟩ := (g6 _).1 h2
              exact ⟨o ++ L1, L2, (Outs_append _ _ _).2 ⟨o, L1, (g4 o).1 h1, h3, rfl⟩, h4, by simp⟩
            · rintro ⟨L1, L2, h1, h2, rfl⟩
              obtain ⟨o, L1, h3, h4, rfl⟩ := (Outs_append _ _ _).1 h1
              exact ⟨o, L1 ++ L2, (g4 o).2 h3, (g6 _).2 ⟨L1, L2, h4, h2, rfl⟩, by simp⟩
        · right
          refine ⟨⟨e, g5⟩, fun L h => ?_⟩
          obtain ⟨o, L', -, h, -⟩ := h
          exact g6 L' h
      · right
        refine ⟨⟨e, by rw [g1]; rfl⟩, fun L h => ?_⟩
        obtain ⟨o, L', h, -, -⟩ := h
        exact g2 o h
    · rw [if_neg hc]
      left
      refine ⟨[], t :: todo, ?_, fun L => ?_⟩
      · simp [hu]
      · constructor
        · exact fun h => ⟨[], L, rfl, h, rfl⟩
        · rintro ⟨L1, L2, rfl, h, rfl⟩
          exact h

end

/-- The tasks with the levels at which they start. -/
theorem threadOut_jobs (Ts : List Nav) (c : Cfg) (runs : Bool) (A B : List Task) (i j t : Nat) :
    threadOut Ts c runs (A ++ B) (List.replicate A.length i ++ List.replicate B.length j) t =
      (vGet (A.map (fun T => (T, i)) ++ B.map fun T => (T, j)) t >>= fun p =>
        if runs then runsAND Ts c (c.stop - p.2) p.2 p.1.roots p.1.active p.1.part []
        else AND Ts c (c.stop - p.2) p.2 p.1.roots p.1.part []) := by
  rw [threadOut]
  by_cases hA : t < A.length
  · simp [vGet, List.getElem?_append_left, hA]
  · by_cases hB : t - A.length < B.length
    · simp [vGet, List.getElem?_append_right, hB, Nat.le_of_not_lt hA]
    · simp [vGet, List.getElem?_append_right, hB, Nat.le_of_not_lt hA]

theorem mapM_range_vGet {α β : Type} (l : List α) (g : α → R β) : (List.range l.length).mapM (fun t => vGet l t >>= g) = l.mapM g := by
  have key : ∀ (pre l : List α), (List.range' pre.length l.length).mapM (fun t => vGet (pre ++ l) t >>= g) = l.mapM g := by
    intro pre l
    induction l generalizing pre with
    | nil => rfl
    | cons x l ih =>
      have h1 := ih (pre ++ [x])
      rw [List.append_assoc, List.singleton_append, List.length_append, List.length_singleton] at h1
      rw [List.length_cons, List.range'_succ, List.mapM_cons, List.mapM_cons, h1]
      have h2 : vGet (pre ++ x :: l) pre.length = .ok x := by simp [vGet]
      rw [h2, R_bind_ok]
  rw [List.range_eq_range']
  exact key [] l

/-- A plain parallel call returns a list iff the sequential call does, and then it is the same list: in any state of the tries. -/
theorem body_any {Ts : List Nav} {c : Cfg} (hB : PlainBase Ts c) {height m : Nat} {env : Env} (hlen : Ts.length ≤ 16) (hw : env.hw ≠ 0)
    (hw2 : env.hw < 2 ^ 16) (hh : height < 2 ^ 63) (hcut : Nat.log2 env.hw + 2 ≤ height) (hstop : c.stop = Nat.log2 env.hw + 1 + m)
    (hm : c.skipLast = false ∨ 0 < m) (L : List Nat) :
    intersectBody Ts c height false true env = .ok L ↔ intersectBody Ts c height false false env = .ok L := by
  have hseq : intersectBody Ts c height false false env = AND Ts c (Nat.log2 env.hw + (1 + m)) 0 (List.replicate 16 (some 0)) 0 [] := by
    rw [intersectBody]
    simp only [hw, Bool.false_eq_true, false_and, if_false, hstop, Nat.add_assoc]
  have hcut' : Nat.log2 env.hw ≤ (height + 2 ^ 64 - 2) % 2 ^ 64 := by omega
  rw [hseq, body_section _ _ _ _ _ hw hcut']
  have hpow : 2 ^ Nat.log2 env.hw < 2 ^ 16 := Nat.lt_of_le_of_lt (Nat.log2_self_le hw) hw2
  rcases partial_splits hB (1 + m) (.inr (by omega)) (Nat.log2 env.hw) 0 (List.replicate 16 (some 0)) (by simpa using hlen)
    (List.replicate 16 true) 0 { r := [], tasks := [] } with ⟨new, g1, g2, g3, g4⟩ | ⟨⟨e, g1⟩, g2⟩
  · rw [g1, R_bind_ok, g4 L]
    simp only [List.nil_append, Nat.zero_add]
    by_cases hn : new.length = 0
    · rw [if_pos hn, List.length_eq_zero_iff.1 hn]
      simp only [Outs, Except.ok.injEq]
      exact eq_comm
    rw [if_neg hn, Nat.mod_eq_of_lt (by omega), List.take_length]
    rcases fill_splits hB m hm (total := new.length) hpow new 0 new.length ⟨[], []⟩ g2 (by simp) g3 (by simp) with ⟨new', rest, g5, g6⟩ | ⟨⟨e, g5⟩, g6⟩
    · rw [g5, R_bind_ok, g6 L]
      simp only [List.nil_append, List.length_nil, Nat.zero_add]
      by_cases hn' : (new' ++ rest).length = 0
      · rw [if_pos hn']
        rw [List.length_append] at hn'
        rw [List.length_eq_zero_iff.1 (show new'.length = 0 by omega), List.length_eq_zero_iff.1 (show rest.length = 0 by omega)]
        simp only [Outs, Except.ok.injEq]
        constructor
        · rintro rfl; exact ⟨[], [], rfl, rfl, rfl⟩
        · rintro ⟨_, _, rfl, rfl, rfl⟩; rfl
      rw [if_neg hn', if_neg (by rwa [List.length_append] at hn')]
      have hfun : threadOut Ts c false (new' ++ rest)
          (List.replicate new'.length (Nat.log2 env.hw + 1) ++ List.replicate rest.length (Nat.log2 env.hw)) = fun t =>
          vGet (new'.map (fun T => (T, Nat.log2 env.hw + 1)) ++ rest.map fun T => (T, Nat.log2 env.hw)) t >>= fun p =>
            AND Ts c (c.stop - p.2) p.2 p.1.roots p.1.part [] := funext fun t => by
        rw [threadOut_jobs]
        simp only [Bool.false_eq_true, if_false]
      have hlen' : new'.length + rest.length =
          (new'.map (fun T => (T, Nat.log2 env.hw + 1)) ++ rest.map fun T => (T, Nat.log2 env.hw)).length := by simp
      rw [hfun, hlen', mapM_range_vGet, ← Outs_mapM, Outs_append]
      have e1 : c.stop - (Nat.log2 env.hw + 1) = m := by omega
      have e2 : c.stop - Nat.log2 env.hw = 1 + m := by omega
      simp only [Outs_map, e1, e2]
    · rw [g5]
      constructor
      · intro h; cases h
      · exact fun h => (g6 L h).elim
  · rw [g1]
    constructor
    · intro h; cases h
    · exact fun h => (g2 L h).elim

end CBT
