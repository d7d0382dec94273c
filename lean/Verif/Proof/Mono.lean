import Verif.Model.Intersect
import Verif.Proof.FlatCollapse

/-!
# Reading more is harmless

If a call returns on some tries, it returns the same on tries whose navigation is defined in more places.
-/

namespace CBT

/-- `y` returns whatever `x` returns. -/
def Le {α : Type} (x y : R α) : Prop := ∀ a, x = .ok a → y = .ok a

theorem Le.refl {α : Type} (x : R α) : Le x x := fun _ h => h

theorem Le.bind {α β : Type} {x y : R α} {f g : α → R β} (h : Le x y) (hf : ∀ a, Le (f a) (g a)) : Le (x >>= f) (y >>= g) := by
  intro b hb
  obtain ⟨a, ha, hb⟩ := bind_ok hb
  rw [h a ha]
  exact hf a b hb

theorem Le.ite {α : Type} {p : Prop} [Decidable p] {x y x' y' : R α} (h1 : Le x x') (h2 : Le y y') :
    Le (if p then x else y) (if p then x' else y') := by
  split
  · exact h1
  · exact h2

theorem Le.mapM {α β : Type} {f g : α → R β} (h : ∀ a, Le (f a) (g a)) : (l : List α) → Le (l.mapM f) (l.mapM g)
  | [] => by simpa using Le.refl _
  | a :: l => by
    rw [List.mapM_cons, List.mapM_cons]
    exact (h a).bind fun _ => (Le.mapM h l).bind fun _ => Le.refl _

/-- `n'` answers whatever `n` answers. -/
structure NavLe (n n' : Nav) : Prop where
  height : n.height = n'.height
  node : ∀ id ℓ, Le (n.getNode id ℓ) (n'.getNode id ℓ)
  left : ∀ id ℓ, Le (n.getLeftChild id ℓ) (n'.getLeftChild id ℓ)
  right : ∀ id ℓ, Le (n.getRightChild id ℓ) (n'.getRightChild id ℓ)

theorem NavLe.refl (n : Nav) : NavLe n n := ⟨rfl, fun _ _ => Le.refl _, fun _ _ => Le.refl _, fun _ _ => Le.refl _⟩

variable {Ts Ts' : List Nav}

theorem andNodes_mono (h : List.Forall₂ NavLe Ts Ts') (ℓ : Nat) :
    (roots : List (Option Nat)) → (res : Nat) → Le (andNodes Ts roots ℓ res) (andNodes Ts' roots ℓ res) := by
  induction h with
  | nil => intro _ _; exact Le.refl _
  | cons h _ ih =>
    intro roots res
    cases roots with
    | nil => exact Le.refl _
    | cons o os =>
      rw [andNodes, andNodes]
      exact (Le.refl _).bind fun id => (h.node id ℓ).bind fun node => ih os _

theorem children_mono {get : Nav → Nat → Nat → R Nat} (hg : ∀ n n', NavLe n n' → ∀ id ℓ, Le (get n id ℓ) (get n' id ℓ))
    (h : List.Forall₂ NavLe Ts Ts') (skip : Bool) (ℓ : Nat) :
    (roots : List (Option Nat)) → Le (children get skip ℓ Ts roots) (children get skip ℓ Ts' roots) := by
  induction h with
  | nil => intro _; exact Le.refl _
  | cons h _ ih =>
    intro roots
    cases roots with
    | nil => exact Le.refl _
    | cons o os =>
      rw [children, children]
      dsimp only
      refine Le.ite ?_ ?_
      · exact (Le.refl _).bind fun _ => (ih os).bind fun _ => Le.refl _
      · exact (Le.refl _).bind fun id => (hg _ _ h id ℓ).bind fun _ => (Le.refl _).bind fun _ => (ih os).bind fun _ => Le.refl _

theorem childrenActive_mono {get : Nav → Nat → Nat → R Nat} (hg : ∀ n n', NavLe n n' → ∀ id ℓ, Le (get n id ℓ) (get n' id ℓ))
    (h : List.Forall₂ NavLe Ts Ts') (skip : Bool) (ℓ : Nat) : (roots : List (Option Nat)) → (active : List Bool) →
    Le (childrenActive get skip ℓ Ts roots active) (childrenActive get skip ℓ Ts' roots active) := by
  induction h with
  | nil => intro _ _; exact Le.refl _
  | cons h _ ih =>
    intro roots active
    cases roots with
    | nil => exact Le.refl _
    | cons o os =>
      cases active with
      | nil => exact Le.refl _
      | cons a as =>
        rw [childrenActive, childrenActive]
        dsimp only
        refine Le.ite ?_ ?_
        · exact (Le.refl _).bind fun id => (hg _ _ h id ℓ).bind fun _ => (Le.refl _).bind fun _ => (ih os as).bind fun _ => Le.refl _
        · exact (Le.refl _).bind fun _ => (ih os as).bind fun _ => Le.refl _

theorem AND_mono (h : List.Forall₂ NavLe Ts Ts') (c : Cfg) : (rem ℓ : Nat) → (roots : List (Option Nat)) → (pref : Nat) →
    (r : List Nat) → Le (AND Ts c rem ℓ roots pref r) (AND Ts' c rem ℓ roots pref r)
  | 0, _, _, _, _ => Le.refl _
  | rem + 1, ℓ, roots, pref, r => by
    rw [AND, AND]
    refine (andNodes_mono h ℓ roots 3).bind fun res => ?_
    refine Le.ite (Le.refl _) (Le.ite ?_ (Le.ite ?_ (Le.ite ?_ (Le.refl _))))
    · exact (children_mono (fun _ _ h => h.left) h _ ℓ roots).bind fun _ => AND_mono h c rem _ _ _ _
    · exact (Le.refl _).bind fun _ => (children_mono (fun _ _ h => h.right) h _ ℓ roots).bind fun _ => AND_mono h c rem _ _ _ _
    · exact (Le.refl _).bind fun _ => (children_mono (fun _ _ h => h.left) h _ ℓ roots).bind fun _ =>
        (AND_mono h c rem _ _ _ _).bind fun _ => AND_mono h c rem _ _ _ _

theorem runsNodes_mono (h : List.Forall₂ NavLe Ts Ts') (ℓ : Nat) : (roots : List (Option Nat)) → (active : List Bool) →
    (an orr : Nat) → Le (runsNodes Ts roots active ℓ an orr) (runsNodes Ts' roots active ℓ an orr) := by
  induction h with
  | nil => intro _ _ _ _; simpa only [runsNodes] using Le.refl _
  | cons h _ ih =>
    intro roots active an orr
    cases roots with
    | nil => simpa only [runsNodes] using Le.refl _
    | cons o os =>
      cases active with
      | nil => simpa only [runsNodes] using Le.refl _
      | cons a as =>
        rw [runsNodes, runsNodes]
        refine Le.ite ?_ ?_
        · refine (Le.refl _).bind fun id => (h.node id ℓ).bind fun node => Le.ite ?_ ?_
          · exact (ih os as _ _).bind fun _ => Le.refl _
          · exact (ih os as _ _).bind fun _ => Le.refl _
        · exact (ih os as _ _).bind fun _ => Le.refl _

theorem runsAND_mono (h : List.Forall₂ NavLe Ts Ts') (c : Cfg) : (rem ℓ : Nat) → (roots : List (Option Nat)) →
    (active : List Bool) → (pref : Nat) → (r : List Nat) →
    Le (runsAND Ts c rem ℓ roots active pref r) (runsAND Ts' c rem ℓ roots active pref r)
  | 0, _, _, _, _, _ => Le.refl _
  | rem + 1, ℓ, roots, active, pref, r => by
    rw [runsAND, runsAND]
    refine (runsNodes_mono h ℓ roots active 3 0).bind fun ⟨tmp, an, orr⟩ => ?_
    refine Le.ite (Le.refl _) (Le.ite (Le.refl _) (Le.ite ?_ (Le.ite ?_ (Le.ite ?_ (Le.refl _)))))
    · exact (childrenActive_mono (fun _ _ h => h.left) h _ ℓ roots tmp).bind fun _ => runsAND_mono h c rem _ _ _ _ _
    · exact (Le.refl _).bind fun _ => (childrenActive_mono (fun _ _ h => h.right) h _ ℓ roots tmp).bind fun _ =>
        runsAND_mono h c rem _ _ _ _ _
    · exact (Le.refl _).bind fun _ => (childrenActive_mono (fun _ _ h => h.left) h _ ℓ roots tmp).bind fun _ =>
        (runsAND_mono h c rem _ _ _ _ _).bind fun _ => runsAND_mono h c rem _ _ _ _ _

theorem partialNodes_mono (h : List.Forall₂ NavLe Ts Ts') (runs : Bool) (ℓ : Nat) : (roots : List (Option Nat)) →
    (active : List Bool) → (res n00 : Nat) → Le (partialNodes runs Ts roots active ℓ res n00) (partialNodes runs Ts' roots active ℓ res n00) := by
  induction h with
  | nil => intro _ _ _ _; simpa only [partialNodes] using Le.refl _
  | cons h _ ih =>
    intro roots active res n00
    cases roots with
    | nil => simpa only [partialNodes] using Le.refl _
    | cons o os =>
      rw [partialNodes.eq_def, partialNodes.eq_def]
      dsimp only
      refine Le.ite ?_ ?_
      · cases active with
        | nil => exact Le.refl _
        | cons a as =>
          refine Le.ite ?_ ?_
          · exact (Le.refl _).bind fun id => (h.node id ℓ).bind fun node => (ih os as _ _).bind fun _ => Le.refl _
          · exact (ih os as _ _).bind fun _ => Le.refl _
      · exact (Le.refl _).bind fun id => (h.node id ℓ).bind fun node => ih os active _ _

theorem partialAND_mono (h : List.Forall₂ NavLe Ts Ts') (c : Cfg) (runs : Bool) : (rem ℓ : Nat) → (roots : List (Option Nat)) →
    (active : List Bool) → (part : Nat) → (s : PSt) →
    Le (partialAND Ts c runs rem ℓ roots active part s) (partialAND Ts' c runs rem ℓ roots active part s)
  | 0, _, _, _, _, _ => by rw [partialAND, partialAND, h.length_eq]; exact Le.refl _
  | rem + 1, ℓ, roots, active, part, s => by
    rw [partialAND, partialAND]
    refine (partialNodes_mono h runs ℓ roots active 3 0).bind fun ⟨tmp, res, n00⟩ => ?_
    refine Le.ite (Le.refl _) (Le.ite (Le.refl _) (Le.ite ?_ (Le.ite ?_ (Le.ite ?_ (Le.refl _)))))
    · exact (children_mono (fun _ _ h => h.left) h _ ℓ roots).bind fun _ => partialAND_mono h c runs rem _ _ _ _ _
    · exact (Le.refl _).bind fun _ => (children_mono (fun _ _ h => h.right) h _ ℓ roots).bind fun _ =>
        partialAND_mono h c runs rem _ _ _ _ _
    · exact (Le.refl _).bind fun _ => (children_mono (fun _ _ h => h.left) h _ ℓ roots).bind fun _ =>
        (partialAND_mono h c runs rem _ _ _ _ _).bind fun _ => partialAND_mono h c runs rem _ _ _ _ _

theorem fillThreads_mono (h : List.Forall₂ NavLe Ts Ts') (c : Cfg) (runs : Bool) (cut n total : Nat) : (todo : List Task) →
    (i used : Nat) → (s : PSt) → Le (fillThreads Ts c runs cut n total todo i used s) (fillThreads Ts' c runs cut n total todo i used s)
  | [], _, _, _ => Le.refl _
  | t :: todo, i, used, s => by
    rw [fillThreads, fillThreads]
    exact Le.ite ((partialAND_mono h c runs 1 cut _ _ _ s).bind fun _ => fillThreads_mono h c runs cut n total todo _ _ _) (Le.refl _)

theorem parallelFor_mono {α σ : Type} {act : α → σ → R σ} {sched : List Nat} {nb k : Nat} {f g : Nat → R (List α)}
    (h : ∀ t, Le (f t) (g t)) (s : σ) : Le (parallelFor act sched nb k f s) (parallelFor act sched nb k g s) := by
  unfold parallelFor
  exact (Le.refl _).bind fun chunks => (Le.mapM (fun c => (Le.mapM h _).bind fun _ => Le.refl _) _).bind fun _ => Le.refl _

theorem intersectBody_mono (h : List.Forall₂ NavLe Ts Ts') (c : Cfg) (height : Nat) (runs parallel : Bool) (env : Env) :
    Le (intersectBody Ts c height runs parallel env) (intersectBody Ts' c height runs parallel env) := by
  unfold intersectBody
  by_cases hw : env.hw = 0
  · simp only [hw, if_true]; exact Le.refl _
  simp only [hw, if_false]
  refine Le.ite ?_ (Le.ite (runsAND_mono h c _ _ _ _ _ _) (AND_mono h c _ _ _ _ _))
  refine (partialAND_mono h c runs _ _ _ _ _ _).bind fun s => Le.ite (Le.refl _) ?_
  refine (fillThreads_mono h c runs _ _ _ _ _ _ _).bind fun ⟨rest, used, s⟩ => Le.ite (Le.refl _) ?_
  refine (parallelFor_mono (fun t => ?_) _).bind fun _ => Le.refl _
  refine (Le.refl _).bind fun task => (Le.refl _).bind fun level => Le.ite ?_ ?_
  · exact (runsAND_mono h c _ _ _ _ _ _).bind fun _ => Le.refl _
  · exact (AND_mono h c _ _ _ _ _).bind fun _ => Le.refl _

theorem any_height_mono (h : List.Forall₂ NavLe Ts Ts') (k : Nat) :
    Ts.any (fun T => T.height ≠ k) = Ts'.any (fun T => T.height ≠ k) := by
  induction h with
  | nil => rfl
  | cons h _ ih => rw [List.any_cons, List.any_cons, ih, h.height]

theorem intersect_mono (h : List.Forall₂ NavLe Ts Ts') (runs parallel : Bool) (env : Env) :
    Le (intersect Ts runs parallel env) (intersect Ts' runs parallel env) := by
  cases h with
  | nil => exact Le.refl _
  | @cons T T' Ts Ts' h0 h =>
    simp only [intersect]
    rw [any_height_mono (.cons h0 h), h0.height]
    exact Le.ite (Le.refl _) (intersectBody_mono (.cons h0 h) _ _ _ _ _)

/-! ## More readable zeros -/

theorem bvGet_mono {pad pad' : Nat} (h : pad ≤ pad') (v : BV) (i : Nat) : Le (bvGet pad v i) (bvGet pad' v i) := by
  unfold bvGet
  intro a ha
  split at ha
  · exact ha
  · split at ha
    · rw [if_pos (by omega)]; exact ha
    · cases ha

theorem FlatTrie.nav_mono (t : FlatTrie) {pad pad' : Nat} (h : pad ≤ pad') : NavLe (t.nav pad) (t.nav pad') := by
  refine ⟨rfl, fun id ℓ => ?_, fun _ _ => Le.refl _, fun _ _ => Le.refl _⟩
  simp only [FlatTrie.nav, FlatTrie.getNode]
  refine Le.ite ?_ (Le.ite (Le.refl _) ?_)
  · exact (bvGet_mono h _ _).bind fun _ => (bvGet_mono h _ _).bind fun _ => Le.refl _
  · exact (bvGet_mono h _ _).bind fun _ => (bvGet_mono h _ _).bind fun _ => Le.refl _

theorem LevelTrie.nav_mono (t : LevelTrie) (il : Bool) {pad pad' : Nat} (h : pad ≤ pad') : NavLe (t.nav il pad) (t.nav il pad') := by
  refine ⟨rfl, fun id ℓ => ?_, fun _ _ => Le.refl _, fun _ _ => Le.refl _⟩
  simp only [LevelTrie.nav, LevelTrie.getNode]
  exact (Le.refl _).bind fun _ => (bvGet_mono h _ _).bind fun _ => (bvGet_mono h _ _).bind fun _ => Le.refl _

end CBT
