import Verif.Proof.RunsAnd

/-!
# Sequential `Intersect` on tries that hold given sets
-/

namespace CBT

open Spec

section
variable {α : Type} (nav : α → Nav) (leaf : α → Nat → Nat → Nat → Prop)

theorem seq_plain {as : List α} {c : Cfg} {b e d height : Nat} {ts : List (Tr d)} {env : Env} (hc : LeafOK nav leaf as c b e)
    (hts : List.Forall₂ (fun a t => Rep (nav a) (leaf a) d 0 t 0) as ts) (hlen : as.length ≤ 16) (hstop : c.stop = d + e)
    (htop : c.top = d + b) (h64 : c.top ≤ 64) (hw : env.hw ≠ 0) :
    intersectBody (as.map nav) c height false false env = .ok (enum (d + b) (allHas b d ts) 0) := by
  rw [intersectBody]
  simp only [hw, if_false, Bool.false_eq_true, false_and, hstop]
  rw [AND_reps nav leaf hc h64 d 0 ts _ 0 [] (Reps.root nav leaf 16 hlen hts) (by omega) (dvd_zero _)]
  rfl

theorem seq_runs {as : List α} {c : Cfg} {b e d height : Nat} {ts : List (Tr d)} {env : Env} (hc : LeafOKR nav leaf as c b e)
    (hts : List.Forall₂ (fun a t => Rep (nav a) (leaf a) d 0 t 0) as ts) (hlen : as.length ≤ 16) (hstop : c.stop = d + e)
    (htop : c.top = d + b) (h64 : c.top < 64) (hw : env.hw ≠ 0) :
    intersectBody (as.map nav) c height true false env = .ok (enum (d + b) (allO b d (ts.map some)) 0) := by
  rw [intersectBody]
  simp only [hw, if_false, Bool.false_eq_true, false_and, hstop, if_true]
  rw [runsAND_reps nav leaf hc h64 d 0 (ts.map some) _ _ 0 [] (RepsA.of_reps nav leaf _ _ _ _ (Reps.root nav leaf 16 hlen hts)
    (by simpa using hlen) (by simp)) (by omega) (dvd_zero _)]
  rfl

end

theorem allO_some {b d : Nat} (ts : List (Tr d)) : allO b d (ts.map some) = fun x => ts.all fun t => hasR b d t x := by
  funext x
  rw [allO, List.all_map]
  rfl

/-- The trees hold the sets. -/
theorem isIntersection_enum {k : Nat} {β : Type} {P : β → Nat → Bool} {sets : List (List Nat)} {ts : List β} (hne : sets ≠ [])
    (hb : ∀ S ∈ sets, ∀ x ∈ S, x < 2 ^ k) (h : List.Forall₂ (fun S t => Holds k (P t) S) sets ts) :
    IsIntersection sets (enum k (fun x => ts.all fun t => P t x) 0) := by
  have hall : ∀ x < 2 ^ k, ((ts.all fun t => P t x) = true ↔ ∀ S ∈ sets, x ∈ S) := by
    intro x hx
    induction h with
    | nil => simp
    | @cons S t sets ts h1 h2 ih =>
      rw [List.all_cons, Bool.and_eq_true, h1 x hx]
      cases sets with
      | nil => cases h2; simp
      | cons S' sets =>
        rw [ih (by simp) (fun S hS => hb S (List.mem_cons_of_mem _ hS))]
        simp
  refine ⟨enum_sorted _ _ _, fun x => ?_⟩
  rw [mem_enum]
  constructor
  · rintro ⟨y, hy, hp, rfl⟩
    rw [Nat.zero_add]
    exact (hall y hy).1 hp
  · intro hx
    obtain ⟨S, hS⟩ := List.exists_mem_of_ne_nil _ hne
    have hlt := hb S hS x (hx S hS)
    exact ⟨x, hlt, (hall x hlt).2 hx, by simp⟩

theorem IsIntersection.unique {sets : List (List Nat)} {R R' : List Nat} (h : IsIntersection sets R) (h' : IsIntersection sets R') :
    R = R' := sorted_ext h.increasing h'.increasing (fun x => (h.mem x).trans (h'.mem x).symm)

/-- A trie of the virtual interface that holds `S` in a tree of `d` node levels above the last one. -/
structure HoldsR (d : Nat) (S : List Nat) (n : Nav) : Prop where
  height : n.height = d + 1
  depth : d ≤ 62
  below : ∀ x ∈ S, x < 2 ^ (d + 1)
  tree : ∃ T, Rep n (leafF n) d 0 T 0 ∧ Holds (d + 1) (hasR 1 d T) S

/-- The same without collapsed subtrees. -/
structure HoldsP (d : Nat) (S : List Nat) (n : Nav) : Prop where
  height : n.height = d + 1
  depth : d ≤ 62
  below : ∀ x ∈ S, x < 2 ^ (d + 1)
  tree : ∃ T, Rep n (leafF n) d 0 T 0 ∧ NE 1 d T ∧ Holds (d + 1) (has 1 d T) S

theorem HoldsP.toR {d : Nat} {S : List Nat} {n : Nav} (h : HoldsP d S n) : HoldsR d S n := by
  obtain ⟨T, h1, h2, h3⟩ := h.tree
  exact ⟨h.height, h.depth, h.below, T, h1, fun x hx => by rw [h2.hasR_eq]; exact h3 x hx⟩

theorem HoldsR.trees {d : Nat} {sets : List (List Nat)} {Ts : List Nav} (h : List.Forall₂ (HoldsR d) sets Ts) :
    ∃ ts : List (Tr d), List.Forall₂ (fun n t => Rep n (leafF n) d 0 t 0) Ts ts ∧
      List.Forall₂ (fun S t => Holds (d + 1) (hasR 1 d t) S) sets ts := by
  induction h with
  | nil => exact ⟨[], .nil, .nil⟩
  | cons h1 _ ih =>
    obtain ⟨ts, h3, h4⟩ := ih
    obtain ⟨T, h5, h6⟩ := h1.tree
    exact ⟨T :: ts, .cons h5 h3, .cons h6 h4⟩

theorem HoldsP.trees {d : Nat} {sets : List (List Nat)} {Ts : List Nav} (h : List.Forall₂ (HoldsP d) sets Ts) :
    ∃ ts : List (Tr d), List.Forall₂ (fun n t => Rep n (leafF n) d 0 t 0) Ts ts ∧ (∀ t ∈ ts, NE 1 d t) ∧
      List.Forall₂ (fun S t => Holds (d + 1) (has 1 d t) S) sets ts := by
  induction h with
  | nil => exact ⟨[], .nil, by simp, .nil⟩
  | cons h1 _ ih =>
    obtain ⟨ts, h3, hn, h4⟩ := ih
    obtain ⟨T, h5, hN, h6⟩ := h1.tree
    exact ⟨T :: ts, .cons h5 h3, by simpa using ⟨hN, hn⟩, .cons h6 h4⟩

theorem forall2_imp_left {A B : Type} {r : A → B → Prop} {p : A → Prop} {l : List A} {m : List B} (h : List.Forall₂ r l m)
    (hp : ∀ a b, r a b → p a) : ∀ a ∈ l, p a := by
  induction h with
  | nil => simp
  | cons h1 _ ih => simpa using ⟨hp _ _ h1, ih⟩

theorem forall2_imp_right {A B : Type} {r : A → B → Prop} {p : B → Prop} {l : List A} {m : List B} (h : List.Forall₂ r l m)
    (hp : ∀ a b, r a b → p b) : ∀ b ∈ m, p b := by
  induction h with
  | nil => simp
  | cons h1 _ ih => simpa using ⟨hp _ _ h1, ih⟩

/-- All tries have the height of the first one. -/
theorem intersect_unfold {d : Nat} {Ts : List Nav} (hne : Ts ≠ []) (hh : ∀ n ∈ Ts, n.height = d + 1) (runs parallel : Bool)
    (env : Env) : intersect Ts runs parallel env = intersectBody Ts (flatCfg (d + 1)) (d + 1) runs parallel env := by
  cases Ts with
  | nil => exact (hne rfl).elim
  | cons T Ts =>
    have h0 : T.height = d + 1 := hh T (by simp)
    rw [intersect, h0, if_neg]
    simp only [List.any_eq_true, not_exists, not_and, decide_eq_true_eq, not_not]
    exact fun n hn => hh n hn

theorem intersect_seq_plain {d : Nat} {sets : List (List Nat)} {Ts : List Nav} (h : List.Forall₂ (HoldsP d) sets Ts)
    (hne : Ts ≠ []) (hlen : Ts.length ≤ 16) {env : Env} (hw : env.hw ≠ 0) :
    ∃ R, intersect Ts false false env = .ok R ∧ IsIntersection sets R := by
  obtain ⟨ts, h1, _, h3⟩ := HoldsP.trees h
  have hd : d ≤ 62 := by
    cases h with
    | nil => exact (hne rfl).elim
    | cons h _ => exact h.depth
  refine ⟨_, ?_, isIntersection_enum ?_ (forall2_imp_left h fun _ _ h => h.below) h3⟩
  · rw [intersect_unfold hne (forall2_imp_right h fun _ _ h => h.height)]
    have := seq_plain id leafF (height := d + 1) (flat_leafOK Ts (d + 1)) h1 hlen (by rfl) (by rfl) (show d + 1 ≤ 64 by omega) hw
    rw [List.map_id] at this
    exact this
  · rintro rfl
    cases h
    exact hne rfl

theorem intersect_seq_runs {d : Nat} {sets : List (List Nat)} {Ts : List Nav} (h : List.Forall₂ (HoldsR d) sets Ts)
    (hne : Ts ≠ []) (hlen : Ts.length ≤ 16) {env : Env} (hw : env.hw ≠ 0) :
    ∃ R, intersect Ts true false env = .ok R ∧ IsIntersection sets R := by
  obtain ⟨ts, h1, h3⟩ := HoldsR.trees h
  have hd : d ≤ 62 := by
    cases h with
    | nil => exact (hne rfl).elim
    | cons h _ => exact h.depth
  refine ⟨_, ?_, isIntersection_enum ?_ (forall2_imp_left h fun _ _ h => h.below) h3⟩
  · rw [intersect_unfold hne (forall2_imp_right h fun _ _ h => h.height)]
    have := seq_runs id leafF (height := d + 1) (flat_leafOKR Ts (d + 1)) h1 hlen (by rfl) (by rfl) (show d + 1 < 64 by omega) hw
    rw [List.map_id] at this
    rw [this, allO_some]
  · rintro rfl
    cases h
    exact hne rfl

/-! ## Fast tries -/

structure FHoldsR (lg d : Nat) (S : List Nat) (n : FNav) : Prop where
  height : n.height = d + 1
  depth : d + lg ≤ 62
  below : ∀ x ∈ S, x < 2 ^ (d + lg)
  tree : ∃ T, Rep n.toNav (leafW lg n) d 0 T 0 ∧ Holds (d + lg) (hasR lg d T) S

structure FHoldsP (lg d : Nat) (S : List Nat) (n : FNav) : Prop where
  height : n.height = d + 1
  depth : d + lg ≤ 62
  below : ∀ x ∈ S, x < 2 ^ (d + lg)
  tree : ∃ T, Rep n.toNav (leafW lg n) d 0 T 0 ∧ NE lg d T ∧ Holds (d + lg) (has lg d T) S

theorem FHoldsP.toR {lg d : Nat} {S : List Nat} {n : FNav} (h : FHoldsP lg d S n) : FHoldsR lg d S n := by
  obtain ⟨T, h1, h2, h3⟩ := h.tree
  exact ⟨h.height, h.depth, h.below, T, h1, fun x hx => by rw [h2.hasR_eq]; exact h3 x hx⟩

theorem FHoldsR.trees {lg d : Nat} {sets : List (List Nat)} {Ts : List FNav} (h : List.Forall₂ (FHoldsR lg d) sets Ts) :
    ∃ ts : List (Tr d), List.Forall₂ (fun n t => Rep n.toNav (leafW lg n) d 0 t 0) Ts ts ∧
      List.Forall₂ (fun S t => Holds (d + lg) (hasR lg d t) S) sets ts := by
  induction h with
  | nil => exact ⟨[], .nil, .nil⟩
  | cons h1 _ ih =>
    obtain ⟨ts, h3, h4⟩ := ih
    obtain ⟨T, h5, h6⟩ := h1.tree
    exact ⟨T :: ts, .cons h5 h3, .cons h6 h4⟩

theorem FHoldsP.trees {lg d : Nat} {sets : List (List Nat)} {Ts : List FNav} (h : List.Forall₂ (FHoldsP lg d) sets Ts) :
    ∃ ts : List (Tr d), List.Forall₂ (fun n t => Rep n.toNav (leafW lg n) d 0 t 0) Ts ts ∧ (∀ t ∈ ts, NE lg d t) ∧
      List.Forall₂ (fun S t => Holds (d + lg) (has lg d t) S) sets ts := by
  induction h with
  | nil => exact ⟨[], .nil, by simp, .nil⟩
  | cons h1 _ ih =>
    obtain ⟨ts, h3, hn, h4⟩ := ih
    obtain ⟨T, h5, hN, h6⟩ := h1.tree
    exact ⟨T :: ts, .cons h5 h3, by simpa using ⟨hN, hn⟩, .cons h6 h4⟩

theorem fastIntersect_unfold {lg d : Nat} {Ts : List FNav} (hne : Ts ≠ []) (hh : ∀ n ∈ Ts, n.height = d + 1) (runs parallel : Bool)
    (env : Env) : fastIntersect lg Ts runs parallel env =
      intersectBody (Ts.map FNav.toNav) (fastCfg lg Ts (d + 1)) (d + 1) runs parallel env := by
  cases Ts with
  | nil => exact (hne rfl).elim
  | cons T Ts =>
    have h0 : T.height = d + 1 := hh T (by simp)
    rw [fastIntersect, h0, if_neg, if_neg (by omega)]
    simp only [List.any_eq_true, not_exists, not_and, decide_eq_true_eq, not_not]
    exact fun n hn => hh n hn

theorem fastIntersect_seq_plain {lg d : Nat} (hlg : lg ≤ 6) {sets : List (List Nat)} {Ts : List FNav}
    (h : List.Forall₂ (FHoldsP lg d) sets Ts)
    (hne : Ts ≠ []) (hlen : Ts.length ≤ 16) {env : Env} (hw : env.hw ≠ 0) :
    ∃ R, fastIntersect lg Ts false false env = .ok R ∧ IsIntersection sets R := by
  obtain ⟨ts, h1, _, h3⟩ := FHoldsP.trees h
  have hd : d + lg ≤ 62 := by
    cases h with
    | nil => exact (hne rfl).elim
    | cons h _ => exact h.depth
  refine ⟨_, ?_, isIntersection_enum ?_ (forall2_imp_left h fun _ _ h => h.below) h3⟩
  · rw [fastIntersect_unfold hne (forall2_imp_right h fun _ _ h => h.height)]
    exact seq_plain FNav.toNav (leafW lg) (height := d + 1) (fast_leafOK hlg Ts (d + 1)) h1 hlen (by rfl)
      (by simp only [fastCfg]; omega) (by simp only [fastCfg]; omega) hw
  · rintro rfl
    cases h
    exact hne rfl

theorem fastIntersect_seq_runs {lg d : Nat} (hlg : lg ≤ 6) {sets : List (List Nat)} {Ts : List FNav}
    (h : List.Forall₂ (FHoldsR lg d) sets Ts)
    (hne : Ts ≠ []) (hlen : Ts.length ≤ 16) {env : Env} (hw : env.hw ≠ 0) :
    ∃ R, fastIntersect lg Ts true false env = .ok R ∧ IsIntersection sets R := by
  obtain ⟨ts, h1, h3⟩ := FHoldsR.trees h
  have hd : d + lg ≤ 62 := by
    cases h with
    | nil => exact (hne rfl).elim
    | cons h _ => exact h.depth
  refine ⟨_, ?_, isIntersection_enum ?_ (forall2_imp_left h fun _ _ h => h.below) h3⟩
  · rw [fastIntersect_unfold hne (forall2_imp_right h fun _ _ h => h.height)]
    rw [seq_runs FNav.toNav (leafW lg) (height := d + 1) (fast_leafOKR hlg Ts (d + 1)) h1 hlen (by rfl)
      (by simp only [fastCfg]; omega) (by simp only [fastCfg]; omega) hw, allO_some]
  · rintro rfl
    cases h
    exact hne rfl

end CBT
