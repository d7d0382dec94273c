import Verif.Proof.AnyInter

/-!
# The only error of a plain call is a read outside an array
-/

namespace CBT

/-- A result with the property, or a read outside an array. -/
def Good {α : Type} (P : α → Prop) (x : R α) : Prop := (∃ a, x = .ok a ∧ P a) ∨ x = .error .oob

theorem Good.ok {α : Type} {P : α → Prop} {a : α} (h : P a) : Good P (.ok a) := .inl ⟨a, rfl, h⟩

theorem Good.bind {α β : Type} {P : α → Prop} {Q : β → Prop} {x : R α} {f : α → R β} (h : Good P x) (hf : ∀ a, P a → Good Q (f a)) :
    Good Q (x >>= f) := by
  rcases h with ⟨a, rfl, ha⟩ | rfl
  · exact hf a ha
  · exact .inr rfl

theorem OkOob.good {α : Type} {x : R α} (h : OkOob x) : Good (fun _ => True) x := by
  rcases h with ⟨a, h⟩ | h
  · exact .inl ⟨a, h, trivial⟩
  · exact .inr h

theorem Good.okOob {α : Type} {P : α → Prop} {x : R α} (h : Good P x) : OkOob x := by
  rcases h with ⟨a, h, -⟩ | h
  · exact .inl ⟨a, h⟩
  · exact .inr h

theorem Good.mapM {α β : Type} {f : α → R β} : (l : List α) → (∀ a ∈ l, Good (fun _ => True) (f a)) → Good (fun _ => True) (l.mapM f)
  | [], _ => .ok trivial
  | a :: l, h => by
    rw [List.mapM_cons]
    exact (h a (by simp)).bind fun _ _ => (Good.mapM l fun b hb => h b (by simp [hb])).bind fun _ _ => .ok trivial

/-- The methods of the trie answer or read outside an array. -/
structure OobNav (n : Nav) : Prop where
  node : ∀ i ℓ, Good (fun _ => True) (n.getNode i ℓ)
  left : ∀ i ℓ, Good (fun _ => True) (n.getLeftChild i ℓ)
  right : ∀ i ℓ, Good (fun _ => True) (n.getRightChild i ℓ)

theorem vGet_good {α : Type} (l : List α) (i : Nat) : Good (fun _ => True) (vGet l i) := by
  rw [vGet]; split
  · exact .ok trivial
  · exact .inr rfl

theorem rank1_good (v : BV) (i : Nat) : Good (fun _ => True) (rank1 v i) := by
  rw [rank1]; split
  · exact .ok trivial
  · exact .inr rfl

theorem FlatTrie.oobNav (t : FlatTrie) (pad : Nat) : OobNav (t.nav pad) where
  node i ℓ := by
    show Good _ (t.getNode pad i ℓ)
    rw [FlatTrie.getNode]
    split
    · exact (bvGet_okOob ..).good.bind fun _ _ => (bvGet_okOob ..).good.bind fun _ _ => .ok trivial
    · split
      · exact .inr rfl
      · exact (bvGet_okOob ..).good.bind fun _ _ => (bvGet_okOob ..).good.bind fun _ _ => .ok trivial
  left i ℓ := by
    show Good _ (t.getLeftChild i ℓ)
    rw [FlatTrie.getLeftChild]; split
    · exact .ok trivial
    · exact rank1_good ..
  right i ℓ := by
    show Good _ (t.getRightChild i ℓ)
    rw [FlatTrie.getRightChild]; split
    · exact .ok trivial
    · exact rank1_good ..

theorem LevelTrie.oobNav (t : LevelTrie) (il : Bool) (pad : Nat) : OobNav (t.nav il pad) where
  node i ℓ := by
    show Good _ (t.getNode pad i ℓ)
    rw [LevelTrie.getNode]
    exact (vGet_good ..).bind fun _ _ => (bvGet_okOob ..).good.bind fun _ _ => (bvGet_okOob ..).good.bind fun _ _ => .ok trivial
  left i ℓ := by
    cases il with
    | true =>
      show Good _ (t.getLeftChildIl i ℓ)
      rw [LevelTrie.getLeftChildIl]; split
      · exact .ok trivial
      · exact (vGet_good ..).bind fun _ _ => (rank1_good ..).bind fun _ _ => .ok trivial
    | false =>
      show Good _ (t.getLeftChild i ℓ)
      rw [LevelTrie.getLeftChild]; split
      · exact .ok trivial
      · exact (vGet_good ..).bind fun _ _ => rank1_good ..
  right i ℓ := by
    cases il with
    | true =>
      show Good _ (t.getRightChildIl i ℓ)
      rw [LevelTrie.getRightChildIl]; split
      · exact .ok trivial
      · exact (vGet_good ..).bind fun _ _ => (rank1_good ..).bind fun _ _ => .ok trivial
    | false =>
      show Good _ (t.getRightChild i ℓ)
      rw [LevelTrie.getRightChild]; split
      · exact .ok trivial
      · exact (vGet_good ..).bind fun _ _ => rank1_good ..

theorem FastTrie.oobNav (t : FastTrie) (pad : Nat) : OobNav (t.nav pad).toNav where
  node i ℓ := by
    show Good _ (t.getNode pad i ℓ)
    rw [FastTrie.getNode]
    exact (bvGet_okOob ..).good.bind fun _ _ => (bvGet_okOob ..).good.bind fun _ _ => .ok trivial
  left i ℓ := by
    show Good _ (t.getLeftChild i ℓ)
    rw [FastTrie.getLeftChild]; split
    · exact .ok trivial
    · exact rank1_good ..
  right i ℓ := by
    show Good _ (t.getRightChild i ℓ)
    rw [FastTrie.getRightChild]; split
    · exact .ok trivial
    · exact rank1_good ..

/-- Every root is written. -/
def AllSome (os : List (Option Nat)) : Prop := ∀ o ∈ os, o ≠ none

theorem readRoot_good {o : Option Nat} (h : o ≠ none) : Good (fun _ => True) (readRoot o) := by
  cases o with
  | none => exact (h rfl).elim
  | some x => exact .ok trivial

section
variable {Ts : List Nav} {c : Cfg}

theorem andNodes_good (ℓ : Nat) : (Ts : List Nav) → (∀ n ∈ Ts, OobNav n) → (os : List (Option Nat)) → AllSome os → (res : Nat) →
    Good (fun _ => True) (andNodes Ts os ℓ res)
  | [], _, _, _, _ => .ok trivial
  | _ :: _, _, [], _, _ => .inr rfl
  | T :: Ts, hT, o :: os, ho, res => by
    rw [andNodes]
    exact (readRoot_good (ho o (by simp))).bind fun _ _ => ((hT T (by simp)).node _ _).bind fun _ _ =>
      andNodes_good ℓ Ts (fun n hn => hT n (by simp [hn])) os (fun o' h => ho o' (by simp [h])) _

theorem children_good {get : Nav → Nat → Nat → R Nat} (skip : Bool) (ℓ : Nat) : (Ts : List Nav) →
    (∀ n ∈ Ts, ∀ i ℓ, Good (fun _ => True) (get n i ℓ)) → (os : List (Option Nat)) → AllSome os →
    Good (fun ln => skip = false → AllSome ln) (children get skip ℓ Ts os)
  | [], _, _, _ => .ok (by simp [AllSome])
  | _ :: _, _, [], _ => .inr rfl
  | T :: Ts, hT, o :: os, ho => by
    rw [children]
    have ih := children_good skip ℓ Ts (fun n hn => hT n (by simp [hn])) os (fun o' h => ho o' (by simp [h]))
    cases skip with
    | true => exact ih.bind fun _ _ => .ok (by simp)
    | false =>
      refine (readRoot_good (ho o (by simp))).bind fun _ _ => (hT T (by simp) _ _).bind fun x _ => ih.bind fun ln h => .ok fun _ => ?_
      intro o' ho'
      rcases List.mem_cons.1 ho' with rfl | h'
      · simp
      · exact h rfl o' h'

theorem succRoots_some {os : List (Option Nat)} (h : AllSome os) : AllSome (succRoots os) := by
  intro o ho
  obtain ⟨o', h', rfl⟩ := List.mem_map.1 ho
  cases o' with
  | none => exact (h _ h' rfl).elim
  | some x => simp

theorem take_some {os : List (Option Nat)} (h : AllSome os) (k : Nat) : AllSome (os.take k) :=
  fun o ho => h o (List.mem_of_mem_take ho)

theorem shl1_good {k : Nat} (h : k < 64) : Good (fun _ => True) (shl1 k) := by
  rw [shl1, if_pos h]; exact .ok trivial

/-- The hypotheses on the end condition. -/
structure GoodCfg (c : Cfg) : Prop where
  top : c.top ≤ 64
  base : ∀ os p r, (c.skipLast = true ∨ AllSome os) → Good (fun _ => True) (c.base os p r)

theorem AND_good (hT : ∀ n ∈ Ts, OobNav n) (hc : GoodCfg c) : (k ℓ : Nat) → (os : List (Option Nat)) → (p : Nat) → (r : List Nat) →
    (c.skipLast = true ∧ k = 0 ∨ AllSome os) → Good (fun _ => True) (AND Ts c k ℓ os p r)
  | 0, ℓ, os, p, r, h => by
    rw [AND]
    exact hc.base _ _ _ (h.imp_left And.left)
  | k + 1, ℓ, os, p, r, h => by
    have ho : AllSome os := by
      rcases h with h | h
      · exact absurd h.2 (by omega)
      · exact h
    have hs : Good (fun _ => True) (shl1 (c.top - ℓ - 1)) := shl1_good (by have := hc.top; omega)
    have hnext : ∀ ln, ((c.skipLast && decide (k = 0)) = false → AllSome ln) → c.skipLast = true ∧ k = 0 ∨ AllSome ln := by
      intro ln h
      by_cases hk : c.skipLast = true ∧ k = 0
      · exact .inl hk
      · refine .inr (h ?_)
        rw [Bool.and_eq_false_iff]
        by_cases h1 : c.skipLast = true
        · exact .inr (decide_eq_false fun h2 => hk ⟨h1, h2⟩)
        · exact .inl (by simpa using h1)
    have hl := children_good (get := Nav.getLeftChild) (c.skipLast && decide (k = 0)) ℓ Ts (fun n hn => (hT n hn).left) os ho
    have hr := children_good (get := Nav.getRightChild) (c.skipLast && decide (k = 0)) ℓ Ts (fun n hn => (hT n hn).right) os ho
    rw [AND]
    refine (andNodes_good ℓ Ts hT os ho 3).bind fun res _ => ?_
    simp only
    split
    · exact .ok trivial
    split
    · exact hl.bind fun ln h => AND_good hT hc k _ ln _ _ (hnext ln h)
    split
    · exact hs.bind fun _ _ => hr.bind fun ln h => AND_good hT hc k _ ln _ _ (hnext ln h)
    split
    · refine hs.bind fun _ _ => hl.bind fun ln h => (AND_good hT hc k _ ln _ _ (hnext ln h)).bind fun _ _ =>
        AND_good hT hc k _ _ _ _ ((hnext ln h).imp_right succRoots_some)
    · exact .ok trivial

/-- All tasks have roots that are written. -/
def TasksSome (s : PSt) : Prop := ∀ T ∈ s.tasks, AllSome T.roots

theorem partial_good (hT : ∀ n ∈ Ts, OobNav n) (hc : c.top ≤ 64) : (k ℓ : Nat) → (os : List (Option Nat)) → (act : List Bool) →
    (part : Nat) → (s : PSt) → AllSome os → TasksSome s → Good TasksSome (partialAND Ts c false k ℓ os act part s)
  | 0, ℓ, os, act, part, s, ho, hs => by
    rw [partialAND]
    split
    · exact .inr rfl
    · refine .ok fun T hT => ?_
      rcases List.mem_append.1 hT with h | h
      · exact hs T h
      · rw [List.mem_singleton.1 h]; exact take_some ho _
  | k + 1, ℓ, os, act, part, s, ho, hs => by
    have hsh : Good (fun _ => True) (shl1 (c.top - ℓ - 1)) := shl1_good (by omega)
    have hl := children_good (get := Nav.getLeftChild) false ℓ Ts (fun n hn => (hT n hn).left) os ho
    have hr := children_good (get := Nav.getRightChild) false ℓ Ts (fun n hn => (hT n hn).right) os ho
    rw [partialAND, partialNodes_false]
    refine Good.bind (P := fun _ => True) ((andNodes_good ℓ Ts hT os ho 3).bind fun _ _ => .ok trivial) fun x _ => ?_
    simp only [Bool.false_eq_true, false_and, if_false]
    split
    · exact .ok hs
    split
    · exact hl.bind fun ln h => partial_good hT hc k _ ln _ _ _ (h rfl) hs
    split
    · exact hsh.bind fun _ _ => hr.bind fun ln h => partial_good hT hc k _ ln _ _ _ (h rfl) hs
    split
    · exact hsh.bind fun _ _ => hl.bind fun ln h => (partial_good hT hc k _ ln _ _ _ (h rfl) hs).bind fun s' hs' =>
        partial_good hT hc k _ _ _ _ _ (succRoots_some (h rfl)) hs'
    · exact .ok hs

theorem fill_good (hT : ∀ n ∈ Ts, OobNav n) (hc : c.top ≤ 64) (cut N total : Nat) : (todo : List Task) → (i used : Nat) → (s : PSt) →
    (∀ T ∈ todo, AllSome T.roots) → TasksSome s →
    Good (fun x => (∀ T ∈ x.1, AllSome T.roots) ∧ TasksSome x.2.2) (fillThreads Ts c false cut N total todo i used s)
  | [], i, used, s, _, hs => by
    rw [fillThreads]; exact .ok ⟨by simp, hs⟩
  | t :: todo, i, used, s, h, hs => by
    rw [fillThreads]
    split
    · exact (partial_good hT hc _ _ _ _ _ _ (h t (by simp)) hs).bind fun s' hs' =>
        fill_good hT hc cut N total todo _ _ _ (fun T hT => h T (by simp [hT])) hs'
    · exact .ok ⟨h, hs⟩

end

/-- A plain call, parallel or not, has the same outcome: also when that is a read outside an array. -/
theorem body_any_eq {Ts : List Nav} {c : Cfg} (hB : PlainBase Ts c) (hT : ∀ n ∈ Ts, OobNav n) (hc : GoodCfg c) {height m : Nat}
    {env : Env} (hlen : Ts.length ≤ 16) (hw : env.hw ≠ 0) (hw2 : env.hw < 2 ^ 16) (hh : height < 2 ^ 63)
    (hcut : Nat.log2 env.hw + 2 ≤ height) (hstop : c.stop = Nat.log2 env.hw + 1 + m) (hm : c.skipLast = false ∨ 0 < m) :
    intersectBody Ts c height false true env = intersectBody Ts c height false false env := by
  have hroots : AllSome (List.replicate 16 (some 0)) := fun o ho => by rw [(List.mem_replicate.1 ho).2]; simp
  have hseq : Good (fun _ => True) (intersectBody Ts c height false false env) := by
    rw [intersectBody]
    simp only [hw, Bool.false_eq_true, false_and, if_false]
    exact AND_good hT hc _ _ _ _ _ (.inr hroots)
  have hcut' : Nat.log2 env.hw ≤ (height + 2 ^ 64 - 2) % 2 ^ 64 := by omega
  have hpow : 2 ^ Nat.log2 env.hw < 2 ^ 16 := Nat.lt_of_le_of_lt (Nat.log2_self_le hw) hw2
  have hpar : Good (fun _ => True) (intersectBody Ts c height false true env) := by
    rw [body_section _ _ _ _ _ hw hcut']
    have g0 := partial_good hT hc.top (Nat.log2 env.hw) 0 _ (List.replicate 16 true) 0 { r := [], tasks := [] } hroots
      (by simp [TasksSome])
    rcases partial_splits hB (1 + m) (.inr (by omega)) (Nat.log2 env.hw) 0 (List.replicate 16 (some 0)) (by simpa using hlen)
      (List.replicate 16 true) 0 { r := [], tasks := [] } with ⟨new, g1, g2, g3, -⟩ | ⟨⟨e, g1⟩, -⟩
    · rw [g1] at g0 ⊢
      rw [R_bind_ok]
      rcases g0 with ⟨s, e, g0⟩ | e
      · cases e
        simp only [List.nil_append, TasksSome] at g0 ⊢
        split
        · exact .ok trivial
        rw [Nat.mod_eq_of_lt (by omega), List.take_length]
        have f0 := fill_good hT hc.top (Nat.log2 env.hw) (2 ^ Nat.log2 env.hw) new.length new 0 new.length ⟨[], []⟩ g0
          (by simp [TasksSome])
        rcases fill_splits hB m hm (total := new.length) hpow new 0 new.length ⟨[], []⟩ g2 (by simp) g3 (by simp) with
          ⟨new', rest, g5, -⟩ | ⟨⟨e, g5⟩, -⟩
        · rw [g5] at f0 ⊢
          rw [R_bind_ok]
          rcases f0 with ⟨x, e, f1, f2⟩ | e
          · cases e
            simp only [List.nil_append, List.length_nil, Nat.zero_add, TasksSome] at f1 f2 ⊢
            split
            · exact .ok trivial
            rename_i hn
            rw [if_neg (by rwa [List.length_append] at hn)]
            refine (Good.mapM _ fun t _ => ?_).bind fun _ _ => .ok trivial
            rw [threadOut_jobs]
            have hjobs : Good (fun p : Task × Nat => AllSome p.1.roots) (vGet (new'.map (fun T => (T, Nat.log2 env.hw + 1)) ++
                rest.map fun T => (T, Nat.log2 env.hw)) t) := by
              rw [vGet]
              split
              · rename_i p hp
                refine .ok ?_
                rcases List.mem_append.1 (List.mem_of_getElem? hp) with h | h
                · obtain ⟨T, hT, rfl⟩ := List.mem_map.1 h
                  exact f2 T hT
                · obtain ⟨T, hT, rfl⟩ := List.mem_map.1 h
                  exact f1 T hT
              · exact .inr rfl
            refine hjobs.bind fun p hp => ?_
            simp only [Bool.false_eq_true, if_false]
            exact AND_good hT hc _ _ _ _ _ (.inr hp)
          · cases e
        · rw [g5] at f0 ⊢
          rcases f0 with ⟨x, e, -⟩ | e
          · cases e
          · cases e; exact .inr rfl
      · cases e
    · rw [g1] at g0 ⊢
      rcases g0 with ⟨s, e, -⟩ | e
      · cases e
      · cases e; exact .inr rfl
  have key := body_any hB hlen hw hw2 hh hcut hstop hm
  rcases hseq with ⟨L, h, -⟩ | h
  · rw [h, (key L).2 h]
  · rcases hpar with ⟨L, h', -⟩ | h'
    · rw [(key L).1 h'] at h; cases h
    · rw [h, h']

/-! ## More tries than roots -/

theorem andNodes_short (ℓ : Nat) : (Ts : List Nav) → (os : List (Option Nat)) → os.length < Ts.length → (res a : Nat) →
    andNodes Ts os ℓ res ≠ .ok a
  | [], os, h, _, _ => absurd h (by simp)
  | _ :: _, [], _, _, _ => by simp [andNodes]
  | T :: Ts, o :: os, h, res, a => by
    intro h'
    rw [andNodes] at h'
    obtain ⟨_, -, h'⟩ := bind_eq_ok.1 h'
    obtain ⟨_, -, h'⟩ := bind_eq_ok.1 h'
    exact andNodes_short ℓ Ts os (by simpa using h) _ a h'

theorem body_short {Ts : List Nav} {c : Cfg} {height : Nat} {env : Env} (hlen : 16 < Ts.length) (hw : env.hw ≠ 0) (hstop : 0 < c.stop)
    (par : Bool) (L : List Nat) : intersectBody Ts c height false par env ≠ .ok L := by
  have hs : ∀ res ℓ a, andNodes Ts (List.replicate 16 (some 0)) ℓ res ≠ .ok a := fun res ℓ a =>
    andNodes_short ℓ Ts _ (by simpa using hlen) _ _
  intro h
  by_cases hp : par = true ∧ Nat.log2 env.hw ≤ (height + 2 ^ 64 - 2) % 2 ^ 64
  · obtain ⟨rfl, hp⟩ := hp
    rw [body_section _ _ _ _ _ hw hp] at h
    obtain ⟨s, h, -⟩ := bind_eq_ok.1 h
    cases hk : Nat.log2 env.hw with
    | zero =>
      rw [hk, partialAND, if_pos (by simp; omega)] at h
      cases h
    | succ k =>
      rw [hk, partialAND, partialNodes_false] at h
      obtain ⟨x, h, -⟩ := bind_eq_ok.1 h
      obtain ⟨x, h, -⟩ := bind_eq_ok.1 h
      exact hs _ _ _ h
  · rw [intersectBody] at h
    simp only [hw, hp, Bool.false_eq_true, if_false] at h
    obtain ⟨k, hk⟩ : ∃ k, c.stop = k + 1 := ⟨c.stop - 1, by omega⟩
    rw [hk, AND] at h
    obtain ⟨x, h, -⟩ := bind_eq_ok.1 h
    exact hs _ _ _ h

/-! ## The two end conditions -/

theorem flat_plainBase (Ts : List Nav) (h : Nat) : PlainBase Ts (flatCfg h) where
  app os p r := by simp [flatCfg]
  take os p r := rfl

theorem flat_goodCfg {h : Nat} (hh : h ≤ 64) : GoodCfg (flatCfg h) where
  top := hh
  base _ _ _ _ := .ok trivial

theorem emitWord_app (lg p : Nat) : (f w : Nat) → (r : List Nat) →
    emitWord lg p f w r = (emitWord lg p f w [] >>= fun x => .ok (r ++ x))
  | 0, w, r => by
    rw [emitWord, emitWord]
    split
    · simp
    · rfl
  | f + 1, w, r => by
    rw [emitWord, emitWord]
    split
    · simp
    · simp only
      rw [emitWord_app lg p f _ (r ++ _), emitWord_app lg p f _ ([] ++ _), bind_assoc]
      refine bind_congr fun x => ?_
      simp

theorem andWords_take : (Ts : List FNav) → (os : List (Option Nat)) → (w : Nat) → andWords Ts (os.take Ts.length) w = andWords Ts os w
  | [], os, w => by simp [andWords]
  | T :: Ts, [], w => rfl
  | T :: Ts, o :: os, w => by
    rw [List.length_cons, List.take_succ_cons, andWords, andWords]
    simp only [andWords_take Ts os]

theorem fast_plainBase (lg : Nat) (Ts : List FNav) (h : Nat) : PlainBase (Ts.map FNav.toNav) (fastCfg lg Ts h) where
  app os p r := by
    show (andWords Ts os _ >>= fun w => emitWord lg p (2 ^ lg) w r) = ((andWords Ts os _ >>= fun w => emitWord lg p (2 ^ lg) w []) >>= _)
    rw [bind_assoc]
    exact bind_congr fun w => emitWord_app _ _ _ _ _
  take os p r := by
    show (andWords Ts (os.take (Ts.map FNav.toNav).length) _ >>= fun w => emitWord lg p (2 ^ lg) w r) = (andWords Ts os _ >>= _)
    rw [List.length_map, andWords_take]

theorem andWords_good {lg : Nat} : (Ts : List FNav) → (∀ n ∈ Ts, ∀ i, Good (fun _ => True) (n.getWord i)) → (os : List (Option Nat)) →
    AllSome os → (w : Nat) → w < 2 ^ 2 ^ lg → Good (fun x => x < 2 ^ 2 ^ lg) (andWords Ts os w)
  | [], _, _, _, _, hw => .ok hw
  | _ :: _, _, [], _, _, _ => .inr rfl
  | T :: Ts, hT, o :: os, ho, w, hw => by
    rw [andWords]
    exact (readRoot_good (ho o (by simp))).bind fun _ _ => (hT T (by simp) _).bind fun _ _ =>
      andWords_good Ts (fun n hn => hT n (by simp [hn])) os (fun o' h => ho o' (by simp [h])) _ (Nat.lt_of_le_of_lt Nat.and_le_left hw)

theorem fast_goodCfg {lg h : Nat} (hlg : lg ≤ 6) {Ts : List FNav} (hT : ∀ n ∈ Ts, ∀ i, Good (fun _ => True) (n.getWord i))
    (hh : h + lg ≤ 65) : GoodCfg (fastCfg lg Ts h) where
  top := by show h + lg - 1 ≤ 64; omega
  base os p r ho := by
    show Good _ (andWords Ts os (2 ^ 2 ^ lg - 1) >>= fun w => emitWord lg p (2 ^ lg) w r)
    have ho : AllSome os := by
      rcases ho with h | h
      · cases h
      · exact h
    refine (andWords_good (lg := lg) Ts hT os ho _ (Nat.sub_lt (Nat.two_pow_pos _) (by omega))).bind fun w hw => ?_
    rw [emitWord_ok hlg _ hw]
    exact .ok trivial

theorem FastTrie.wordGood (t : FastTrie) (pad i : Nat) : Good (fun _ => True) ((t.nav pad).getWord i) := by
  show Good _ (t.getWord i)
  rw [FastTrie.getWord]
  split
  · exact .inr rfl
  · exact vGet_good ..

end CBT
