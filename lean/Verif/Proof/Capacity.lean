import Verif.Proof.ParInter

/-!
# More tries than the arrays have entries
-/

namespace CBT

/-- No undefined behaviour other than an access out of bounds. -/
def OkOob {α : Type} (x : R α) : Prop := (∃ a, x = .ok a) ∨ x = .error .oob

theorem andNodes_oob : (Ts : List Nav) → (m res : Nat) → m < Ts.length → (∀ T ∈ Ts, OkOob (T.getNode 0 0)) →
    andNodes Ts (List.replicate m (some 0)) 0 res = .error .oob
  | _ :: _, 0, _, _, _ => rfl
  | T :: Ts, m + 1, res, hm, h => by
    rw [List.replicate_succ, andNodes, readRoot, R_bind_ok]
    rcases h T (by simp) with ⟨w, hw⟩ | hw
    swap
    · rw [hw]; rfl
    rw [hw, R_bind_ok]
    exact andNodes_oob Ts m _ (by simpa using hm) fun T hT => h T (by simp [hT])

theorem runsNodes_oob : (Ts : List Nav) → (m an orr : Nat) → m < Ts.length → (∀ T ∈ Ts, OkOob (T.getNode 0 0)) →
    runsNodes Ts (List.replicate m (some 0)) (List.replicate m true) 0 an orr = .error .oob
  | _ :: _, 0, _, _, _, _ => rfl
  | T :: Ts, m + 1, an, orr, hm, h => by
    have ih := fun an orr => runsNodes_oob Ts m an orr (by simpa using hm) fun T hT => h T (by simp [hT])
    rw [List.replicate_succ, List.replicate_succ, runsNodes, if_pos rfl, readRoot, R_bind_ok]
    rcases h T (by simp) with ⟨w, hw⟩ | hw
    swap
    · rw [hw]; rfl
    rw [hw, R_bind_ok, ih, ih]
    split <;> rfl

theorem partialNodes_oob (runs : Bool) : (Ts : List Nav) → (m res n00 : Nat) → m < Ts.length →
    (∀ T ∈ Ts, OkOob (T.getNode 0 0)) →
    partialNodes runs Ts (List.replicate m (some 0)) (List.replicate m true) 0 res n00 = .error .oob
  | _ :: _, 0, _, _, _, _ => rfl
  | T :: Ts, m + 1, res, n00, hm, h => by
    have ih := fun res n00 => partialNodes_oob runs Ts m res n00 (by simpa using hm) fun T hT => h T (by simp [hT])
    cases runs with
    | true =>
      rw [List.replicate_succ, List.replicate_succ, partialNodes, if_pos rfl, if_pos rfl, readRoot, R_bind_ok]
      rcases h T (by simp) with ⟨w, hw⟩ | hw
      swap
      · rw [hw]; rfl
      rw [hw, R_bind_ok]
      simp only [ih]
      rfl
    | false =>
      rw [List.replicate_succ, partialNodes.eq_def]
      simp only [Bool.false_eq_true, if_false]
      rw [readRoot, R_bind_ok]
      rcases h T (by simp) with ⟨w, hw⟩ | hw
      swap
      · rw [hw]; rfl
      rw [hw, R_bind_ok]
      have hf : ∀ (a a' : List Bool) (Ts : List Nav) (os : List (Option Nat)) (l res n00 : Nat),
          partialNodes false Ts os a l res n00 = partialNodes false Ts os a' l res n00 := by
        intro a a' Ts
        induction Ts with
        | nil => intros; rfl
        | cons T Ts ih =>
          intro os l res n00
          cases os with
          | nil => rfl
          | cons o os => simp only [partialNodes, Bool.false_eq_true, if_false, ih]
      rw [hf _ (List.replicate m true)]
      exact ih _ _

theorem body_oob {Ts : List Nav} {c : Cfg} {height : Nat} {runs parallel : Bool} {env : Env} (hw : env.hw ≠ 0) (hlen : 16 < Ts.length)
    (hroot : ∀ T ∈ Ts, OkOob (T.getNode 0 0)) (hstop : 1 ≤ c.stop) :
    intersectBody Ts c height runs parallel env = .error .oob := by
  rw [intersectBody, if_neg hw]
  generalize Nat.log2 env.hw = cut
  obtain ⟨s, hs⟩ : ∃ s, c.stop = s + 1 := ⟨c.stop - 1, by omega⟩
  simp only
  split
  · cases cut with
    | zero => rw [partialAND, if_pos (Or.inl (by simpa using hlen))]; rfl
    | succ k => rw [partialAND, partialNodes_oob runs Ts 16 _ _ hlen hroot]; rfl
  · split
    · rw [hs, runsAND, runsNodes_oob Ts 16 _ _ hlen hroot]; rfl
    · rw [hs, AND, andNodes_oob Ts 16 _ hlen hroot]; rfl

theorem andWords_oob : (Ts : List FNav) → (m res : Nat) → m < Ts.length → (∀ T ∈ Ts, OkOob (T.getWord 0)) →
    andWords Ts (List.replicate m (some 0)) res = .error .oob
  | _ :: _, 0, _, _, _ => rfl
  | T :: Ts, m + 1, res, hm, h => by
    rw [List.replicate_succ, andWords, readRoot, R_bind_ok]
    rcases h T (by simp) with ⟨w, hw⟩ | hw
    swap
    · rw [hw]; rfl
    rw [hw, R_bind_ok]
    exact andWords_oob Ts m _ (by simpa using hm) fun T hT => h T (by simp [hT])

theorem andWordsActive_oob : (Ts : List FNav) → (m res : Nat) → m < Ts.length → (∀ T ∈ Ts, OkOob (T.getWord 0)) →
    andWordsActive Ts (List.replicate m (some 0)) (List.replicate m true) res = .error .oob
  | _ :: _, 0, _, _, _ => rfl
  | T :: Ts, m + 1, res, hm, h => by
    rw [List.replicate_succ, List.replicate_succ, andWordsActive, if_pos rfl, readRoot, R_bind_ok]
    rcases h T (by simp) with ⟨w, hw⟩ | hw
    swap
    · rw [hw]; rfl
    rw [hw, R_bind_ok]
    exact andWordsActive_oob Ts m _ (by simpa using hm) fun T hT => h T (by simp [hT])

/-- Height 1: the words of the roots are read at once. -/
theorem body_oob_words {lg : Nat} {Ts : List FNav} {runs parallel : Bool} {env : Env} (hw : env.hw ≠ 0)
    (hlen : 16 < Ts.length) (hword : ∀ T ∈ Ts, OkOob (T.getWord 0)) (hn : ∀ T ∈ Ts, OkOob (T.toNav.getNode 0 0)) :
    intersectBody (Ts.map FNav.toNav) (fastCfg lg Ts 1) 1 runs parallel env = .error .oob := by
  rw [intersectBody, if_neg hw]
  simp only
  split
  · generalize Nat.log2 env.hw = cut
    cases cut with
    | zero => rw [partialAND, if_pos (Or.inl (by simpa using hlen))]; rfl
    | succ k => rw [partialAND, partialNodes_oob runs _ 16 _ _ (by simpa using hlen) (by simpa using hn)]; rfl
  · split
    · show (andWordsActive Ts (List.replicate 16 (some 0)) (List.replicate 16 true) _ >>= _) = _
      rw [andWordsActive_oob Ts 16 _ hlen hword]; rfl
    · show (andWords Ts (List.replicate 16 (some 0)) _ >>= _) = _
      rw [andWords_oob Ts 16 _ hlen hword]; rfl

theorem bvGet_okOob (pad : Nat) (v : BV) (i : Nat) : OkOob (bvGet pad v i) := by
  rw [bvGet]
  split
  · exact .inl ⟨_, rfl⟩
  · split
    · exact .inl ⟨_, rfl⟩
    · exact .inr rfl

theorem FastTrie.okOob (t : FastTrie) (pad : Nat) : OkOob ((t.nav pad).toNav.getNode 0 0) ∧ OkOob ((t.nav pad).getWord 0) := by
  constructor
  · show OkOob (t.getNode pad 0 0)
    rw [FastTrie.getNode]
    rcases bvGet_okOob pad t.bTrie (2 * 0) with ⟨a, ha⟩ | ha
    · rw [ha, R_bind_ok]
      rcases bvGet_okOob pad t.bTrie (2 * 0 + 1) with ⟨b, hb⟩ | hb
      · rw [hb]; exact .inl ⟨_, rfl⟩
      · rw [hb]; exact .inr rfl
    · rw [ha]; exact .inr rfl
  · show OkOob (t.getWord 0)
    rw [FastTrie.getWord]
    split
    · exact .inr rfl
    · rw [vGet]
      split
      · exact .inl ⟨_, rfl⟩
      · exact .inr rfl

theorem HoldsR.okOob {d : Nat} {S : List Nat} {n : Nav} (h : HoldsR d S n) : OkOob (n.getNode 0 0) := by
  obtain ⟨T, h1, _⟩ := h.tree
  cases d with
  | zero => exact .inl ⟨_, h1.2.1⟩
  | succ d => exact .inl ⟨_, h1.1⟩

end CBT
