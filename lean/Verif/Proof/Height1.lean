import Verif.Proof.ParInter
import Verif.Proof.Capacity

/-!
# `Intersect` on tries of height 1
-/

namespace CBT

/-- A trie of height 1 with root `w`. -/
structure One (w : Nat) (n : Nav) : Prop where
  height : n.height = 1
  pos : w ≠ 0
  node : n.getNode 0 0 = .ok w
  left : n.getLeftChild 0 0 = .ok 0
  right : n.getRightChild 0 0 = .ok 0
  deeper : ∀ id, n.getNode id 1 = .error .oob

variable {ws : List Nat} {Ts : List Nav}

theorem andNodes_one (h : List.Forall₂ One ws Ts) : ∀ {k : Nat}, Ts.length ≤ k → ∀ res,
    andNodes Ts (List.replicate k (some 0)) 0 res = .ok (ws.foldl (· &&& ·) res) := by
  induction h with
  | nil => intro k _ res; rfl
  | @cons w T ws Ts h _ ih =>
    intro k hk res
    obtain ⟨k, rfl⟩ : ∃ j, k = j + 1 := ⟨k - 1, by simp at hk; omega⟩
    rw [List.replicate_succ, andNodes, readRoot, R_bind_ok, h.node, R_bind_ok, ih (by simpa using hk)]
    rfl

theorem runsNodes_one (h : List.Forall₂ One ws Ts) : ∀ {k : Nat}, Ts.length ≤ k → ∀ an orr,
    runsNodes Ts (List.replicate k (some 0)) (List.replicate k true) 0 an orr =
      .ok (List.replicate Ts.length true, ws.foldl (· &&& ·) an, ws.foldl (· ||| ·) orr) := by
  induction h with
  | nil => intro k _ an orr; simp [runsNodes]
  | @cons w T ws Ts h _ ih =>
    intro k hk an orr
    obtain ⟨k, rfl⟩ : ∃ j, k = j + 1 := ⟨k - 1, by simp at hk; omega⟩
    rw [List.replicate_succ, List.replicate_succ, runsNodes]
    simp only [if_true, readRoot, R_bind_ok, h.node, h.pos, ne_eq, not_false_iff, ih (by simpa using hk)]
    rfl

theorem partialNodes_false : (Ts : List Nav) → (roots : List (Option Nat)) → (active : List Bool) → (ℓ res n00 : Nat) →
    partialNodes false Ts roots active ℓ res n00 = (andNodes Ts roots ℓ res >>= fun r => .ok ([], r, n00))
  | [], _, _, _, _, _ => by simp [partialNodes, andNodes]
  | _ :: _, [], _, _, _, _ => by simp [partialNodes, andNodes, bind, Except.bind]
  | T :: Ts, o :: os, active, ℓ, res, n00 => by
    rw [partialNodes.eq_def, andNodes]
    simp only [Bool.false_eq_true, if_false, partialNodes_false Ts os active]
    cases readRoot o with
    | error => rfl
    | ok id =>
      simp only [R_bind_ok]
      cases T.getNode id ℓ <;> rfl

theorem partialNodes_one (h : List.Forall₂ One ws Ts) (runs : Bool) {k : Nat} (hk : Ts.length ≤ k) (res n00 : Nat) :
    partialNodes runs Ts (List.replicate k (some 0)) (List.replicate k true) 0 res n00 =
      .ok (if runs then List.replicate Ts.length true else [], ws.foldl (· &&& ·) res, if runs then ws.foldl (· ||| ·) n00 else n00) := by
  cases runs with
  | false => rw [partialNodes_false, andNodes_one h hk]; rfl
  | true =>
    simp only [if_true]
    induction h generalizing k res n00 with
    | nil => simp [partialNodes]
    | @cons w T ws Ts h _ ih =>
      obtain ⟨k, rfl⟩ : ∃ j, k = j + 1 := ⟨k - 1, by simp at hk; omega⟩
      rw [List.replicate_succ, List.replicate_succ, partialNodes.eq_def]
      simp only [if_true, readRoot, R_bind_ok, h.node, h.pos, ne_eq, not_false_iff, decide_true, Bool.true_or, ih (by simpa using hk)]
      rfl

theorem children_one {get : Nav → Nat → Nat → R Nat} (hg : ∀ w n, One w n → get n 0 0 = .ok 0) (skip : Bool)
    (h : List.Forall₂ One ws Ts) : ∀ {k : Nat}, Ts.length ≤ k →
    children get skip 0 Ts (List.replicate k (some 0)) = .ok (List.replicate Ts.length (if skip then none else some 0)) := by
  induction h with
  | nil => intro k _; rfl
  | @cons w T ws Ts h _ ih =>
    intro k hk
    obtain ⟨k, rfl⟩ : ∃ j, k = j + 1 := ⟨k - 1, by simp at hk; omega⟩
    rw [List.replicate_succ, children, ih (by simpa using hk)]
    cases skip <;> simp [readRoot, hg _ _ h, List.replicate_succ]

theorem childrenActive_one {get : Nav → Nat → Nat → R Nat} (h : List.Forall₂ One ws Ts) : ∀ {k : Nat}, Ts.length ≤ k →
    childrenActive get true 0 Ts (List.replicate k (some 0)) (List.replicate Ts.length true) = .ok (List.replicate Ts.length none) := by
  induction h with
  | nil => intro k _; simp [childrenActive]
  | @cons w T ws Ts h _ ih =>
    intro k hk
    obtain ⟨k, rfl⟩ : ∃ j, k = j + 1 := ⟨k - 1, by simp at hk; omega⟩
    rw [List.length_cons, List.replicate_succ, List.replicate_succ, childrenActive, ih (by simpa using hk)]
    simp [List.replicate_succ]

theorem foldl_or_ne : (ws : List Nat) → (a : Nat) → (a ≠ 0 ∨ ∃ w ∈ ws, w ≠ 0) → ws.foldl (· ||| ·) a ≠ 0
  | [], a, h => by simpa using h
  | w :: ws, a, h => by
    rw [List.foldl_cons]
    refine foldl_or_ne ws _ ?_
    rcases h with h | ⟨x, hx, h⟩
    · left; intro h0; exact h (Nat.or_eq_zero_iff.1 h0).1
    · rcases List.mem_cons.1 hx with rfl | hx
      · left; intro h0; exact h (Nat.or_eq_zero_iff.1 h0).2
      · right; exact ⟨x, hx, h⟩

theorem foldl_and_le : (ws : List Nat) → (a : Nat) → ws.foldl (· &&& ·) a ≤ a
  | [], _ => Nat.le_refl _
  | w :: ws, a => (foldl_and_le ws (a &&& w)).trans Nat.and_le_left

theorem or_ne_of_one (h : List.Forall₂ One ws Ts) (hne : Ts ≠ []) : ws.foldl (· ||| ·) 0 ≠ 0 := by
  cases h with
  | nil => exact (hne rfl).elim
  | cons h _ => exact foldl_or_ne _ _ (.inr ⟨_, List.mem_cons_self, h.pos⟩)

/-- The elements of a root. -/
def rootElems (w : Nat) : List Nat := if w = 2 then [0] else if w = 1 then [1] else if w = 3 then [0, 1] else []

theorem le3 {n : Nat} (h : n ≤ 3) : n = 0 ∨ n = 1 ∨ n = 2 ∨ n = 3 := by omega

/-- The recursion of the intersection. -/
theorem rec_one (h : List.Forall₂ One ws Ts) (hne : Ts ≠ []) {k : Nat} (hk : Ts.length ≤ k) (runs : Bool) :
    (if runs then runsAND Ts (flatCfg 1) 1 0 (List.replicate k (some 0)) (List.replicate k true) 0 []
      else AND Ts (flatCfg 1) 1 0 (List.replicate k (some 0)) 0 []) = .ok (rootElems (ws.foldl (· &&& ·) 3)) := by
  have hor := or_ne_of_one h hne
  have hle := le3 (foldl_and_le ws 3)
  have e1 := andNodes_one h hk 3
  have e2 := runsNodes_one h hk 3 0
  have e3 := children_one (fun _ _ h => h.left) true h hk
  have e4 := children_one (fun _ _ h => h.right) true h hk
  have e5 := childrenActive_one (get := Nav.getLeftChild) h hk
  have e6 := childrenActive_one (get := Nav.getRightChild) h hk
  generalize ws.foldl (· &&& ·) 3 = res at *
  generalize ws.foldl (· ||| ·) 0 = orr at *
  simp only [flatCfg]
  cases runs with
  | true =>
    simp only [if_true]
    rw [runsAND, e2]
    rcases hle with rfl | rfl | rfl | rfl <;> simp [*, runsAND, shl1, rootElems]
  | false =>
    simp only [Bool.false_eq_true, if_false]
    rw [AND, e1]
    rcases hle with rfl | rfl | rfl | rfl <;> simp [*, AND, shl1, rootElems]

/-- Sequential intersection. -/
theorem seq_one (h : List.Forall₂ One ws Ts) (hne : Ts ≠ []) (hlen : Ts.length ≤ 16) (runs : Bool) {env : Env} (hw : env.hw ≠ 0) :
    intersect Ts runs false env = .ok (rootElems (ws.foldl (· &&& ·) 3)) := by
  rw [intersect_unfold (d := 0) hne (forall2_imp_right h fun _ _ h => h.height), intersectBody, if_neg hw]
  simp only [Bool.false_eq_true, false_and, if_false]
  exact rec_one h hne hlen runs

/-- One level is treated by `partialAND`. -/
theorem partialAND_one (h : List.Forall₂ One ws Ts) (hne : Ts ≠ []) (hlen : Ts.length ≤ 16) (runs : Bool) :
    ∃ tasks, partialAND Ts (flatCfg 1) runs 1 0 (List.replicate 16 (some 0)) (List.replicate 16 true) 0 { r := [], tasks := [] } =
      .ok { r := [], tasks := tasks } ∧ tasks.map Task.part = rootElems (ws.foldl (· &&& ·) 3) := by
  have hor := or_ne_of_one h hne
  have hle := le3 (foldl_and_le ws 3)
  have e2 := partialNodes_one h runs hlen 3 0
  have e3 := children_one (fun _ _ h => h.left) false h hlen
  have e4 := children_one (fun _ _ h => h.right) false h hlen
  rw [partialAND, e2]
  generalize ws.foldl (· &&& ·) 3 = res at *
  generalize ws.foldl (· ||| ·) 0 = orr at *
  generalize List.replicate 16 (some 0) = ro at *
  cases runs <;> rcases hle with rfl | rfl | rfl | rfl <;> simp [*, partialAND, shl1, rootElems, flatCfg, succRoots]

/-- More than one level. -/
theorem partialAND_one_oob (h : List.Forall₂ One ws Ts) (hne : Ts ≠ []) (hlen : Ts.length ≤ 16) (runs : Bool) (c : Nat) :
    partialAND Ts (flatCfg 1) runs (c + 2) 0 (List.replicate 16 (some 0)) (List.replicate 16 true) 0 { r := [], tasks := [] } =
      if ws.foldl (· &&& ·) 3 = 0 then .ok { r := [], tasks := [] } else .error .oob := by
  have hor := or_ne_of_one h hne
  have hle := le3 (foldl_and_le ws 3)
  have e2 := partialNodes_one h runs hlen 3 0
  have e3 := children_one (fun _ _ h => h.left) false h hlen
  have e4 := children_one (fun _ _ h => h.right) false h hlen
  have e5 : ∀ c active part s, partialAND Ts (flatCfg 1) runs (c + 1) 1 (List.replicate Ts.length (some 0))
      (if runs then List.replicate Ts.length true else active) part s = .error .oob := by
    intro c active part s
    rw [partialAND]
    cases h with
    | nil => exact (hne rfl).elim
    | @cons w T ws Ts h _ =>
      rw [List.length_cons, List.replicate_succ, List.replicate_succ, partialNodes.eq_def]
      cases runs <;> simp [readRoot, h.deeper, bind, Except.bind]
  rw [partialAND, e2]
  generalize ws.foldl (· &&& ·) 3 = res at *
  generalize ws.foldl (· ||| ·) 0 = orr at *
  generalize List.replicate 16 (some 0) = ro at *
  simp only [R_bind_ok]
  rcases hle with rfl | rfl | rfl | rfl
  · cases runs <;> simp [hor]
  · have e7 := e5 c [] 1 { r := [], tasks := [] }
    simp only [e4, shl1, flatCfg, R_bind_ok] at e7 ⊢
    cases runs <;> simpa [hor] using e7
  · have e7 := e5 c [] 0 { r := [], tasks := [] }
    simp only [e3, flatCfg, R_bind_ok] at e7 ⊢
    cases runs <;> simpa [hor] using e7
  · have e7 := e5 c [] 0 { r := [], tasks := [] }
    simp only [e3, shl1, flatCfg, R_bind_ok] at e7 ⊢
    cases runs <;> simp only [Bool.false_eq_true, if_false, if_true] at e7 <;> simp [hor, e7, bind, Except.bind]

theorem fillThreads_stop {Ts : List Nav} {c : Cfg} {runs : Bool} {cut n total : Nat} {todo : List Task} {i used : Nat} {s : PSt}
    (h : used ≤ n) (h' : n ≤ used + 1) :
    fillThreads Ts c runs cut n total todo i used s = .ok (todo, used, s) := by
  cases todo with
  | nil => rfl
  | cons t todo =>
    rw [fillThreads, if_neg]
    have : n + 2 ^ 32 - used = (n - used) + 2 ^ 32 := by omega
    rw [this, Nat.add_mod_right, Nat.mod_eq_of_lt (by omega)]
    omega

/-- Running one task per thread and collecting the results. -/
theorem run_tasks {Ts : List Nav} {c : Cfg} {runs : Bool} {next : List Task} {levels : List Nat} {outs : List (List Nat)} {sched1 sched2 : List Nat}
    (hne : outs ≠ []) (hn : next.length = outs.length) (hl : levels.length = outs.length)
    (h : ∀ t (h : t < outs.length), (if runs then
        runsAND Ts c (c.stop - levels[t]) levels[t] next[t].roots next[t].active next[t].part []
      else AND Ts c (c.stop - levels[t]) levels[t] next[t].roots next[t].part []) = .ok outs[t]) (r : List Nat) :
    (do
      let results ← parallelFor actPush sched1 outs.length outs.length
        (fun t => do
          let task ← vGet next t
          let level ← vGet levels t
          let out ← if runs then runsAND Ts c (c.stop - level) level task.roots task.active task.part []
                    else AND Ts c (c.stop - level) level task.roots task.part []
          pure (out.map fun x => (t, x)))
        (List.replicate outs.length [])
      gather sched2 r results outs.length) = .ok (r ++ outs.flatten) := by
  rw [parallelFor_push hne, R_bind_ok, gather_ok _ _ _ hne]
  intro t ht
  have h1 : vGet next t = .ok next[t] := by simp [vGet, hn, ht]
  have h2 : vGet levels t = .ok levels[t] := by simp [vGet, hl, ht]
  have h3 := h t ht
  simp only [h1, h2, R_bind_ok]
  cases runs <;> simp only [Bool.false_eq_true, if_false, if_true] at h3 ⊢ <;> rw [h3] <;> rfl

/-- Parallel intersection with one hardware thread. -/
theorem body_hw1 {Ts : List Nav} {c : Cfg} {height : Nat} {runs : Bool} {env : Env} {R : List Nat} (hlen : Ts.length ≤ 16)
    (hw : env.hw = 1) (hR : (if runs then runsAND Ts c c.stop 0 (List.replicate Ts.length (some 0)) (List.replicate Ts.length true) 0 []
      else AND Ts c c.stop 0 (List.replicate Ts.length (some 0)) 0 []) = .ok R) :
    intersectBody Ts c height runs true env = .ok R := by
  have hl : Nat.log2 1 = 0 := by decide
  have h16 : ¬ 16 < Ts.length := by omega
  rw [intersectBody, if_neg (by omega)]
  simp only [hw, hl]
  rw [if_pos (by simp)]
  simp only [partialAND, List.length_replicate, h16, false_or, and_false, if_false, R_bind_ok, List.nil_append, List.length_cons,
    List.length_nil]
  rw [if_neg (by decide), fillThreads_stop (by decide) (by decide)]
  simp only [R_bind_ok, List.nil_append, List.take_replicate, Nat.min_eq_left hlen]
  rw [if_neg (by simp)]
  have := run_tasks (Ts := Ts) (c := c) (runs := runs) (outs := [R]) (sched1 := env.sched1) (sched2 := env.sched2) (levels := [0])
    (next := [⟨0, List.replicate Ts.length (some 0), if runs then List.replicate Ts.length true else []⟩]) (by simp) rfl rfl
    (by
      intro t ht
      obtain rfl : t = 0 := by simpa using ht
      cases runs <;> simpa using hR) []
  simpa using this

/-- Parallel intersection at height 1. -/
theorem par_one (h : List.Forall₂ One ws Ts) (hne : Ts ≠ []) (hlen : Ts.length ≤ 16) (runs : Bool) {env : Env}
    (hw : env.hw ≠ 0) (hw' : env.hw < 2 ^ 64) : intersect Ts runs true env =
      if env.hw < 4 ∨ ws.foldl (· &&& ·) 3 = 0 then .ok (rootElems (ws.foldl (· &&& ·) 3)) else .error .oob := by
  have hle := le3 (foldl_and_le ws 3)
  rw [intersect_unfold (d := 0) hne (forall2_imp_right h fun _ _ h => h.height)]
  by_cases h1 : env.hw = 1
  · rw [if_pos (by omega)]
    exact body_hw1 hlen h1 (rec_one h hne (Nat.le_refl _) runs)
  have hlog : Nat.log2 env.hw < 64 := (Nat.log2_lt hw).2 hw'
  by_cases h4 : env.hw < 4
  · have hl : Nat.log2 env.hw = 1 := by
      have : env.hw = 2 ∨ env.hw = 3 := by omega
      rcases this with h | h <;> rw [h] <;> decide
    obtain ⟨tasks, e1, e2⟩ := partialAND_one h hne hlen runs
    rw [if_pos (.inl h4), intersectBody, if_neg hw]
    simp only [hl]
    rw [if_pos (by simp)]
    simp only [Nat.zero_add] at e1 ⊢
    rw [e1]
    simp only [R_bind_ok]
    have hlen2 : tasks.length ≤ 2 := by
      rw [← List.length_map (f := Task.part), e2, rootElems]
      split
      · simp
      · split
        · simp
        · split <;> simp
    by_cases ht : tasks.length = 0
    · rw [if_pos ht, ← e2, List.length_eq_zero_iff.1 ht]; rfl
    · rw [if_neg ht, Nat.mod_eq_of_lt (by omega), fillThreads_stop (by omega) (by omega)]
      simp only [R_bind_ok, List.nil_append, List.take_length]
      rw [if_neg ht]
      have := run_tasks (Ts := Ts) (c := flatCfg 1) (runs := runs) (outs := tasks.map fun t => [t.part]) (sched1 := env.sched1) (sched2 := env.sched2)
        (levels := List.replicate tasks.length 1) (next := tasks) (by simpa using fun h => ht (by simp [h])) (by simp) (by simp)
        (by
          intro t ht
          cases runs <;> simp [flatCfg, AND, runsAND]) []
      have e3 : (tasks.map fun t => [t.part]).flatten = tasks.map Task.part := by
        rw [← List.flatMap_def]; exact List.flatMap_pure_eq_map _ _
      simp only [List.length_map] at this
      simpa [e3, e2] using this
  · obtain ⟨c, hc⟩ : ∃ c, Nat.log2 env.hw = c + 2 := ⟨Nat.log2 env.hw - 2, by
      have : 2 ≤ Nat.log2 env.hw := (Nat.le_log2 hw).2 (by omega)
      omega⟩
    rw [intersectBody, if_neg hw]
    simp only [hc, Nat.zero_add]
    rw [if_pos (by simp; omega), partialAND_one_oob h hne hlen]
    by_cases h0 : ws.foldl (· &&& ·) 3 = 0
    · simp [h0, rootElems]
    · simp [h0, h4, bind, Except.bind]

/-! ## Fast tries of one word -/

theorem fastOf_one_node {lg hw pad : Nat} {runs empty : Bool} {T : Tr 0} :
    ((fastOf lg 0 T hw runs empty).nav pad).toNav.getNode 0 0 = if 2 ≤ pad then .ok 0 else .error .oob := by
  simp only [FastTrie.nav, FastTrie.getNode, fastOf, flatBits, bvGet]
  by_cases h2 : 2 ≤ pad
  · simp [h2, (by omega : 0 < pad), (by omega : 1 < pad), node2]
  · by_cases h1 : 0 < pad
    · have h3 : ¬ 1 < pad := by omega
      simp [h2, h1, bind, Except.bind]
      rw [if_neg h3]
    · simp [h2, h1, bind, Except.bind]

theorem andWords_replicate : (Ts : List FNav) → (k : Nat) → Ts.length ≤ k → (w : Nat) →
    andWords Ts (List.replicate k (some 0)) w = andWords Ts (List.replicate Ts.length (some 0)) w
  | [], _, _, _ => by simp [andWords]
  | T :: Ts, k, hk, w => by
    obtain ⟨k, rfl⟩ : ∃ j, k = j + 1 := ⟨k - 1, by simp at hk; omega⟩
    simp only [List.length_cons, List.replicate_succ, andWords]
    congr 1
    funext id
    congr 1
    funext x
    exact andWords_replicate Ts k (by simpa using hk) _

theorem andWordsActive_replicate : (Ts : List FNav) → (k : Nat) → Ts.length ≤ k → (w : Nat) →
    andWordsActive Ts (List.replicate k (some 0)) (List.replicate k true) w =
      andWordsActive Ts (List.replicate Ts.length (some 0)) (List.replicate Ts.length true) w
  | [], _, _, _ => by simp [andWordsActive]
  | T :: Ts, k, hk, w => by
    obtain ⟨k, rfl⟩ : ∃ j, k = j + 1 := ⟨k - 1, by simp at hk; omega⟩
    simp only [List.length_cons, List.replicate_succ, andWordsActive, if_true]
    congr 1
    funext id
    congr 1
    funext x
    exact andWordsActive_replicate Ts k (by simpa using hk) _

theorem fast_one_hw1 {lg : Nat} {Ts : List FNav} {runs : Bool} {env env' : Env} {R : List Nat} (hne : Ts ≠ []) (hlen : Ts.length ≤ 16)
    (hh : ∀ n ∈ Ts, n.height = 1) (hw : env.hw = 1) (hR : fastIntersect lg Ts runs false env' = .ok R) :
    fastIntersect lg Ts runs true env = .ok R := by
  rw [fastIntersect_unfold (d := 0) hne hh] at hR ⊢
  refine body_hw1 (by simpa using hlen) hw ?_
  rw [intersectBody] at hR
  by_cases h0 : env'.hw = 0
  · rw [if_pos h0] at hR; cases hR
  rw [if_neg h0] at hR
  simp only [Bool.false_eq_true, false_and, if_false] at hR
  cases runs with
  | true =>
    simp only [if_true, fastCfg, Nat.zero_add, Nat.sub_self, runsAND] at hR ⊢
    rw [andWordsActive_replicate Ts 16 hlen] at hR
    simpa using hR
  | false =>
    simp only [Bool.false_eq_true, if_false, fastCfg, Nat.zero_add, Nat.sub_self, AND] at hR ⊢
    rw [andWords_replicate Ts 16 hlen] at hR
    simpa using hR

theorem partialNodes_zero {Ts : List Nav} (h : ∀ T ∈ Ts, T.getNode 0 0 = .ok 0) (runs : Bool) : ∀ {k : Nat}, Ts.length ≤ k →
    ∀ active res, (runs = true → active = List.replicate k true) → ∃ tmp, partialNodes runs Ts (List.replicate k (some 0)) active 0 res 0 =
      .ok (tmp, if Ts = [] then res else 0, 0) := by
  induction Ts with
  | nil => intro k _ active res _; exact ⟨[], by simp [partialNodes]⟩
  | cons T Ts ih =>
    intro k hk active res ha
    obtain ⟨k, rfl⟩ : ∃ j, k = j + 1 := ⟨k - 1, by simp at hk; omega⟩
    have e0 := h T List.mem_cons_self
    have ih' := ih (fun T hT => h T (List.mem_cons_of_mem _ hT)) (k := k) (by simpa using hk)
    rw [partialNodes.eq_def]
    simp only [List.replicate_succ]
    cases runs with
    | true =>
      obtain ⟨tmp, e⟩ := ih' (List.replicate k true) 0 (fun _ => rfl)
      rw [ha rfl]
      simp only [List.replicate_succ]
      exact ⟨true :: tmp, by simp [readRoot, e0, e]⟩
    | false =>
      obtain ⟨tmp, e⟩ := ih' active 0 (by simp)
      exact ⟨tmp, by simpa [readRoot, e0] using e⟩

/-- Parallel intersection of fast tries of one word, two or more hardware threads: the root that does not exist is read. -/
theorem fast_one_par {lg pad : Nat} {Ts : List FNav} {runs : Bool} {env : Env} (hlg : lg ≤ 6) (hne : Ts ≠ []) (hlen : Ts.length ≤ 16)
    (hh : ∀ n ∈ Ts, n.height = 1) (hnode : ∀ n ∈ Ts, n.getNode 0 0 = if 2 ≤ pad then .ok 0 else .error .oob)
    (hw : 2 ≤ env.hw) (hw' : env.hw < 2 ^ 64) :
    fastIntersect lg Ts runs true env =
      if 2 ≤ pad then .ok (if runs then List.range (2 ^ lg) else []) else .error .oob := by
  have h0 : env.hw ≠ 0 := by omega
  have hlog : Nat.log2 env.hw < 64 := (Nat.log2_lt h0).2 hw'
  obtain ⟨c, hc⟩ : ∃ c, Nat.log2 env.hw = c + 1 := ⟨Nat.log2 env.hw - 1, by
    have : 1 ≤ Nat.log2 env.hw := (Nat.le_log2 h0).2 (by omega)
    omega⟩
  rw [fastIntersect_unfold (d := 0) hne hh, intersectBody, if_neg h0]
  simp only [hc, Nat.zero_add]
  rw [if_pos (by simp; omega), partialAND]
  by_cases hp : 2 ≤ pad
  · simp only [hp, if_true] at hnode ⊢
    obtain ⟨tmp, e⟩ := partialNodes_zero (Ts := Ts.map FNav.toNav) (by simpa using hnode) runs (k := 16) (by simpa using hlen)
      (List.replicate 16 true) 3 (fun _ => rfl)
    rw [e]
    generalize List.replicate 16 (some 0) = ro
    have hne' : ¬ Ts.map FNav.toNav = [] := by simpa using hne
    cases runs with
    | false => simp [hne']
    | true =>
      have hf := fillRange_ok (p := 0) (k := lg) [] (by omega) (Dvd.intro 0 (by simp)) (P := fun _ => true) (fun _ _ => rfl)
      have he : enum lg (fun _ => true) 0 = List.range (2 ^ lg) := by simp [enum]
      rw [he] at hf
      simp [fastCfg, hf]
  · simp only [hp, if_false] at hnode ⊢
    obtain ⟨T, Ts, rfl⟩ := List.exists_cons_of_ne_nil hne
    have e0 := hnode T List.mem_cons_self
    simp only [List.map_cons, List.replicate_succ]
    rw [partialNodes.eq_def]
    cases runs <;> simp [readRoot, e0, bind, Except.bind]

end CBT
