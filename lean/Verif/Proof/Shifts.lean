import Verif.Model.Shifts
import Verif.Proof.Height1

/-!
# Checked shift amounts
-/

namespace CBT

theorem shlDiff_eq {a b : Nat} (h : b + 1 ≤ a) : shlDiff a (b + 1) = shl1 (a - b - 1) := by
  rw [shlDiff, if_pos h, Nat.sub_sub]

theorem fillDiff_eq {p a b : Nat} {out : List Nat} (h : b ≤ a) : fillDiff p a b out = fillRange p (a - b) out := by
  rw [fillDiff, if_pos h]

/-! ## `decode` -/

theorem recDecodeK_eq {n : Nav} : (rem : Nat) → (out : List Nat) → (part id level : Nat) → level + rem ≤ n.height →
    recDecodeK n rem out part id level = recDecode n rem out part id level
  | 0, _, _, _, _, _ => rfl
  | rem + 1, out, part, id, level, h => by
    have ih := fun out part id => recDecodeK_eq (n := n) rem out part id (level + 1) (by omega)
    simp only [recDecodeK, recDecode, ih, shlDiff_eq (show level + 1 ≤ n.height by omega)]

/-- Below the last level of a trie nothing can be read. -/
theorem runsRecDecodeK_eq {n : Nav} (hn : ∀ id level, n.height ≤ level → n.getNode id level = .error .oob) :
    (rem : Nat) → (out : List Nat) → (part id level : Nat) →
    runsRecDecodeK n rem out part id level = runsRecDecode n rem out part id level
  | 0, _, _, _, _ => rfl
  | rem + 1, out, part, id, level => by
    have ih := fun out part id => runsRecDecodeK_eq hn rem out part id (level + 1)
    by_cases h : level < n.height
    · simp only [runsRecDecodeK, runsRecDecode, ih, shlDiff_eq (show level + 1 ≤ n.height by omega), fillDiff_eq h.le]
    · rw [runsRecDecodeK, runsRecDecode, hn id level (by omega)]
      rfl

theorem runsRecDecodeK_eq' {n : Nav} : (rem : Nat) → (out : List Nat) → (part id level : Nat) → level + rem ≤ n.height →
    runsRecDecodeK n rem out part id level = runsRecDecode n rem out part id level
  | 0, _, _, _, _, _ => rfl
  | rem + 1, out, part, id, level, h => by
    have ih := fun out part id => runsRecDecodeK_eq' (n := n) rem out part id (level + 1) (by omega)
    simp only [runsRecDecodeK, runsRecDecode, ih, shlDiff_eq (show level + 1 ≤ n.height by omega), fillDiff_eq (show level ≤ n.height by omega)]

theorem fastRecDecodeK_eq {lg hu : Nat} {n : FNav} : (rem : Nat) → (out : List Nat) → (part id level : Nat) → level + rem ≤ hu →
    fastRecDecodeK lg hu n rem out part id level = fastRecDecode lg hu n rem out part id level
  | 0, _, _, _, _, _ => rfl
  | rem + 1, out, part, id, level, h => by
    have ih := fun out part id => fastRecDecodeK_eq (lg := lg) (hu := hu) (n := n) rem out part id (level + 1) (by omega)
    simp only [fastRecDecodeK, fastRecDecode, ih, shlDiff_eq (show level + 1 ≤ hu by omega)]

theorem fastRunsRecDecodeK_eq {lg hu : Nat} {n : FNav} : (rem : Nat) → (out : List Nat) → (part id level : Nat) → level + rem ≤ hu →
    fastRunsRecDecodeK lg hu n rem out part id level = fastRunsRecDecode lg hu n rem out part id level
  | 0, _, _, _, _, _ => rfl
  | rem + 1, out, part, id, level, h => by
    have ih := fun out part id => fastRunsRecDecodeK_eq (lg := lg) (hu := hu) (n := n) rem out part id (level + 1) (by omega)
    simp only [fastRunsRecDecodeK, fastRunsRecDecode, ih, shlDiff_eq (show level + 1 ≤ hu by omega), fillDiff_eq (show level ≤ hu by omega)]

/-! ## `Intersect` -/

variable {Ts : List Nav} {c : Cfg}

theorem ANDK_eq : (rem level : Nat) → (roots : List (Option Nat)) → (pref : Nat) → (r : List Nat) → level + rem ≤ c.top →
    ANDK Ts c rem level roots pref r = AND Ts c rem level roots pref r
  | 0, _, _, _, _, _ => rfl
  | rem + 1, level, roots, pref, r, h => by
    have ih := fun roots pref r => ANDK_eq rem (level + 1) roots pref r (by omega)
    simp only [ANDK, AND, ih, shlDiff_eq (show level + 1 ≤ c.top by omega)]

theorem runsANDK_eq : (rem level : Nat) → (roots : List (Option Nat)) → (active : List Bool) → (pref : Nat) → (r : List Nat) →
    level + rem ≤ c.top → runsANDK Ts c rem level roots active pref r = runsAND Ts c rem level roots active pref r
  | 0, _, _, _, _, _, _ => rfl
  | rem + 1, level, roots, active, pref, r, h => by
    have ih := fun roots active pref r => runsANDK_eq rem (level + 1) roots active pref r (by omega)
    simp only [runsANDK, runsAND, ih, shlDiff_eq (show level + 1 ≤ c.top by omega), fillDiff_eq (show level ≤ c.top by omega)]

theorem partialANDK_eq {runs : Bool} : (rem level : Nat) → (roots : List (Option Nat)) → (active : List Bool) → (part : Nat) → (s : PSt) →
    level + rem ≤ c.top → partialANDK Ts c runs rem level roots active part s = partialAND Ts c runs rem level roots active part s
  | 0, _, _, _, _, _, _ => rfl
  | rem + 1, level, roots, active, part, s, h => by
    have ih := fun roots active part s => partialANDK_eq (runs := runs) rem (level + 1) roots active part s (by omega)
    simp only [partialANDK, partialAND, ih, shlDiff_eq (show level + 1 ≤ c.top by omega), fillDiff_eq (show level ≤ c.top by omega)]

theorem fillThreadsK_eq {runs : Bool} {cut nThreads total : Nat} (h : cut + 1 ≤ c.top) : (todo : List Task) → (i used : Nat) → (s : PSt) →
    fillThreadsK Ts c runs cut nThreads total todo i used s = fillThreads Ts c runs cut nThreads total todo i used s
  | [], _, _, _ => rfl
  | t :: todo, i, used, s => by
    simp only [fillThreadsK, fillThreads, partialANDK_eq 1 cut _ _ _ _ h, fillThreadsK_eq h todo]

theorem fillThreadsK_stop {runs : Bool} {cut n total : Nat} {todo : List Task} {i used : Nat} {s : PSt} (h : used ≤ n) (h' : n ≤ used + 1) :
    fillThreadsK Ts c runs cut n total todo i used s = .ok (todo, used, s) := by
  cases todo with
  | nil => rfl
  | cons t todo =>
    rw [fillThreadsK, if_neg]
    have : n + 2 ^ 32 - used = (n - used) + 2 ^ 32 := by omega
    rw [this, Nat.add_mod_right, Nat.mod_eq_of_lt (by omega)]
    omega

theorem vGet_mem' {α : Type} {l : List α} {i : Nat} {x : α} (h : vGet l i = .ok x) : x ∈ l := by
  rw [vGet] at h
  split at h
  · cases h; exact List.mem_of_getElem? (by assumption)
  · cases h

/-- What has to be shown of the first phase of the parallel call. -/
structure ShiftsOk (Ts : List Nav) (c : Cfg) (runs : Bool) (cut : Nat) : Prop where
  first : partialANDK Ts c runs cut 0 (List.replicate 16 (some 0)) (List.replicate 16 true) 0 { r := [], tasks := [] } =
    partialAND Ts c runs cut 0 (List.replicate 16 (some 0)) (List.replicate 16 true) 0 { r := [], tasks := [] }
  second : ∀ s, partialAND Ts c runs cut 0 (List.replicate 16 (some 0)) (List.replicate 16 true) 0 { r := [], tasks := [] } = .ok s →
    s.tasks.length ≠ 0 → ∃ x, fillThreadsK Ts c runs cut (2 ^ cut) (s.tasks.length % 2 ^ 16) (s.tasks.take (s.tasks.length % 2 ^ 16)) 0
        (s.tasks.length % 2 ^ 16) { s with tasks := [] } = x ∧
      fillThreads Ts c runs cut (2 ^ cut) (s.tasks.length % 2 ^ 16) (s.tasks.take (s.tasks.length % 2 ^ 16)) 0
        (s.tasks.length % 2 ^ 16) { s with tasks := [] } = x ∧
      ∀ rest used s', x = .ok (rest, used, s') → ∀ l ∈ List.replicate s'.tasks.length (cut + 1) ++ List.replicate rest.length cut, l ≤ c.stop

theorem ShiftsOk.of_le {runs : Bool} {cut : Nat} (h : cut + 1 ≤ c.top) (h' : cut + 1 ≤ c.stop) : ShiftsOk Ts c runs cut where
  first := partialANDK_eq _ _ _ _ _ _ (by omega)
  second s _ _ := ⟨_, rfl, (fillThreadsK_eq h _ _ _ _).symm, fun rest used s' _ l hl => by
    simp only [List.mem_append, List.mem_replicate] at hl
    omega⟩

theorem intersectBodyK_eq {height : Nat} {runs par : Bool} {env : Env} (hs : c.stop ≤ c.top)
    (H : par = true → env.hw ≠ 0 → Nat.log2 env.hw ≤ (height + 2 ^ 64 - 2) % 2 ^ 64 → ShiftsOk Ts c runs (Nat.log2 env.hw)) :
    intersectBodyK Ts c height runs par env = intersectBody Ts c height runs par env := by
  rw [intersectBodyK, intersectBody]
  by_cases hw : env.hw = 0
  · simp [hw]
  simp only [hw, if_false]
  by_cases hc : par = true ∧ Nat.log2 env.hw ≤ (height + 2 ^ 64 - 2) % 2 ^ 64
  · simp only [hc, and_self, if_true]
    obtain ⟨h1, h2⟩ := H hc.1 hw hc.2
    rw [h1]
    cases hp : partialAND Ts c runs (Nat.log2 env.hw) 0 (List.replicate 16 (some 0)) (List.replicate 16 true) 0 { r := [], tasks := [] } with
    | error e => rfl
    | ok s =>
      simp only [R_bind_ok]
      by_cases h0 : s.tasks.length = 0
      · simp only [h0, if_true]
      simp only [h0, if_false]
      obtain ⟨x, h3, h4, h5⟩ := h2 s hp h0
      rw [h3, h4]
      cases x with
      | error e => rfl
      | ok x =>
        obtain ⟨rest, used, s'⟩ := x
        have h6 := h5 rest used s' rfl
        simp only [R_bind_ok]
        congr 2
        congr 1
        funext t
        cases vGet (s'.tasks ++ rest) t with
        | error e => rfl
        | ok task =>
          simp only [R_bind_ok]
          cases hl : vGet (List.replicate s'.tasks.length (Nat.log2 env.hw + 1) ++ List.replicate rest.length (Nat.log2 env.hw)) t with
          | error e => rfl
          | ok level =>
            have hle := h6 level (vGet_mem' hl)
            simp only [R_bind_ok, if_neg (Nat.not_lt.2 hle)]
            rw [ANDK_eq _ _ _ _ _ (by omega), runsANDK_eq _ _ _ _ _ _ (by omega)]
  · simp only [hc, if_false]
    rw [ANDK_eq _ _ _ _ _ (by omega), runsANDK_eq _ _ _ _ _ _ (by omega)]

/-! ## Height 1 -/

variable {ws : List Nat}

theorem partialANDK_one_oob (h : List.Forall₂ One ws Ts) (hne : Ts ≠ []) (hlen : Ts.length ≤ 16) (runs : Bool) (c : Nat) :
    partialANDK Ts (flatCfg 1) runs (c + 2) 0 (List.replicate 16 (some 0)) (List.replicate 16 true) 0 { r := [], tasks := [] } =
      if ws.foldl (· &&& ·) 3 = 0 then .ok { r := [], tasks := [] } else .error .oob := by
  have hor := or_ne_of_one h hne
  have hle := le3 (foldl_and_le ws 3)
  have e2 := partialNodes_one h runs hlen 3 0
  have e3 := children_one (fun _ _ h => h.left) false h hlen
  have e4 := children_one (fun _ _ h => h.right) false h hlen
  have e5 : ∀ c active part s, partialANDK Ts (flatCfg 1) runs (c + 1) 1 (List.replicate Ts.length (some 0))
      (if runs then List.replicate Ts.length true else active) part s = .error .oob := by
    intro c active part s
    rw [partialANDK]
    cases h with
    | nil => exact (hne rfl).elim
    | @cons w T ws Ts h _ =>
      rw [List.length_cons, List.replicate_succ, List.replicate_succ, partialNodes.eq_def]
      cases runs <;> simp [readRoot, h.deeper, bind, Except.bind]
  rw [partialANDK, e2]
  generalize ws.foldl (· &&& ·) 3 = res at *
  generalize ws.foldl (· ||| ·) 0 = orr at *
  generalize List.replicate 16 (some 0) = ro at *
  have e6 : shlDiff (flatCfg 1).top (0 + 1) = .ok 1 := rfl
  simp only [R_bind_ok, e6]
  rcases hle with rfl | rfl | rfl | rfl
  · cases runs <;> simp [hor]
  · have e7 := e5 c [] 1 { r := [], tasks := [] }
    simp only [e4, R_bind_ok] at e7 ⊢
    cases runs <;> simpa [hor] using e7
  · have e7 := e5 c [] 0 { r := [], tasks := [] }
    simp only [e3, R_bind_ok] at e7 ⊢
    cases runs <;> simpa [hor] using e7
  · have e7 := e5 c [] 0 { r := [], tasks := [] }
    simp only [e3, R_bind_ok] at e7 ⊢
    cases runs <;> simp only [Bool.false_eq_true, if_false, if_true] at e7 <;> simp [hor, e7, bind, Except.bind]

theorem ShiftsOk.one (h : List.Forall₂ One ws Ts) (hne : Ts ≠ []) (hlen : Ts.length ≤ 16) (runs : Bool) :
    (cut : Nat) → ShiftsOk Ts (flatCfg 1) runs cut
  | 0 => .of_le (Nat.le_refl 1) (Nat.le_refl 1)
  | 1 => by
    obtain ⟨tasks, e1, e2⟩ := partialAND_one h hne hlen runs
    have hlen2 : tasks.length ≤ 2 := by
      rw [← List.length_map (f := Task.part), e2, rootElems]
      split
      · simp
      · split
        · simp
        · split <;> simp
    refine ⟨partialANDK_eq _ _ _ _ _ _ (Nat.le_refl 1), fun s hs h0 => ?_⟩
    rw [e1] at hs
    cases hs
    simp only at h0 ⊢
    rw [Nat.mod_eq_of_lt (by omega), fillThreads_stop (by omega) (by omega), fillThreadsK_stop (by omega) (by omega)]
    refine ⟨_, rfl, rfl, fun rest used s' h l hl => ?_⟩
    cases h
    simp only [List.length_nil, List.replicate_zero, List.nil_append, List.mem_replicate] at hl
    exact hl.2.le
  | c + 2 => by
    refine ⟨?_, fun s hs h0 => ?_⟩
    · rw [partialANDK_one_oob h hne hlen, partialAND_one_oob h hne hlen]
    · rw [partialAND_one_oob h hne hlen] at hs
      split at hs
      · cases hs; exact (h0 rfl).elim
      · cases hs

theorem ShiftsOk.fast_one {lg pad : Nat} {Ts : List FNav} (hlen : Ts.length ≤ 16) (hne : Ts ≠ [])
    (hnode : ∀ n ∈ Ts, n.getNode 0 0 = if 2 ≤ pad then .ok 0 else .error .oob) (runs : Bool) :
    (cut : Nat) → ShiftsOk (Ts.map FNav.toNav) (fastCfg lg Ts 1) runs cut
  | 0 => by
    have h16 : ¬ 16 < (Ts.map FNav.toNav).length := by simpa using hlen
    refine ⟨rfl, fun s hs h0 => ?_⟩
    rw [partialAND, if_neg (by simp only [List.length_replicate]; omega)] at hs
    cases hs
    rw [fillThreads_stop (by simp) (by simp), fillThreadsK_stop (by simp) (by simp)]
    refine ⟨_, rfl, rfl, fun rest used s' h l hl => ?_⟩
    cases h
    simp only [List.length_nil, List.replicate_zero, List.nil_append, List.mem_replicate] at hl
    exact hl.2.le
  | cut + 1 => by
    rw [← List.forall_mem_map (f := FNav.toNav) (P := fun n => n.getNode 0 0 = if 2 ≤ pad then .ok 0 else .error .oob)] at hnode
    have hlen' : (Ts.map FNav.toNav).length ≤ 16 := by simpa using hlen
    have hne' : Ts.map FNav.toNav ≠ [] := by simpa using hne
    have h0 : 0 ≤ (fastCfg lg Ts 1).top := Nat.zero_le _
    generalize fastCfg lg Ts 1 = c at *
    generalize Ts.map FNav.toNav = Us at *
    have key : (∃ e, partialANDK Us c runs (cut + 1) 0 (List.replicate 16 (some 0)) (List.replicate 16 true) 0 { r := [], tasks := [] } = .error e ∧
        partialAND Us c runs (cut + 1) 0 (List.replicate 16 (some 0)) (List.replicate 16 true) 0 { r := [], tasks := [] } = .error e) ∨
        ∃ r, partialANDK Us c runs (cut + 1) 0 (List.replicate 16 (some 0)) (List.replicate 16 true) 0 { r := [], tasks := [] } = .ok ⟨r, []⟩ ∧
        partialAND Us c runs (cut + 1) 0 (List.replicate 16 (some 0)) (List.replicate 16 true) 0 { r := [], tasks := [] } = .ok ⟨r, []⟩ := by
      rw [partialANDK, partialAND]
      by_cases hp : 2 ≤ pad
      · simp only [hp, if_true] at hnode
        obtain ⟨tmp, e⟩ := partialNodes_zero hnode runs (k := 16) hlen' (List.replicate 16 true) 3 (fun _ => rfl)
        rw [e]
        generalize List.replicate 16 (some 0) = ro
        cases runs with
        | false => right; exact ⟨[], by simp [hne'], by simp [hne']⟩
        | true =>
          simp only [fillDiff_eq h0, R_bind_ok]
          cases hf : fillRange 0 (c.top - 0) [] with
          | error e => left; exact ⟨e, by simp [bind, Except.bind], by simp [bind, Except.bind]⟩
          | ok r => right; exact ⟨r, by simp, by simp⟩
      · simp only [hp, if_false] at hnode
        obtain ⟨T, Ts', rfl⟩ := List.exists_cons_of_ne_nil hne'
        have e0 := hnode T List.mem_cons_self
        left
        refine ⟨.oob, ?_, ?_⟩ <;>
        · simp only [List.replicate_succ]
          rw [partialNodes.eq_def]
          cases runs <;> simp [readRoot, e0, bind, Except.bind]
    rcases key with ⟨e, k1, k2⟩ | ⟨r, k1, k2⟩
    · exact ⟨k1.trans k2.symm, fun s hs _ => by rw [k2] at hs; cases hs⟩
    · exact ⟨k1.trans k2.symm, fun s hs h => by rw [k2] at hs; cases hs; exact (h rfl).elim⟩

end CBT
