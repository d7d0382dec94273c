import Verif.Proof.Memory

/-!
# `Intersect` with a heap
-/

namespace CBT

theorem noFlags_append {runs : Bool} {L M : List Task} : NoFlags runs (L ++ M) ↔ NoFlags runs L ∧ NoFlags runs M := by
  constructor
  · intro h
    exact ⟨fun hr T hT => h hr T (List.mem_append_left _ hT), fun hr T hT => h hr T (List.mem_append_right _ hT)⟩
  · rintro ⟨h1, h2⟩ hr T hT
    exact (List.mem_append.1 hT).elim (h1 hr T) (h2 hr T)

theorem partialAND_noFlags (Ts : List Nav) (c : Cfg) (runs : Bool) : (rem ℓ : Nat) → (roots : List (Option Nat)) →
    (active : List Bool) → (part : Nat) → (s s' : PSt) → NoFlags runs s.tasks →
    partialAND Ts c runs rem ℓ roots active part s = .ok s' → NoFlags runs s'.tasks
  | 0, ℓ, roots, active, part, s, s', hs, h => by
    rw [partialAND] at h
    split at h
    · cases h
    · cases h
      refine noFlags_append.2 ⟨hs, ?_⟩
      intro hr T hT
      rw [List.mem_singleton.1 hT]
      simp [hr]
  | rem + 1, ℓ, roots, active, part, s, s', hs, h => by
    rw [partialAND] at h
    obtain ⟨⟨tmp, res, n00⟩, _, h⟩ := bind_ok h
    dsimp only at h
    split at h
    · cases h; exact hs
    split at h
    · obtain ⟨_, _, h⟩ := bind_ok h
      cases h; exact hs
    split at h
    · obtain ⟨_, _, h⟩ := bind_ok h
      exact partialAND_noFlags Ts c runs rem _ _ _ _ _ _ hs h
    split at h
    · obtain ⟨_, _, h⟩ := bind_ok h
      obtain ⟨_, _, h⟩ := bind_ok h
      exact partialAND_noFlags Ts c runs rem _ _ _ _ _ _ hs h
    split at h
    · obtain ⟨_, _, h⟩ := bind_ok h
      obtain ⟨_, _, h⟩ := bind_ok h
      obtain ⟨_, h1, h⟩ := bind_ok h
      exact partialAND_noFlags Ts c runs rem _ _ _ _ _ _ (partialAND_noFlags Ts c runs rem _ _ _ _ _ _ hs h1) h
    · cases h; exact hs

theorem fillThreads_suffix (Ts : List Nav) (c : Cfg) (runs : Bool) (cut n total : Nat) : (todo : List Task) → (i used : Nat) →
    (s : PSt) → (rest : List Task) → (u : Nat) → (s' : PSt) → NoFlags runs s.tasks →
    fillThreads Ts c runs cut n total todo i used s = .ok (rest, u, s') → (∃ pre, todo = pre ++ rest) ∧ NoFlags runs s'.tasks
  | [], i, used, s, rest, u, s', hs, h => by
    rw [fillThreads] at h
    cases h
    exact ⟨⟨[], rfl⟩, hs⟩
  | T :: todo, i, used, s, rest, u, s', hs, h => by
    rw [fillThreads] at h
    split at h
    · obtain ⟨s1, h1, h⟩ := bind_ok h
      obtain ⟨⟨pre, hp⟩, h2⟩ := fillThreads_suffix Ts c runs cut n total todo _ _ s1 rest u s' (partialAND_noFlags Ts c runs _ _ _ _ _ _ _ hs h1) h
      exact ⟨⟨T :: pre, by rw [hp]; rfl⟩, h2⟩
    · cases h
      exact ⟨⟨[], rfl⟩, hs⟩

/-- The pointers of `t` hold the task `T`. -/
def Pt (H : Heap) (t : MTask) (T : Task) : Prop := t.part = T.part ∧ H.roots t.roots = .ok T.roots ∧ H.flags t.active = .ok T.active

theorem pt_ptrsOf {runs : Bool} (pre M post : List Task) (X : Heap) (hf : NoFlags runs M) :
    List.Forall₂ (Pt (blocksOf runs (pre ++ M ++ post) ++ X)) (ptrsOf runs (perTask runs * pre.length) M) M := by
  induction M generalizing pre with
  | nil => exact .nil
  | cons T M ih =>
    rw [ptrsOf]
    have h := blocksOf_get runs pre T (M ++ post) X
    have e : pre ++ (T :: M) ++ post = pre ++ T :: (M ++ post) := by simp
    refine .cons ⟨rfl, ?_, ?_⟩ ?_
    · rw [e]; exact h.1
    · rw [e]
      refine h.2.trans ?_
      cases runs with
      | true => rfl
      | false => rw [hf rfl T List.mem_cons_self]; rfl
    · have := ih (pre ++ [T]) (fun hr T hT => hf hr T (List.mem_cons_of_mem _ hT))
      simp only [List.append_assoc, List.cons_append, List.nil_append, List.length_append, List.length_cons, List.length_nil,
        Nat.zero_add, Nat.mul_add, Nat.mul_one] at this
      simpa using this

theorem pt_vGet {H : Heap} {next : List MTask} {M : List Task} (h : List.Forall₂ (Pt H) next M) {B : Type}
    (f : Nat → List (Option Nat) → List Bool → R B) (t : Nat) :
    (do
      let task ← vGet next t
      let roots ← H.roots task.roots
      let active ← H.flags task.active
      f task.part roots active) = (do
      let T ← vGet M t
      f T.part T.roots T.active) := by
  induction h generalizing t with
  | nil => rfl
  | @cons a T l M h _ ih =>
    cases t with
    | zero =>
      simp only [vGet, List.getElem?_cons_zero, R_bind_ok, h.1, h.2.1, h.2.2]
    | succ t => simpa [vGet] using ih t

theorem mapM_ok_mem {A B : Type} {f : A → R B} : {l : List A} → {r : List B} → l.mapM f = .ok r → ∀ a ∈ l, ∃ b, f a = .ok b
  | [], _, _, a, ha => by simp at ha
  | x :: l, r, h, a, ha => by
    rw [List.mapM_cons] at h
    obtain ⟨b, hb, h⟩ := bind_ok h
    obtain ⟨bs, hbs, h⟩ := bind_ok h
    rcases List.mem_cons.1 ha with rfl | ha
    · exact ⟨b, hb⟩
    · exact mapM_ok_mem hbs a ha

theorem parallelFor_body_ok {α σ : Type} {act : α → σ → R σ} {sched : List Nat} {n : Nat} {body : Nat → R (List α)} {s s' : σ}
    (h : parallelFor act sched n n body s = .ok s') : ∀ t < n, ∃ b, body t = .ok b := by
  intro t ht
  rw [parallelFor] at h
  obtain ⟨chunks, hc, h⟩ := bind_ok h
  obtain ⟨progs, hp, h⟩ := bind_ok h
  rw [parallelChunks, if_neg (by omega), Nat.div_self (by omega)] at hc
  cases hc
  obtain ⟨b, hb⟩ := mapM_ok_mem hp (t * 1, t * 1 + 1) (List.mem_append_left _ (List.mem_map.2 ⟨t, List.mem_range.2 ht, rfl⟩))
  obtain ⟨bs, hbs, _⟩ := bind_ok hb
  exact mapM_ok_mem hbs t (by simp [chunkIndices])

/-- The parallel path of `memBody`. -/
theorem memBody_par (Ts : List Nav) (c : Cfg) (runs : Bool) (env : Env) (height : Nat) (hw : env.hw ≠ 0)
    (hcut : Nat.log2 env.hw ≤ (height + 2 ^ 64 - 2) % 2 ^ 64) :
    memBody Ts c height runs true env = (do
      let s ← partialAND Ts c runs (Nat.log2 env.hw) 0 (List.replicate 16 (some 0)) (List.replicate 16 true) 0 ⟨[], []⟩
      if s.tasks.length = 0 then .ok (s.r, [])
      else
        let total := s.tasks.length % 2 ^ 16
        let (rest, used, s') ← fillThreads Ts c runs (Nat.log2 env.hw) (2 ^ Nat.log2 env.hw) total (s.tasks.take total) 0 total ⟨s.r, []⟩
        let next := s'.tasks ++ rest
        let levels := List.replicate s'.tasks.length (Nat.log2 env.hw + 1) ++ List.replicate rest.length (Nat.log2 env.hw)
        if next.length = 0 then .ok (s'.r, blocksOf runs (s.tasks ++ s'.tasks))
        else
          let results ← parallelFor actPush env.sched1 used used
            (fun t => do
              let task ← vGet next t
              let level ← vGet levels t
              let out ← if runs then runsAND Ts c (c.stop - level) level task.roots task.active task.part []
                        else AND Ts c (c.stop - level) level task.roots task.part []
              pure (out.map fun x => (t, x)))
            (List.replicate used [])
          let r ← gather env.sched2 s'.r results used
          let H ← freeTasks runs (ptrsOf runs (blocksOf runs s.tasks).length s'.tasks ++
            ptrsOf runs (perTask runs * (total - rest.length)) rest) used (blocksOf runs s.tasks ++ blocksOf runs s'.tasks)
          .ok (r, H)) := by
  rw [memBody]
  generalize Nat.log2 env.hw = cut at *
  simp only [hw, hcut, if_false, and_self, if_true]
  have e0 : ({ r := [], tasks := [], heap := [] } : MSt) = conc runs [] ⟨[], []⟩ := rfl
  rw [e0, partialANDm_eq, R_bind_map]
  refine R_bind_congr _ fun s hs => ?_
  have hnf := partialAND_noFlags Ts c runs _ _ _ _ _ _ _ (fun _ => by simp) hs
  have hl : (conc runs [] s).tasks.length = s.tasks.length := ptrsOf_length _ _ _
  rw [hl]
  by_cases h0 : s.tasks.length = 0
  · rw [if_pos h0, if_pos h0]
    simp only [conc]
    rw [List.length_eq_zero_iff.1 h0]
    rfl
  rw [if_neg h0, if_neg h0]
  generalize ht : s.tasks.length % 2 ^ 16 = total
  have htl : total ≤ s.tasks.length := by rw [← ht]; exact Nat.mod_le _ _
  have hlt : (s.tasks.take total).length = total := by rw [List.length_take]; omega
  have e1 : (conc runs [] s).tasks.take total = ptrsOf runs (perTask runs * ([] : List Task).length) (s.tasks.take total) :=
    ptrsOf_take runs _ _ _
  have e2 : ({ conc runs [] s with tasks := [] } : MSt) = conc runs (blocksOf runs ([] ++ s.tasks.take total ++ s.tasks.drop total)) ⟨s.r, []⟩ := by
    simp [conc, ptrsOf, blocksOf]
  have hnt : NoFlags runs (s.tasks.take total) := fun hr T hT => hnf hr T (List.mem_of_mem_take hT)
  rw [e1, e2, fillThreadsM_eq Ts c runs cut _ total _ _ _ _ _ _ hnt, R_bind_map]
  refine R_bind_congr _ fun ⟨rest, used, s'⟩ hf => ?_
  obtain ⟨⟨pre, hpre⟩, hnf'⟩ := fillThreads_suffix Ts c runs cut _ total _ _ _ _ _ _ _ (fun _ => by simp) hf
  have e3 : [] ++ s.tasks.take total ++ s.tasks.drop total = s.tasks := by simp
  dsimp only
  rw [e3, List.length_nil, Nat.zero_add, hlt]
  simp only [conc, List.length_append, ptrsOf_length, R_pure]
  have hsplit : s.tasks = pre ++ rest ++ s.tasks.drop total := by rw [← hpre, List.take_append_drop]
  have hpl : total - rest.length = pre.length := by rw [← hlt, hpre, List.length_append]; omega
  have hpt : List.Forall₂ (Pt (blocksOf runs s.tasks ++ blocksOf runs s'.tasks))
      (ptrsOf runs (blocksOf runs s.tasks).length s'.tasks ++ ptrsOf runs (perTask runs * (total - rest.length)) rest) (s'.tasks ++ rest) := by
    refine List.rel_append ?_ ?_
    · have := pt_ptrsOf s.tasks s'.tasks [] [] hnf'
      rw [blocksOf_length]
      simpa [blocksOf] using this
    · have := pt_ptrsOf pre rest (s.tasks.drop total) (blocksOf runs s'.tasks) (fun hr T hT => hnf hr T (by
        rw [hsplit]; simp [hT]))
      rwa [← hsplit, ← hpl] at this
  by_cases hz : s'.tasks.length + rest.length = 0
  · rw [if_pos hz, if_pos hz, blocksOf_append]
  rw [if_neg hz, if_neg hz]
  congr 1
  congr 1
  funext t
  have hb := fun level => pt_vGet hpt (fun part roots active => do
    let out ← if runs then runsAND Ts c (c.stop - level) level roots active part []
              else AND Ts c (c.stop - level) level roots part []
    pure (out.map fun x => (t, x))) t
  simp only [R_pure] at hb
  cases hv : vGet (List.replicate s'.tasks.length (cut + 1) ++ List.replicate rest.length cut) t with
  | ok level => simpa only [R_bind_ok] using hb level
  | error e =>
    have hE : ∀ {B : Type} (f : Nat → R B), (Except.error e >>= f) = (Except.error e : R B) := fun _ => rfl
    simp only [hE]
    have hlen := hpt.length_eq
    simp only [vGet]
    by_cases hlt : t < (s'.tasks ++ rest).length
    · rw [List.getElem?_eq_getElem hlt, List.getElem?_eq_getElem (by omega)]
      rfl
    · rw [List.getElem?_eq_none (by omega), List.getElem?_eq_none (by omega)]
      rfl

/-- The threads only start if there is a task for each. -/
theorem used_le {Ts : List Nav} {c : Cfg} {runs : Bool} {sched : List Nat} {next : List Task} {levels : List Nat} {used : Nat}
    {res : List (List Nat)}
    (h : parallelFor actPush sched used used
      (fun t => do
        let task ← vGet next t
        let level ← vGet levels t
        let out ← if runs then runsAND Ts c (c.stop - level) level task.roots task.active task.part []
                  else AND Ts c (c.stop - level) level task.roots task.part []
        pure (out.map fun x => (t, x)))
      (List.replicate used []) = .ok res) : used ≤ next.length := by
  by_contra hlt
  obtain ⟨b, hb⟩ := parallelFor_body_ok h next.length (by omega)
  obtain ⟨T, hT, _⟩ := bind_ok hb
  rw [vGet, List.getElem?_eq_none (by omega)] at hT
  cases hT

/-- Memory management adds no undefined behaviour and does not change the result. -/
theorem memBody_map (Ts : List Nav) (c : Cfg) (height : Nat) (runs parallel : Bool) (env : Env) :
    (memBody Ts c height runs parallel env).map Prod.fst = intersectBody Ts c height runs parallel env := by
  by_cases hw : env.hw = 0
  · simp only [memBody, intersectBody, hw, if_true]
    rfl
  by_cases hc : parallel = true ∧ Nat.log2 env.hw ≤ (height + 2 ^ 64 - 2) % 2 ^ 64
  · obtain ⟨rfl, hcut⟩ := hc
    rw [memBody_par Ts c runs env height hw hcut, intersectBody]
    generalize Nat.log2 env.hw = cut at *
    simp only [hw, hcut, if_false, and_self, if_true]
    rw [R_map_bind]
    refine R_bind_congr _ fun s hs => ?_
    by_cases h0 : s.tasks.length = 0
    · rw [if_pos h0, if_pos h0]
      rfl
    rw [if_neg h0, if_neg h0]
    rw [R_map_bind]
    refine R_bind_congr _ fun ⟨rest, used, s'⟩ hf => ?_
    have hnf := partialAND_noFlags Ts c runs _ _ _ _ _ _ _ (fun _ => by simp) hs
    obtain ⟨⟨pre, hpre⟩, -⟩ := fillThreads_suffix Ts c runs cut _ _ _ _ _ _ _ _ _ (fun _ => by simp) hf
    dsimp only
    by_cases hz : (s'.tasks ++ rest).length = 0
    · rw [if_pos hz, if_pos hz]
      rfl
    rw [if_neg hz, if_neg hz, R_map_bind]
    refine R_bind_congr _ fun results hr => ?_
    have hu := used_le hr
    rw [List.length_append] at hu
    have hk : s.tasks.length % 2 ^ 16 - rest.length + rest.length ≤ s.tasks.length := by
      have h1 : rest.length ≤ s.tasks.length % 2 ^ 16 := by
        have := congrArg List.length hpre
        rw [List.length_take, List.length_append] at this
        omega
      have := Nat.mod_le s.tasks.length (2 ^ 16)
      omega
    obtain ⟨H', e, -⟩ := freeTasks_ok runs s.tasks s'.tasks rest used _ hk hu
    rw [R_map_bind]
    simp only [e, R_bind_ok, R_map_ok]
    cases gather env.sched2 s'.r results used <;> rfl
  · simp only [memBody, intersectBody, hw, hc, if_false]
    cases runs
    · simp only [Bool.false_eq_true, if_false]
      cases AND Ts c c.stop 0 (List.replicate 16 (some 0)) 0 [] <;> rfl
    · simp only [if_true]
      cases runsAND Ts c c.stop 0 (List.replicate 16 (some 0)) (List.replicate 16 true) 0 [] <;> rfl

end CBT
