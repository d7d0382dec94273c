import Verif.Proof.Work
import Verif.Proof.ExactList

/-!
# How many threads a call on well-formed tries starts
-/

namespace CBT

open Spec

theorem workBody_used {Ts : List Nav} {c : CfgC} {height : Nat} {runs : Bool} {env : Env} (hw : env.hw ≠ 0)
    (hc : Nat.log2 env.hw ≤ (height + 2 ^ 64 - 2) % 2 ^ 64) {s s' : PSt} {rest : List Task} {used : Nat}
    (h1 : partialAND Ts c.cfg runs (Nat.log2 env.hw) 0 (List.replicate 16 (some 0)) (List.replicate 16 true) 0 ⟨[], []⟩ = .ok s)
    (h2 : fillThreads Ts c.cfg runs (Nat.log2 env.hw) (2 ^ Nat.log2 env.hw) (s.tasks.length % 2 ^ 16) (s.tasks.take (s.tasks.length % 2 ^ 16)) 0
        (s.tasks.length % 2 ^ 16) ⟨s.r, []⟩ = .ok (rest, used, s'))
    (h0 : s.tasks.length = 0 → used = 0) (hz : (s'.tasks ++ rest).length = 0 → used = 0)
    {L : List Nat} {W : Work} (h : workBody Ts c height runs true env = .ok (L, W)) : W.threads.length = used := by
  rw [workBody_section _ _ _ _ _ hw hc] at h
  obtain ⟨⟨t, k⟩, g1, h⟩ := bind_ok h
  have := partialC_plain g1
  rw [h1] at this
  cases this
  dsimp only at h
  split at h
  · cases h
    exact (h0 ‹_›).symm
  obtain ⟨⟨⟨rest', used', t'⟩, k'⟩, g2, h⟩ := bind_ok h
  have := fillC_plain g2
  rw [h2] at this
  cases this
  dsimp only at h
  split at h
  · cases h
    exact (hz ‹_›).symm
  split at h
  · cases h
  obtain ⟨outs, g3, h⟩ := bind_ok h
  cases h
  have := mapM_length _ _ g3
  rw [List.length_range] at this
  rw [List.length_map, this]

section
variable {α : Type} (nav : α → Nav) (leaf : α → Nat → Nat → Nat → Prop)

theorem workBody_plain {runs : Bool} {as : List α} {c : CfgC} {b d height : Nat} {env : Env} {ts : List (Tr (d + 1 + Nat.log2 env.hw))}
    (hne : as ≠ [])
    (hts : List.Forall₂ (fun a t => Rep (nav a) (leaf a) (d + 1 + Nat.log2 env.hw) 0 t 0) as ts) (hlen : as.length ≤ 16)
    (hnts : ∀ t ∈ ts, NE b (d + 1 + Nat.log2 env.hw) t)
    (htop : c.cfg.top = d + 1 + Nat.log2 env.hw + b) (h64 : c.cfg.top < 64) (hw : env.hw ≠ 0) (hw' : env.hw < 2 ^ 16)
    (hh : Nat.log2 env.hw ≤ (height + 2 ^ 64 - 2) % 2 ^ 64) {L : List Nat} {W : Work}
    (h : workBody (as.map nav) c height runs true env = .ok (L, W)) :
    W.threads.length =
      threadCount (2 ^ Nat.log2 env.hw) (sub (Nat.log2 env.hw) ts).length ((sub (Nat.log2 env.hw) ts).map fun u => (sub 1 u).length) := by
  have hthr : 2 ^ Nat.log2 env.hw ≤ env.hw := Nat.log2_self_le hw
  obtain ⟨tasks, e1, h1⟩ := partialAND_sub nav leaf (runs := runs) (as := as) (c := c.cfg) (b := b) h64 hne (Nat.log2 env.hw) (d + 1) 0
    ts _ (List.replicate 16 true) 0 ⟨[], []⟩ (Reps.root nav leaf 16 hlen hts) (fun _ => ⟨by simpa using hlen, by simp⟩) (by omega) hnts
  rw [Nat.zero_add] at h1
  rw [List.nil_append] at e1
  have hle := sub_length_le (Nat.log2 env.hw) ts
  have hl := h1.length_eq
  have hmod : tasks.length % 2 ^ 16 = tasks.length := Nat.mod_eq_of_lt (by omega)
  obtain ⟨new, rest, e2, -, k2⟩ := fillThreads_sub nav leaf (n := 2 ^ Nat.log2 env.hw) (total := tasks.length) h64 hne (by omega) (by omega) tasks _ 0
    tasks.length ⟨[], []⟩ h1 (by simp) (by omega) (by simp)
  simp only [List.nil_append] at e2 k2
  rw [hl] at k2
  have e2' : fillThreads (as.map nav) c.cfg runs (Nat.log2 env.hw) (2 ^ Nat.log2 env.hw) (tasks.length % 2 ^ 16) (tasks.take (tasks.length % 2 ^ 16)) 0
      (tasks.length % 2 ^ 16) ⟨[], []⟩ = .ok (rest, new.length + rest.length, ⟨[], new⟩) := by
    rw [hmod, List.take_length]; exact e2
  rw [← k2]
  refine workBody_used hw hh e1 e2' ?_ ?_ h
  · intro h0
    rw [← hl, h0, List.length_eq_zero_iff.1 (hl.symm.trans h0)] at k2
    simpa [threadCount] using k2
  · intro hz
    rwa [List.length_append] at hz

theorem workBody_coded {as : List α} {c : CfgC} {b d height : Nat} {env : Env} {ts : List (Tr (d + 1 + Nat.log2 env.hw))}
    (hne : as ≠ [])
    (hts : List.Forall₂ (fun a t => Rep (nav a) (leaf a) (d + 1 + Nat.log2 env.hw) 0 t 0) as ts) (hlen : as.length ≤ 16)
    (htop : c.cfg.top = d + 1 + Nat.log2 env.hw + b) (h64 : c.cfg.top < 64) (hw : env.hw ≠ 0) (hw' : env.hw < 2 ^ 16)
    (hh : Nat.log2 env.hw ≤ (height + 2 ^ 64 - 2) % 2 ^ 64) {L : List Nat} {W : Work}
    (h : workBody (as.map nav) c height true true env = .ok (L, W)) : W.threads.length = taskCount b ts := by
  have hthr : 2 ^ Nat.log2 env.hw ≤ env.hw := Nat.log2_self_le hw
  obtain ⟨tasks, e1, h1⟩ := partialAND_exact nav leaf (as := as) (c := c.cfg) (b := b) h64 hne (Nat.log2 env.hw) (d + 1) 0
    ts _ (List.replicate 16 true) 0 ⟨[], []⟩ (Reps.root nav leaf 16 hlen hts) (fun _ => ⟨by simpa using hlen, by simp⟩) (by omega) (dvd_zero _)
  rw [Nat.zero_add] at h1
  simp only [List.nil_append] at e1
  have hle := walk_length_le b (Nat.log2 env.hw) 0 ts
  have hl := h1.length_eq
  have hmod : tasks.length % 2 ^ 16 = tasks.length := Nat.mod_eq_of_lt (by omega)
  obtain ⟨new, e2, -, k2, -⟩ := fillThreads_exact nav leaf (n := 2 ^ Nat.log2 env.hw) (total := tasks.length) h64 hne (by omega) (by omega) tasks _ 0
    tasks.length ⟨enum (d + 1 + Nat.log2 env.hw + b) (rp b (Nat.log2 env.hw) ts) 0, []⟩ h1 (by simp) (by omega) (by simp)
  simp only [List.nil_append] at e2 k2
  have ht : taskCount b ts = threadCount (2 ^ Nat.log2 env.hw) tasks.length
      ((walk b (Nat.log2 env.hw) 0 ts).map fun u => (walk b 1 u.1 u.2).length) := by rw [taskCount, hl]
  rw [ht]
  refine workBody_used (s := ⟨_, tasks⟩) hw hh e1 (by simpa only [hmod, List.take_length] using e2) ?_ ?_ h
  · intro h0
    dsimp only at h0
    rw [h0, List.length_eq_zero_iff.1 (hl.symm.trans h0)]
    rfl
  · intro hz
    rw [k2]
    rwa [List.length_append] at hz

end

/-! ## Idle threads -/

namespace Spec

theorem threadCount_busy (n : Nat) : (used : Nat) → (cs : List Nat) → cs.length ≤ used →
    n ≤ threadCount n used cs + 1 ∨ threadCount n used cs + cs.length = used + cs.sum
  | used, [], _ => by right; simp [threadCount]
  | used, c :: cs, h => by
    rw [threadCount]
    rw [List.length_cons] at h
    split
    · rcases threadCount_busy n (used + c - 1) cs (by omega) with h1 | h1
      · exact .inl h1
      · right
        rw [List.length_cons, List.sum_cons]
        omega
    · left
      omega

theorem sum_halves (P : Nat → Bool) : (m : Nat) →
    ((List.range m).map fun k => (if P (2 * k) then 1 else 0) + (if P (2 * k + 1) then 1 else 0)).sum = ((List.range (2 * m)).filter P).length
  | 0 => rfl
  | m + 1 => by
    rw [List.range_succ, List.map_append, List.sum_append, sum_halves P m, show 2 * (m + 1) = 2 * m + 1 + 1 by omega, List.range_succ,
      List.range_succ, List.filter_append, List.filter_append]
    cases h1 : P (2 * m) <;> cases h2 : P (2 * m + 1) <;> simp [h1, h2]

theorem sum_where (P : Nat → Bool) (f : Nat → Nat) : (l : List Nat) → (∀ k ∈ l, P k = false → f k = 0) →
    ((l.filter P).map f).sum = (l.map f).sum
  | [], _ => rfl
  | k :: l, h => by
    have ih := sum_where P f l fun j hj => h j (List.mem_cons_of_mem _ hj)
    cases hk : P k with
    | true => rw [List.filter_cons_of_pos hk, List.map_cons, List.map_cons, List.sum_cons, List.sum_cons, ih]
    | false => rw [List.filter_cons_of_neg (by simp [hk]), List.map_cons, List.sum_cons, ih, h k List.mem_cons_self hk, Nat.zero_add]

theorem half_div (x j k : Nat) (h : x / 2 ^ j = 2 * k ∨ x / 2 ^ j = 2 * k + 1) : x / 2 ^ (j + 1) = k := by
  rw [Nat.pow_succ, ← Nat.div_div_eq_div_mul]
  rcases h with h | h <;> rw [h] <;> omega

theorem meetsAll_up {sets : List (List Nat)} {j k q : Nat} (hq : q = 2 * k ∨ q = 2 * k + 1) (h : meetsAll sets j q = true) :
    meetsAll sets (j + 1) k = true := by
  simp only [meetsAll, List.all_eq_true, List.any_eq_true, decide_eq_true_eq] at h ⊢
  intro S hS
  obtain ⟨x, hx, e⟩ := h S hS
  exact ⟨x, hx, half_div x j k (by rcases hq with rfl | rfl <;> simp [e])⟩

/-- The common halves of the common blocks are the common blocks of the next level. -/
theorem commonHalves_sum (sets : List (List Nat)) (j m : Nat) :
    ((commonBlocks sets (j + 1) m).map (commonHalves sets j)).sum = (commonBlocks sets j (m + 1)).length := by
  rw [commonBlocks, sum_where, commonBlocks, Nat.pow_succ, Nat.mul_comm]
  · exact sum_halves (meetsAll sets j) (2 ^ m)
  · intro k _ hk
    rw [commonHalves, if_neg, if_neg]
    · intro h; rw [meetsAll_up (.inr rfl) h] at hk; cases hk
    · intro h; rw [meetsAll_up (.inl rfl) h] at hk; cases hk

theorem reached_half {cs : List (Bool × List Nat)} {t j k q : Nat} (hj : j + 1 ≤ t) (hq : q = 2 * k ∨ q = 2 * k + 1)
    (h : reached cs t j q = true) : reached cs t (j + 1) k = true := by
  rw [reached, Bool.and_eq_true] at h ⊢
  refine ⟨?_, meetsAll_up hq h.2⟩
  have h := h.1
  simp only [exposed, List.all_eq_true, List.mem_range] at h ⊢
  intro i hi
  have := h (i + 1) (by omega)
  have e : q / 2 ^ (i + 1 + 1) = k / 2 ^ (i + 1) := by
    rw [Nat.pow_succ', ← Nat.div_div_eq_div_mul]
    congr 1
    omega
  rw [e] at this
  rw [show j + 1 + 1 + i = j + 1 + (i + 1) by omega]
  exact this

theorem halvesReached_sum (cs : List (Bool × List Nat)) (j m : Nat) :
    ((taskBlocks cs (j + 1) m).map (halvesReached cs (j + 1 + m) j)).sum = (taskBlocks cs j (m + 1)).length := by
  rw [taskBlocks, sum_where, taskBlocks, Nat.pow_succ, Nat.mul_comm, show j + (m + 1) = j + 1 + m by omega]
  · exact sum_halves (reached cs (j + 1 + m) j) (2 ^ m)
  · intro k _ hk
    rw [halvesReached, if_neg, if_neg]
    · intro h; rw [reached_half (by omega) (.inr rfl) h] at hk; cases hk
    · intro h; rw [reached_half (by omega) (.inl rfl) h] at hk; cases hk

end Spec

end CBT
