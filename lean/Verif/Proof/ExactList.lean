import Verif.Proof.ExactSets

/-!
# The result of a run-aware parallel call as a list, from the sets
-/

namespace CBT

open Spec

/-- The trees hold the sets, and have nodes without children exactly for the collapsed blocks. -/
structure Agree (b D : Nat) (cs : List (Bool × List Nat)) (ts : List (Tr D)) : Prop where
  ne : ts ≠ []
  nz : ∀ t ∈ ts, NZ b D t
  any : ∀ j x, b < j → j ≤ D + b → x < 2 ^ (D + b) → anyC b D ts j x = someCollapsed cs j (x / 2 ^ j)
  all : ∀ j x, b < j → j ≤ D + b → x < 2 ^ (D + b) → allC b D ts j x = allCollapsed cs j (x / 2 ^ j)
  met : ∀ j x, j ≤ D + b → x < 2 ^ (D + b) → (Met b D ts j x ↔ meetsAll (cs.map Prod.snd) j (x / 2 ^ j) = true)
  mem : ∀ x, x < 2 ^ (D + b) → allS true b D ts x = cs.all fun c => decide (x ∈ c.2)

theorem exposed_iff {b D : Nat} {cs : List (Bool × List Nat)} {ts : List (Tr D)} (A : Agree b D cs ts) {j x : Nat} (hb : b ≤ j)
    (hx : x < 2 ^ (D + b)) :
    exposed cs (D + b) j (x / 2 ^ j) = true ↔ ∀ i, j < i → i ≤ D + b → anyC b D ts i x = false := by
  simp only [exposed, List.all_eq_true, List.mem_range, Bool.not_eq_true']
  constructor
  · intro h i h1 h2
    have := h (i - j - 1) (by omega)
    rw [Nat.div_div_eq_div_mul, ← Nat.pow_add, show j + 1 + (i - j - 1) = i by omega, show j + (i - j - 1 + 1) = i by omega] at this
    rw [A.any i x (by omega) h2 hx, this]
  · intro h i hi
    rw [Nat.div_div_eq_div_mul, ← Nat.pow_add, show j + (i + 1) = j + 1 + i by omega, ← A.any (j + 1 + i) x (by omega) (by omega) hx]
    exact h _ (by omega) (by omega)

theorem reached_iff {b D : Nat} {cs : List (Bool × List Nat)} {ts : List (Tr D)} (A : Agree b D cs ts) {j x : Nat} (hb : b ≤ j)
    (hj : j ≤ D + b) (hx : x < 2 ^ (D + b)) :
    reached cs (D + b) j (x / 2 ^ j) = true ↔ (∀ i, j < i → i ≤ D + b → anyC b D ts i x = false) ∧ Met b D ts j x := by
  rw [reached, Bool.and_eq_true, exposed_iff A hb hx, A.met j x hj hx]

theorem rp_reported {b d k : Nat} {cs : List (Bool × List Nat)} {ts : List (Tr (d + k))} (A : Agree b (d + k) cs ts) {x : Nat}
    (hx : x < 2 ^ (d + k + b)) : rp b k ts x = reported cs (d + k + b) (d + b) x := by
  rw [Bool.eq_iff_iff, rp_iff k d ts x hx A.ne]
  simp only [reported, List.any_eq_true, List.mem_range, Bool.and_eq_true]
  constructor
  · rintro ⟨j, h1, h2, h3, h4⟩
    refine ⟨j - (d + b) - 1, by omega, ?_⟩
    rw [show d + b + 1 + (j - (d + b) - 1) = j by omega, exposed_iff A (by omega) hx, ← A.all j x (by omega) h2 hx]
    exact ⟨h3, h4⟩
  · rintro ⟨i, hi, h3, h4⟩
    rw [exposed_iff A (by omega) hx] at h4
    rw [← A.all _ x (by omega) (by omega) hx] at h3
    exact ⟨d + b + 1 + i, by omega, by omega, h3, h4⟩

theorem block_div {m q x : Nat} (hx : x < 2 ^ m) : (q * 2 ^ m + x) / 2 ^ m = q := by
  rw [Nat.add_comm, Nat.add_mul_div_right _ _ (Nat.two_pow_pos m), Nat.div_eq_of_lt hx, Nat.zero_add]

theorem block_lt {d k b q x : Nat} (hq : q < 2 ^ k) (hx : x < 2 ^ (d + b)) : q * 2 ^ (d + b) + x < 2 ^ (d + k + b) := by
  rw [show d + k + b = d + b + k by omega]; exact mul_lt_pow hq hx

theorem dn_reached {b d k : Nat} {cs : List (Bool × List Nat)} {ts : List (Tr (d + k))} (A : Agree b (d + k) cs ts) {q : Nat}
    (hq : q < 2 ^ k) : (dn k ts q).isSome = reached cs (d + k + b) (d + b) q := by
  have hlt := block_lt (b := b) (d := d) hq (Nat.two_pow_pos _)
  have := reached_iff A (j := d + b) (x := q * 2 ^ (d + b) + 0) (by omega) (by omega) hlt
  rw [block_div (Nat.two_pow_pos _), Nat.add_zero] at this
  rw [Bool.eq_iff_iff, dn_isSome k d ts q hq A.nz A.ne, this]

theorem filterMap_filter {α β : Type} (f : α → Option β) (g : α → β) : (l : List α) → (∀ a ∈ l, ∀ b, f a = some b → g a = b) →
    l.filterMap f = (l.filter fun a => (f a).isSome).map g
  | [], _ => rfl
  | a :: l, h => by
    have ih := filterMap_filter f g l fun a ha => h a (List.mem_cons_of_mem _ ha)
    cases hf : f a with
    | none => rw [List.filterMap_cons_none hf, List.filter_cons_of_neg (by simp [hf]), ih]
    | some b => rw [List.filterMap_cons_some hf, List.filter_cons_of_pos (by simp [hf]), List.map_cons, ih, h a List.mem_cons_self b hf]

/-- The trees of a task. -/
def tk {d : Nat} (k : Nat) (ts : List (Tr (d + k))) (q : Nat) : List (Tr d) := (dn k ts q).getD []

theorem walk_tasks {b d k p : Nat} {cs : List (Bool × List Nat)} {ts : List (Tr (d + k))} (A : Agree b (d + k) cs ts) :
    walk b k p ts = ((List.range (2 ^ k)).filter (reached cs (d + k + b) (d + b))).map fun q => (p + q * 2 ^ (d + b), tk k ts q) := by
  rw [walk_eq, filterMap_filter _ (fun q => (p + q * 2 ^ (d + b), tk k ts q))]
  · congr 1
    refine List.filter_congr fun q hq => ?_
    rw [Option.isSome_map, dn_reached A (List.mem_range.1 hq)]
  · intro q _ v hv
    obtain ⟨u, hu, rfl⟩ := Option.map_eq_some_iff.1 hv
    simp [tk, hu]

/-- What a task's trees are. -/
theorem tk_spec {b d k : Nat} {cs : List (Bool × List Nat)} {ts : List (Tr (d + k))} (A : Agree b (d + k) cs ts) {q : Nat}
    (hq : q < 2 ^ k) (hr : reached cs (d + k + b) (d + b) q = true) :
    (∀ t ∈ tk k ts q, NZ b d t) ∧ tk k ts q ≠ [] ∧ ∀ x < 2 ^ (d + b),
      allS true b d (tk k ts q) x = allS true b (d + k) ts (q * 2 ^ (d + b) + x) ∧
      ∀ j ≤ d + b, anyC b d (tk k ts q) j x = anyC b (d + k) ts j (q * 2 ^ (d + b) + x) ∧
        allC b d (tk k ts q) j x = allC b (d + k) ts j (q * 2 ^ (d + b) + x) ∧
        (Met b d (tk k ts q) j x ↔ Met b (d + k) ts j (q * 2 ^ (d + b) + x)) := by
  rw [← dn_reached A hq] at hr
  obtain ⟨u, hu⟩ := Option.isSome_iff_exists.1 hr
  have : tk k ts q = u := by simp [tk, hu]
  rw [this]
  exact dn_some k d ts q hq u hu A.nz A.ne

theorem half_idx {m q r : Nat} : (q * 2 ^ (m + 1) + r * 2 ^ m) / 2 ^ m = 2 * q + r := by
  rw [show q * 2 ^ (m + 1) + r * 2 ^ m = (2 * q + r) * 2 ^ m by rw [Nat.pow_succ]; ring]
  exact Nat.mul_div_cancel _ (Nat.two_pow_pos m)

/-- The halves of a task. -/
theorem tk_half {b d k : Nat} {cs : List (Bool × List Nat)} {ts : List (Tr (d + 1 + k))} (A : Agree b (d + 1 + k) cs ts) {q r : Nat}
    (hq : q < 2 ^ k) (hr : reached cs (d + 1 + k + b) (d + 1 + b) q = true) (hr1 : r ≤ 1) :
    (dn 1 (tk k ts q) r).isSome = reached cs (d + 1 + k + b) (d + b) (2 * q + r) := by
  obtain ⟨h1, h2, h3⟩ := tk_spec A hq hr
  have hp := pow_split d b
  have hpos := Nat.two_pow_pos (d + b)
  have hrx : r * 2 ^ (d + b) < 2 ^ (d + 1 + b) := by
    rw [hp]
    have := Nat.mul_le_mul_right (2 ^ (d + b)) hr1
    omega
  have hx := block_lt hq hrx
  have e : (q * 2 ^ (d + 1 + b) + r * 2 ^ (d + b)) / 2 ^ (d + b) = 2 * q + r := by
    rw [show d + 1 + b = d + b + 1 by omega]; exact half_idx
  have hi := reached_iff A (j := d + b) (x := q * 2 ^ (d + 1 + b) + r * 2 ^ (d + b)) (by omega) (by omega) hx
  rw [e] at hi
  have hq' := reached_iff A (j := d + 1 + b) (x := q * 2 ^ (d + 1 + b) + r * 2 ^ (d + b)) (by omega) (by omega) hx
  rw [block_div hrx, hr] at hq'
  rw [Bool.eq_iff_iff, hi, dn_isSome 1 d (tk k ts q) r (by omega) h1 h2]
  obtain ⟨_, h5⟩ := h3 _ hrx
  constructor
  · rintro ⟨g1, g2⟩
    refine ⟨fun i i1 i2 => ?_, (h5 (d + b) (by omega)).2.2.1 g2⟩
    by_cases hi : i = d + 1 + b
    · subst hi
      rw [← (h5 (d + 1 + b) (by omega)).1]
      exact g1 _ (by omega) (by omega)
    · exact (hq'.1 rfl).1 i (by omega) i2
  · rintro ⟨g1, g2⟩
    refine ⟨fun i i1 i2 => ?_, (h5 (d + b) (by omega)).2.2.2 g2⟩
    rw [(h5 i (by omega)).1]
    exact g1 i i1 (by omega)

theorem walk_half {b d k : Nat} {cs : List (Bool × List Nat)} {ts : List (Tr (d + 1 + k))} (A : Agree b (d + 1 + k) cs ts) {q p : Nat}
    (hq : q < 2 ^ k) (hr : reached cs (d + 1 + k + b) (d + 1 + b) q = true) :
    walk b 1 p (tk k ts q) =
      (if reached cs (d + 1 + k + b) (d + b) (2 * q) then [(p, tk 1 (tk k ts q) 0)] else []) ++
      (if reached cs (d + 1 + k + b) (d + b) (2 * q + 1) then [(p + 2 ^ (d + b), tk 1 (tk k ts q) 1)] else []) := by
  have h0 := tk_half A hq hr (r := 0) (by omega)
  have h1 := tk_half A hq hr (r := 1) (by omega)
  rw [show 2 * q + 0 = 2 * q from rfl] at h0
  rw [walk_eq, filterMap_filter _ (fun q' => (p + q' * 2 ^ (d + b), tk 1 (tk k ts q) q')), ← h0, ← h1]
  · rw [show List.range (2 ^ 1) = [0, 1] from rfl]
    simp only [Option.isSome_map, List.filter_cons, List.filter_nil]
    cases (dn 1 (tk k ts q) 0).isSome <;> cases (dn 1 (tk k ts q) 1).isSome <;> simp
  · intro q' _ v hv
    obtain ⟨u, hu, rfl⟩ := Option.map_eq_some_iff.1 hv
    rw [tk, hu]
    rfl

theorem walk_half_length {b d k : Nat} {cs : List (Bool × List Nat)} {ts : List (Tr (d + 1 + k))} (A : Agree b (d + 1 + k) cs ts) {q p : Nat}
    (hq : q < 2 ^ k) (hr : reached cs (d + 1 + k + b) (d + 1 + b) q = true) :
    (walk b 1 p (tk k ts q)).length = halvesReached cs (d + 1 + k + b) (d + b) q := by
  rw [walk_half A hq hr, List.length_append, halvesReached]
  congr 1 <;> split <;> rfl

section
variable {b d k : Nat} {cs : List (Bool × List Nat)} {ts : List (Tr (d + 1 + k))}

theorem walk_blocks (A : Agree b (d + 1 + k) cs ts) : walk b k 0 ts =
    (taskBlocks cs (d + 1 + b) k).map fun q => (q * 2 ^ (d + 1 + b), tk k ts q) := by
  rw [walk_tasks A, taskBlocks, show d + 1 + b + k = d + 1 + k + b by omega]
  simp only [Nat.zero_add]

theorem mem_taskBlocks {q : Nat} (h : q ∈ taskBlocks cs (d + 1 + b) k) :
    q < 2 ^ k ∧ reached cs (d + 1 + k + b) (d + 1 + b) q = true := by
  rw [taskBlocks, List.mem_filter, List.mem_range, show d + 1 + b + k = d + 1 + k + b by omega] at h
  exact h

theorem walk_halves (A : Agree b (d + 1 + k) cs ts) : (walk b k 0 ts).map (fun u => (walk b 1 u.1 u.2).length) =
    (taskBlocks cs (d + 1 + b) k).map (halvesReached cs (d + 1 + b + k) (d + 1 + b - 1)) := by
  rw [walk_blocks A, List.map_map]
  refine List.map_congr_left fun q hq => ?_
  obtain ⟨h1, h2⟩ := mem_taskBlocks hq
  rw [Function.comp, walk_half_length A h1 h2, show d + 1 + b + k = d + 1 + k + b by omega, show d + 1 + b - 1 = d + b by omega]

theorem splitCount_eq (A : Agree b (d + 1 + k) cs ts) : splitCount b ts = splitBlocks cs (d + 1 + b) k := by
  rw [splitCount, splitBlocks, walk_halves A, walk_blocks A, List.length_map]

theorem taskCount_eq (A : Agree b (d + 1 + k) cs ts) : taskCount b ts = threadBlocks cs (d + 1 + b) k := by
  rw [taskCount, threadBlocks, walk_halves A, walk_blocks A, List.length_map]

end

/-- Blocks in increasing order. -/
theorem blocks_filter {J k : Nat} {L : List Nat} (hs : L.Pairwise (· < ·)) (hb : ∀ q ∈ L, q < 2 ^ k) (P : Nat → Nat → Bool) :
    L.flatMap (fun q => enum J (P q) (q * 2 ^ J)) =
      (List.range (2 ^ (J + k))).filter fun x => decide (x / 2 ^ J ∈ L) && P (x / 2 ^ J) (x % 2 ^ J) := by
  have hpos := Nat.two_pow_pos J
  apply sorted_ext
  · rw [List.flatMap, List.pairwise_flatten]
    refine ⟨?_, ?_⟩
    · intro l hl
      obtain ⟨q, _, rfl⟩ := List.mem_map.1 hl
      exact enum_sorted _ _ _
    · rw [List.pairwise_map]
      refine hs.imp fun {a c} hac x hx y hy => ?_
      obtain ⟨v, hv, -, rfl⟩ := mem_enum.1 hx
      obtain ⟨w, hw, -, rfl⟩ := mem_enum.1 hy
      have := Nat.mul_le_mul_right (2 ^ J) (show a + 1 ≤ c from hac)
      rw [Nat.add_mul] at this
      omega
  · exact List.Pairwise.filter _ List.pairwise_lt_range
  · intro x
    simp only [List.mem_flatMap, mem_enum, List.mem_filter, List.mem_range, Bool.and_eq_true, decide_eq_true_eq]
    constructor
    · rintro ⟨q, hq, y, hy, hP, rfl⟩
      rw [block_div hy, Nat.add_comm (q * 2 ^ J), Nat.add_mul_mod_self_right, Nat.mod_eq_of_lt hy, Nat.add_comm y]
      exact ⟨mul_lt_pow (hb q hq) hy, hq, hP⟩
    · rintro ⟨_, hq, hP⟩
      exact ⟨x / 2 ^ J, hq, x % 2 ^ J, Nat.mod_lt _ hpos, hP, by rw [Nat.mul_comm]; exact (Nat.div_add_mod x (2 ^ J)).symm⟩

/-- The result. -/
theorem exactOut_eq {b d k : Nat} {cs : List (Bool × List Nat)} {ts : List (Tr (d + 1 + k))} (A : Agree b (d + 1 + k) cs ts) :
    exactOut b ts = runsResult cs (d + 1 + b) k := by
  have hJ : d + 1 + b + k = d + 1 + k + b := by omega
  have hp := pow_split d b
  have hsort : (taskBlocks cs (d + 1 + b) k).Pairwise (· < ·) := List.Pairwise.filter _ List.pairwise_lt_range
  have hmem : ∀ q ∈ taskBlocks cs (d + 1 + b) k, q < 2 ^ k := fun q hq => (mem_taskBlocks hq).1
  have hdiv : ∀ x < 2 ^ (d + 1 + b + k), x / 2 ^ (d + 1 + b) < 2 ^ k := fun x hx => by
    rw [Nat.div_lt_iff_lt_mul (Nat.two_pow_pos _), ← Nat.pow_add, Nat.add_comm k]; exact hx
  have hsp : ∀ x : Nat, x / 2 ^ (d + 1 + b) * 2 ^ (d + 1 + b) + x % 2 ^ (d + 1 + b) = x := fun x => by
    rw [Nat.mul_comm]; exact Nat.div_add_mod x _
  rw [exactOut, runsResult, splitCount_eq A, walk_blocks A]
  -- the blocks reported in the first levels
  have s1 : enum (d + 1 + k + b) (rp b k ts) 0 =
      (List.range (2 ^ (d + 1 + b + k))).filter (reported cs (d + 1 + b + k) (d + 1 + b)) := by
    rw [hJ, enum_congr fun x hx => rp_reported A hx]
    simp [enum]
  -- the blocks reported when tasks are replaced by their halves
  have s2 : ((((taskBlocks cs (d + 1 + b) k).map fun q => (q * 2 ^ (d + 1 + b), tk k ts q)).take (splitBlocks cs (d + 1 + b) k)).flatMap
      fun u => enum (d + 1 + b) (rp b 1 u.2) u.1) =
      (List.range (2 ^ (d + 1 + b + k))).filter
        (fun x => isSplit cs (d + 1 + b) k (x / 2 ^ (d + 1 + b)) && allCollapsed cs (d + 1 + b) (x / 2 ^ (d + 1 + b))) := by
    rw [← List.map_take, List.flatMap_map]
    simp only
    have : ((taskBlocks cs (d + 1 + b) k).take (splitBlocks cs (d + 1 + b) k)).flatMap
        (fun q => enum (d + 1 + b) (rp b 1 (tk k ts q)) (q * 2 ^ (d + 1 + b))) =
        ((taskBlocks cs (d + 1 + b) k).take (splitBlocks cs (d + 1 + b) k)).flatMap
        (fun q => enum (d + 1 + b) ((fun q _ => allCollapsed cs (d + 1 + b) q) q) (q * 2 ^ (d + 1 + b))) := by
      refine List.flatMap_congr fun q hq => enum_congr fun x hx => ?_
      obtain ⟨h1, h2⟩ := mem_taskBlocks (List.mem_of_mem_take hq)
      obtain ⟨_, g2, g3⟩ := tk_spec A h1 h2
      obtain ⟨_, g5⟩ := g3 x hx
      have hlt := block_lt h1 hx
      have e : allC b (d + 1) (tk k ts q) (d + 1 + b) x = allCollapsed cs (d + 1 + b) q := by
        rw [(g5 (d + 1 + b) (by omega)).2.1, A.all _ _ (by omega) (by omega) hlt, block_div hx]
      rw [Bool.eq_iff_iff, rp_iff 1 d (tk k ts q) x hx g2]
      simp only
      rw [← e]
      constructor
      · rintro ⟨j, j1, j2, j3, _⟩
        obtain rfl : j = d + 1 + b := by omega
        exact j3
      · exact fun h => ⟨d + 1 + b, by omega, by omega, h, fun i i1 i2 => by omega⟩
    rw [this, blocks_filter (hsort.sublist (List.take_sublist _ _)) (fun q hq => hmem q (List.mem_of_mem_take hq))]
    rfl
  -- the tasks
  have s3 : ((((taskBlocks cs (d + 1 + b) k).map fun q => (q * 2 ^ (d + 1 + b), tk k ts q)).take (splitBlocks cs (d + 1 + b) k)).flatMap
      fun u => walk b 1 u.1 u.2).flatMap (taskOut b) ++
      (((taskBlocks cs (d + 1 + b) k).map fun q => (q * 2 ^ (d + 1 + b), tk k ts q)).drop (splitBlocks cs (d + 1 + b) k)).flatMap (taskOut b) =
      (List.range (2 ^ (d + 1 + b + k))).filter (fun x => (cs.all fun c => decide (x ∈ c.2)) &&
        if isSplit cs (d + 1 + b) k (x / 2 ^ (d + 1 + b)) then reached cs (d + 1 + b + k) (d + 1 + b - 1) (x / 2 ^ (d + 1 + b - 1))
        else reached cs (d + 1 + b + k) (d + 1 + b) (x / 2 ^ (d + 1 + b))) := by
    rw [← List.map_take, ← List.map_drop, List.flatMap_assoc, List.flatMap_map, List.flatMap_map]
    simp only
    let P : Nat → Nat → Bool := fun q x => (cs.all fun c => decide (q * 2 ^ (d + 1 + b) + x ∈ c.2)) &&
      if isSplit cs (d + 1 + b) k q then reached cs (d + 1 + k + b) (d + b) ((q * 2 ^ (d + 1 + b) + x) / 2 ^ (d + b)) else true
    have e1 : ((taskBlocks cs (d + 1 + b) k).take (splitBlocks cs (d + 1 + b) k)).flatMap
        (fun q => (walk b 1 (q * 2 ^ (d + 1 + b)) (tk k ts q)).flatMap (taskOut b)) =
        ((taskBlocks cs (d + 1 + b) k).take (splitBlocks cs (d + 1 + b) k)).flatMap
        (fun q => enum (d + 1 + b) (P q) (q * 2 ^ (d + 1 + b))) := by
      refine List.flatMap_congr fun q hq => ?_
      obtain ⟨h1, h2⟩ := mem_taskBlocks (List.mem_of_mem_take hq)
      have hsplit : isSplit cs (d + 1 + b) k q = true := by simpa [isSplit] using hq
      obtain ⟨g1, g2, g3⟩ := tk_spec A h1 h2
      rw [walk_half A h1 h2, List.flatMap_append, show d + 1 + b = d + b + 1 by omega, enum_succ, ← show d + 1 + b = d + b + 1 by omega]
      have half : ∀ r ≤ 1, reached cs (d + 1 + k + b) (d + b) (2 * q + r) = true → ∀ x < 2 ^ (d + b),
          allS true b d (tk 1 (tk k ts q) r) x = cs.all fun c => decide (q * 2 ^ (d + 1 + b) + (r * 2 ^ (d + b) + x) ∈ c.2) := by
        intro r hr hre x hx
        rw [← tk_half A h1 h2 hr] at hre
        obtain ⟨u, hu⟩ := Option.isSome_iff_exists.1 hre
        have e : tk 1 (tk k ts q) r = u := by rw [tk, hu]; rfl
        have hlt : r * 2 ^ (d + b) + x < 2 ^ (d + 1 + b) := by
          rw [hp]
          have := Nat.mul_le_mul_right (2 ^ (d + b)) hr
          omega
        rw [e, ((dn_some 1 d (tk k ts q) r (by omega) u hu g1 g2).2.2 x hx).1]
        refine (g3 _ hlt).1.trans ?_
        rw [A.mem _ (block_lt h1 hlt)]
      have hidx : ∀ r ≤ 1, ∀ x < 2 ^ (d + b), (q * 2 ^ (d + 1 + b) + (r * 2 ^ (d + b) + x)) / 2 ^ (d + b) = 2 * q + r := by
        intro r hr x hx
        rw [show q * 2 ^ (d + 1 + b) + (r * 2 ^ (d + b) + x) = (2 * q + r) * 2 ^ (d + b) + x by
          rw [show d + 1 + b = d + b + 1 by omega, Nat.pow_succ]; ring]
        exact block_div hx
      congr 1
      · have e : enum (d + b) (P q) (q * 2 ^ (d + 1 + b)) = enum (d + b) (fun x => reached cs (d + 1 + k + b) (d + b) (2 * q) &&
            (cs.all fun c => decide (q * 2 ^ (d + 1 + b) + x ∈ c.2))) (q * 2 ^ (d + 1 + b)) := by
          refine enum_congr fun x hx => ?_
          have := hidx 0 (by omega) x hx
          rw [Nat.zero_mul, Nat.zero_add, show 2 * q + 0 = 2 * q from rfl] at this
          simp only [P, hsplit, if_true, this, Bool.and_comm]
        rw [e, enum_and]
        split
        · rename_i hre
          rw [List.flatMap_singleton, taskOut]
          refine enum_congr fun x hx => ?_
          have := half 0 (by omega) hre x hx
          rwa [Nat.zero_mul, Nat.zero_add] at this
        · rfl
      · have e : enum (d + b) (fun x => P q (2 ^ (d + b) + x)) (q * 2 ^ (d + 1 + b) + 2 ^ (d + b)) =
            enum (d + b) (fun x => reached cs (d + 1 + k + b) (d + b) (2 * q + 1) &&
            (cs.all fun c => decide (q * 2 ^ (d + 1 + b) + (2 ^ (d + b) + x) ∈ c.2))) (q * 2 ^ (d + 1 + b) + 2 ^ (d + b)) := by
          refine enum_congr fun x hx => ?_
          have := hidx 1 (by omega) x hx
          rw [Nat.one_mul] at this
          simp only [P, hsplit, if_true, this, Bool.and_comm]
        rw [e, enum_and]
        split
        · rename_i hre
          rw [List.flatMap_singleton, taskOut]
          refine enum_congr fun x hx => ?_
          have := half 1 (by omega) hre x hx
          rwa [Nat.one_mul] at this
        · rfl
    have e2 : ((taskBlocks cs (d + 1 + b) k).drop (splitBlocks cs (d + 1 + b) k)).flatMap
        (fun q => taskOut b (q * 2 ^ (d + 1 + b), tk k ts q)) =
        ((taskBlocks cs (d + 1 + b) k).drop (splitBlocks cs (d + 1 + b) k)).flatMap
        (fun q => enum (d + 1 + b) (P q) (q * 2 ^ (d + 1 + b))) := by
      refine List.flatMap_congr fun q hq => ?_
      obtain ⟨h1, h2⟩ := mem_taskBlocks (List.mem_of_mem_drop hq)
      have hsplit : isSplit cs (d + 1 + b) k q = false := by
        have hnd : ((taskBlocks cs (d + 1 + b) k).take (splitBlocks cs (d + 1 + b) k) ++
            (taskBlocks cs (d + 1 + b) k).drop (splitBlocks cs (d + 1 + b) k)).Nodup := by
          rw [List.take_append_drop]
          exact hsort.imp fun h => Nat.ne_of_lt h
        rw [List.nodup_append] at hnd
        rw [isSplit, decide_eq_false_iff_not]
        exact fun h => hnd.2.2 q h q hq rfl
      rw [taskOut]
      refine enum_congr fun x hx => ?_
      simp only [P, hsplit, Bool.false_eq_true, if_false, Bool.and_true]
      rw [((tk_spec A h1 h2).2.2 x hx).1, A.mem _ (block_lt h1 hx)]
    rw [e1, e2, ← List.flatMap_append, List.take_append_drop, blocks_filter hsort hmem]
    refine List.filter_congr fun x hx => ?_
    have hx := List.mem_range.1 hx
    simp only [P, hsp, show d + 1 + b - 1 = d + b by omega, hJ]
    have hm : decide (x / 2 ^ (d + 1 + b) ∈ taskBlocks cs (d + 1 + b) k) = reached cs (d + 1 + k + b) (d + 1 + b) (x / 2 ^ (d + 1 + b)) := by
      rw [taskBlocks, hJ, Bool.eq_iff_iff, decide_eq_true_eq, List.mem_filter, List.mem_range]
      exact ⟨fun h => h.2, fun h => ⟨hdiv x hx, h⟩⟩
    rw [hm]
    by_cases hs : isSplit cs (d + 1 + b) k (x / 2 ^ (d + 1 + b)) = true
    · have : reached cs (d + 1 + k + b) (d + 1 + b) (x / 2 ^ (d + 1 + b)) = true :=
        (mem_taskBlocks (List.mem_of_mem_take (by simpa [isSplit] using hs))).2
      rw [hs, this, Bool.true_and]
    · rw [eq_false_of_ne_true hs]
      simp only [Bool.false_eq_true, if_false, Bool.and_true]
      exact Bool.and_comm _ _
  rw [s1, s2, s3]

/-! ## From sets and trees -/

/-- A tree that holds the set: without collapsed blocks, or with all full blocks above the last level collapsed. -/
def CTree (b D : Nat) (c : Bool × List Nat) (t : Tr D) : Prop :=
  (∀ x ∈ c.2, x < 2 ^ (D + b)) ∧ ∃ T, NE b D T ∧ Holds (D + b) (has b D T) c.2 ∧ t = if c.1 then prune b D T else T

section
variable {b D : Nat} {c : Bool × List Nat} {t : Tr D}

theorem CTree.nz (h : CTree b D c t) : NZ b D t := by
  obtain ⟨-, T, h1, -, rfl⟩ := h
  split
  · exact h1.prune_nz
  · exact h1.nz

theorem CTree.holds (h : CTree b D c t) : Holds (D + b) (hasR b D t) c.2 := by
  obtain ⟨-, T, h1, h2, rfl⟩ := h
  split
  · exact h2.prune h1
  · exact fun x hx => by rw [h1.hasR_eq]; exact h2 x hx

theorem CTree.cov (h : CTree b D c t) {j x : Nat} (hb : b < j) (hj : j ≤ D + b) (hx : x < 2 ^ (D + b)) :
    CBT.cov b D t j x = Spec.collapsed c j (x / 2 ^ j) := by
  obtain ⟨-, T, h1, h2, rfl⟩ := h
  cases hc : c.1 with
  | false => simp [Spec.collapsed, hc, cov_plain D T h1]
  | true =>
    have hpos := Nat.two_pow_pos j
    rw [if_pos rfl, Bool.eq_iff_iff, cov_prune D T h1 j x hb hj hx]
    simp only [Spec.collapsed, hc, Bool.true_and, List.all_eq_true, List.mem_range, decide_eq_true_eq]
    have key : ∀ y, y / 2 ^ j = x / 2 ^ j → (has b D T y = true ↔ y ∈ c.2) := fun y hy => by
      rw [h2 y (sameBlock_lt hy hj hx), decide_eq_true_eq]
    constructor
    · intro h i hi
      exact (key _ (block_div hi)).1 (h _ (block_div hi))
    · intro h y hy
      have := h (y % 2 ^ j) (Nat.mod_lt _ hpos)
      rw [← hy, Nat.mul_comm, Nat.div_add_mod] at this
      exact (key y hy).2 this

theorem CTree.met (h : CTree b D c t) {j x : Nat} :
    (∃ y < 2 ^ (D + b), y / 2 ^ j = x / 2 ^ j ∧ hasR b D t y = true) ↔ (c.2.any fun y => decide (y / 2 ^ j = x / 2 ^ j)) = true := by
  have hh := h.holds
  simp only [List.any_eq_true, decide_eq_true_eq]
  constructor
  · rintro ⟨y, h1, h2, h3⟩
    rw [hh y h1, decide_eq_true_eq] at h3
    exact ⟨y, h3, h2⟩
  · rintro ⟨y, h1, h2⟩
    exact ⟨y, h.1 y h1, h2, by rw [hh y (h.1 y h1), decide_eq_true_eq]; exact h1⟩

end

theorem agree_of {b D : Nat} {cs : List (Bool × List Nat)} {ts : List (Tr D)} (h : List.Forall₂ (CTree b D) cs ts) (hne : cs ≠ []) :
    Agree b D cs ts := by
  refine ⟨?_, ?_, ?_, ?_, ?_, ?_⟩
  · rintro rfl
    cases h
    exact hne rfl
  · clear hne
    induction h with
    | nil => simp
    | cons h1 _ ih =>
      intro t ht
      rcases List.mem_cons.1 ht with rfl | ht
      · exact h1.nz
      · exact ih t ht
  · intro j x hb hj hx
    clear hne
    rw [anyC, someCollapsed]
    induction h with
    | nil => rfl
    | cons h1 _ ih => rw [List.any_cons, List.any_cons, ih, h1.cov hb hj hx]
  · intro j x hb hj hx
    clear hne
    rw [allC, allCollapsed]
    induction h with
    | nil => rfl
    | cons h1 _ ih => rw [List.all_cons, List.all_cons, ih, h1.cov hb hj hx]
  · intro j x _ _
    clear hne
    rw [Met, meetsAll]
    induction h with
    | nil => simp
    | cons h1 _ ih => rw [List.map_cons, List.all_cons, Bool.and_eq_true, ← ih, List.forall_mem_cons, h1.met]
  · intro x hx
    clear hne
    induction h with
    | nil => rfl
    | cons h1 _ ih => rw [List.all_cons, ← ih, allS, List.all_cons, show hasS true b D _ x = hasR b D _ x from rfl, h1.holds x hx]; rfl

end CBT
