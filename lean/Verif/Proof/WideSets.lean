import Verif.SpecWide
import Verif.Proof.WideThreads

/-!
# What a parallel call returns on any number of hardware threads, from the sets
-/

namespace CBT

open Spec

section
variable {b d k : Nat} {cs : List (Bool × List Nat)} {ts : List (Tr (d + 1 + k))}

theorem keptW_eq (A : Agree b (d + 1 + k) cs ts) : keptW b ts =
    (keptBlocks cs (d + 1 + b) k).map fun q => (q * 2 ^ (d + 1 + b), tk k ts q) := by
  rw [keptW, walk_blocks A, List.length_map, ← List.map_take, keptBlocks]

theorem mem_kept {q : Nat} (h : q ∈ keptBlocks cs (d + 1 + b) k) : q ∈ taskBlocks cs (d + 1 + b) k := List.mem_of_mem_take h

theorem kept_sorted : (keptBlocks cs (d + 1 + b) k).Pairwise (· < ·) :=
  (List.Pairwise.filter _ List.pairwise_lt_range).sublist (List.take_sublist _ _)

theorem splitW_eq (A : Agree b (d + 1 + k) cs ts) : splitW b k (keptW b ts) = keptSplit cs (d + 1 + b) k := by
  rw [splitW, keptSplit, keptW_eq A, List.length_map, List.map_map]
  congr 1
  refine List.map_congr_left fun q hq => ?_
  obtain ⟨h1, h2⟩ := mem_taskBlocks (mem_kept hq)
  rw [Function.comp, walk_half_length A h1 h2, show d + 1 + b + k = d + 1 + k + b by omega, show d + 1 + b - 1 = d + b by omega]

/-- The halves of tasks. -/
theorem halfW_eq (A : Agree b (d + 1 + k) cs ts) {L : List Nat} (hL : ∀ q ∈ L, q ∈ taskBlocks cs (d + 1 + b) k) :
    halfW b (L.map fun q => (q * 2 ^ (d + 1 + b), tk k ts q)) =
      (halfBlocks cs (d + 1 + k + b) (d + b) L).map fun r => (r * 2 ^ (d + b), tk 1 (tk k ts (r / 2)) (r % 2)) := by
  rw [halfW, List.flatMap_map, halfBlocks, List.map_flatMap]
  refine List.flatMap_congr fun q hq => ?_
  obtain ⟨h1, h2⟩ := mem_taskBlocks (hL q hq)
  simp only
  rw [walk_half A h1 h2]
  have e0 : q * 2 ^ (d + 1 + b) = 2 * q * 2 ^ (d + b) := by rw [pow_split]; ring
  have e1 : q * 2 ^ (d + 1 + b) + 2 ^ (d + b) = (2 * q + 1) * 2 ^ (d + b) := by rw [pow_split]; ring
  have m0 : 2 * q / 2 = q := by omega
  have m1 : (2 * q + 1) / 2 = q := by omega
  have n0 : 2 * q % 2 = 0 := by omega
  have n1 : (2 * q + 1) % 2 = 1 := by omega
  rw [e1, e0, List.filter_cons, List.filter_cons, List.filter_nil]
  cases reached cs (d + 1 + k + b) (d + b) (2 * q) <;> cases reached cs (d + 1 + k + b) (d + b) (2 * q + 1) <;>
    simp [m0, m1, n0, n1]

theorem half_mem {L : List Nat} {r : Nat} (h : r ∈ halfBlocks cs (d + 1 + k + b) (d + b) L) :
    r / 2 ∈ L ∧ reached cs (d + 1 + k + b) (d + b) r = true := by
  rw [halfBlocks, List.mem_flatMap] at h
  obtain ⟨q, hq, hr⟩ := h
  rw [List.mem_filter] at hr
  simp only [List.mem_cons, List.not_mem_nil, or_false] at hr
  obtain ⟨rfl | rfl, h2⟩ := hr
  · rw [show 2 * q / 2 = q by omega]; exact ⟨hq, h2⟩
  · rw [show (2 * q + 1) / 2 = q by omega]; exact ⟨hq, h2⟩

theorem half_sorted {t j : Nat} {L : List Nat} (hs : L.Pairwise (· < ·)) : (halfBlocks cs t j L).Pairwise (· < ·) := by
  rw [halfBlocks, List.flatMap, List.pairwise_flatten]
  constructor
  · intro l hl
    obtain ⟨q, _, rfl⟩ := List.mem_map.1 hl
    exact List.Pairwise.filter _ (by simp)
  · rw [List.pairwise_map]
    refine hs.imp fun {a c} hac x hx y hy => ?_
    have hx := (List.mem_filter.1 hx).1
    have hy := (List.mem_filter.1 hy).1
    simp only [List.mem_cons, List.not_mem_nil, or_false] at hx hy
    omega

/-- What tasks find. -/
theorem tasks_find (A : Agree b (d + 1 + k) cs ts) {L : List Nat} (hs : L.Pairwise (· < ·)) (hL : ∀ q ∈ L, q ∈ taskBlocks cs (d + 1 + b) k) :
    (L.map fun q => (q * 2 ^ (d + 1 + b), tk k ts q)).flatMap (outW true b) = commonIn cs (d + 1 + b + k) (d + 1 + b) L := by
  rw [List.flatMap_map, commonIn]
  have e : L.flatMap (fun q => outW true b (q * 2 ^ (d + 1 + b), tk k ts q)) =
      L.flatMap (fun q => enum (d + 1 + b) ((fun q x => cs.all fun c => decide (q * 2 ^ (d + 1 + b) + x ∈ c.2)) q) (q * 2 ^ (d + 1 + b))) := by
    refine List.flatMap_congr fun q hq => ?_
    obtain ⟨h1, h2⟩ := mem_taskBlocks (hL q hq)
    rw [outW]
    refine enum_congr fun x hx => ?_
    simp only
    rw [((tk_spec A h1 h2).2.2 x hx).1, A.mem _ (block_lt h1 hx)]
  rw [e, blocks_filter hs fun q hq => (mem_taskBlocks (hL q hq)).1]
  refine List.filter_congr fun x _ => ?_
  rw [Bool.and_comm, Nat.mul_comm, Nat.div_add_mod]

/-- What halves of tasks find. -/
theorem halves_find (A : Agree b (d + 1 + k) cs ts) {L : List Nat} (hs : L.Pairwise (· < ·))
    (hL : ∀ r ∈ L, r / 2 ∈ taskBlocks cs (d + 1 + b) k ∧ reached cs (d + 1 + k + b) (d + b) r = true) :
    (L.map fun r => (r * 2 ^ (d + b), tk 1 (tk k ts (r / 2)) (r % 2))).flatMap (outW true b) = commonIn cs (d + 1 + b + k) (d + b) L := by
  have hp := pow_split d b
  have hr2 : ∀ r, 2 * (r / 2) + r % 2 = r := fun r => Nat.div_add_mod r 2
  rw [List.flatMap_map, commonIn]
  have e : L.flatMap (fun r => outW true b (r * 2 ^ (d + b), tk 1 (tk k ts (r / 2)) (r % 2))) =
      L.flatMap (fun r => enum (d + b) ((fun r x => cs.all fun c => decide (r * 2 ^ (d + b) + x ∈ c.2)) r) (r * 2 ^ (d + b))) := by
    refine List.flatMap_congr fun r hr => ?_
    obtain ⟨h0, h3⟩ := hL r hr
    obtain ⟨h1, h2⟩ := mem_taskBlocks h0
    obtain ⟨g1, g2, g3⟩ := tk_spec A h1 h2
    have hm : r % 2 ≤ 1 := by omega
    rw [outW]
    refine enum_congr fun x hx => ?_
    simp only
    have hre := tk_half A h1 h2 hm
    rw [hr2, h3] at hre
    obtain ⟨u, hu⟩ := Option.isSome_iff_exists.1 hre
    have e : tk 1 (tk k ts (r / 2)) (r % 2) = u := by rw [tk, hu]; rfl
    have hlt : r % 2 * 2 ^ (d + b) + x < 2 ^ (d + 1 + b) := by
      rw [hp]
      have := Nat.mul_le_mul_right (2 ^ (d + b)) hm
      omega
    rw [e, ((dn_some 1 d (tk k ts (r / 2)) (r % 2) (by omega) u hu g1 g2).2.2 x hx).1]
    refine (g3 _ hlt).1.trans ?_
    rw [A.mem _ (block_lt h1 hlt)]
    have : r / 2 * 2 ^ (d + 1 + b) + (r % 2 * 2 ^ (d + b) + x) = r * 2 ^ (d + b) + x := by
      conv_rhs => rw [← hr2 r]
      rw [hp]; ring
    rw [this]
  rw [e, blocks_filter (k := k + 1) hs]
  · rw [show d + b + (k + 1) = d + 1 + b + k by omega]
    refine List.filter_congr fun x _ => ?_
    rw [Bool.and_comm, Nat.mul_comm, Nat.div_add_mod]
  · intro r hr
    have := (mem_taskBlocks (hL r hr).1).1
    rw [Nat.pow_succ]
    omega

/-- What is reported when tasks are replaced by their halves. -/
theorem split_reports (A : Agree b (d + 1 + k) cs ts) {L : List Nat} (hs : L.Pairwise (· < ·))
    (hL : ∀ q ∈ L, q ∈ taskBlocks cs (d + 1 + b) k) :
    (L.map fun q => (q * 2 ^ (d + 1 + b), tk k ts q)).flatMap (fun u => rpOut true b 1 u.1 u.2) =
      collapsedIn cs (d + 1 + b + k) (d + 1 + b) L := by
  rw [List.flatMap_map, collapsedIn]
  simp only [rpOut, if_true]
  have : L.flatMap (fun q => enum (d + 1 + b) (rp b 1 (tk k ts q)) (q * 2 ^ (d + 1 + b))) =
      L.flatMap (fun q => enum (d + 1 + b) ((fun q _ => allCollapsed cs (d + 1 + b) q) q) (q * 2 ^ (d + 1 + b))) := by
    refine List.flatMap_congr fun q hq => enum_congr fun x hx => ?_
    obtain ⟨h1, h2⟩ := mem_taskBlocks (hL q hq)
    obtain ⟨_, g2, g3⟩ := tk_spec A h1 h2
    obtain ⟨_, g5⟩ := g3 x hx
    have hlt := block_lt h1 hx
    have e : allC b (d + 1) (tk k ts q) (d + 1 + b) x = allCollapsed cs (d + 1 + b) q := by
      rw [(g5 (d + 1 + b) (by omega)).2.1, A.all _ _ (by omega) (by omega) hlt, block_div hx]
    rw [Bool.eq_iff_iff, rp_iff 1 d (tk k ts q) x hx g2]
    simp only
    rw [← e]
    constructor
    · rintro ⟨j, j1, j2, j3, _⟩
      obtain rfl : j = d + 1 + b := by omega
      exact j3
    · exact fun h => ⟨d + 1 + b, by omega, by omega, h, fun i i1 i2 => by omega⟩
  rw [this, blocks_filter hs fun q hq => (mem_taskBlocks (hL q hq)).1]

/-- `none`: division by zero. -/
def orDivide (r : Option (List Nat)) : R (List Nat) :=
  match r with
  | some l => .ok l
  | none => .error .conv

/-- The result. -/
theorem wideOut_eq (A : Agree b (d + 1 + k) cs ts) : wideOut true b ts = orDivide (wideResult cs (d + 1 + b) k) := by
  have hJ : d + 1 + b + k = d + 1 + k + b := by omega
  have hj : d + 1 + b - 1 = d + b := by omega
  have s1 : rpOut true b k 0 ts = (List.range (2 ^ (d + 1 + b + k))).filter (reported cs (d + 1 + b + k) (d + 1 + b)) := by
    rw [rpOut, if_pos rfl, hJ, enum_congr fun x hx => rp_reported A hx]
    simp [enum]
  have hsort : ∀ n, ((keptBlocks cs (d + 1 + b) k).take n).Pairwise (· < ·) := fun n => kept_sorted.sublist (List.take_sublist _ _)
  have hsort' : ∀ n, ((keptBlocks cs (d + 1 + b) k).drop n).Pairwise (· < ·) := fun n => kept_sorted.sublist (List.drop_sublist _ _)
  have hm : ∀ n, ∀ q ∈ (keptBlocks cs (d + 1 + b) k).take n, q ∈ taskBlocks cs (d + 1 + b) k := fun n q hq => mem_kept (List.mem_of_mem_take hq)
  have hm' : ∀ n, ∀ q ∈ (keptBlocks cs (d + 1 + b) k).drop n, q ∈ taskBlocks cs (d + 1 + b) k := fun n q hq => mem_kept (List.mem_of_mem_drop hq)
  rw [wideOut, wideResult, splitW_eq A, s1, hj]
  by_cases hc : k ≤ 16
  · rw [if_pos hc, if_pos hc, keptW_eq A, ← List.map_take, ← List.map_drop, split_reports A (hsort _) (hm _), halfW_eq A (hm _),
      halves_find A (half_sorted (hsort _)) (fun r hr => ⟨hm _ _ (half_mem hr).1, (half_mem hr).2⟩), tasks_find A (hsort' _) (hm' _),
      ← List.append_assoc, hJ]
    rfl
  · rw [if_neg hc, if_neg hc, keptW_eq A, split_reports A kept_sorted (fun q => mem_kept), halfW_eq A (fun q => mem_kept), List.length_map,
      ← List.map_take, halves_find A ((half_sorted kept_sorted).sublist (List.take_sublist _ _))
        (fun r hr => ⟨mem_kept (half_mem (List.mem_of_mem_take hr)).1, (half_mem (List.mem_of_mem_take hr)).2⟩), hJ]
    by_cases hz : (halfBlocks cs (d + 1 + k + b) (d + b) (keptBlocks cs (d + 1 + b) k)).length ≠ 0 ∧
        2 ^ 16 ∣ (halfBlocks cs (d + 1 + k + b) (d + b) (keptBlocks cs (d + 1 + b) k)).length
    · rw [if_pos hz, if_pos ⟨hz.1, Nat.mod_eq_zero_of_dvd hz.2⟩]
      rfl
    · rw [if_neg hz, if_neg (fun h => hz ⟨h.1, Nat.dvd_of_mod_eq_zero h.2⟩)]
      rfl

end

/-! ## Plain tries -/

theorem forall2_and_left {A B : Type} {P P' : A → B → Prop} {Q : A → Prop} {l : List A} {m : List B} (h : List.Forall₂ P l m)
    (hq : ∀ a ∈ l, Q a) (hi : ∀ a t, P a t → Q a → P' a t) : List.Forall₂ P' l m := by
  induction h with
  | nil => exact .nil
  | cons h _ ih => exact .cons (hi _ _ h (hq _ List.mem_cons_self)) (ih fun t ht => hq t (List.mem_cons_of_mem _ ht))

section
variable {sets : List (List Nat)}

theorem plain_collapsed {j q : Nat} : someCollapsed (sets.map fun S => (false, S)) j q = false := by
  rw [someCollapsed, List.any_map]
  simp [Spec.collapsed, Function.comp_def]

theorem plain_allCollapsed (hne : sets ≠ []) {j q : Nat} : allCollapsed (sets.map fun S => (false, S)) j q = false := by
  cases sets with
  | nil => exact (hne rfl).elim
  | cons S sets => simp [allCollapsed, Spec.collapsed]

theorem plain_reached {t j q : Nat} : reached (sets.map fun S => (false, S)) t j q = meetsAll sets j q := by
  rw [reached, exposed]
  simp [plain_collapsed, Function.comp_def]

theorem plain_reported (hne : sets ≠ []) {t j x : Nat} : reported (sets.map fun S => (false, S)) t j x = false := by
  rw [reported]
  simp [plain_allCollapsed hne]

theorem plain_blocks {j cut : Nat} : taskBlocks (sets.map fun S => (false, S)) j cut = commonBlocks sets j cut := by
  rw [taskBlocks, commonBlocks]
  exact List.filter_congr fun q _ => plain_reached

theorem plain_kept {j cut : Nat} : keptBlocks (sets.map fun S => (false, S)) j cut = keptCommon sets j cut := by
  rw [keptBlocks, keptCommon, plain_blocks]

theorem plain_common {t i : Nat} {L : List Nat} : commonIn (sets.map fun S => (false, S)) t i L = elementsIn sets t i L := by
  rw [commonIn, elementsIn]
  simp [List.all_map, Function.comp_def]

theorem plain_collapsedIn (hne : sets ≠ []) {t j : Nat} {L : List Nat} : collapsedIn (sets.map fun S => (false, S)) t j L = [] := by
  rw [collapsedIn]
  simp [plain_allCollapsed hne]

theorem mem_halfBlocks {cs : List (Bool × List Nat)} {t j r : Nat} {L : List Nat} :
    r ∈ halfBlocks cs t j L ↔ r / 2 ∈ L ∧ reached cs t j r = true := by
  simp only [halfBlocks, List.mem_flatMap, List.mem_filter, List.mem_cons, List.not_mem_nil, or_false]
  constructor
  · rintro ⟨q, hq, rfl | rfl, h⟩
    · rw [show 2 * q / 2 = q by omega]; exact ⟨hq, h⟩
    · rw [show (2 * q + 1) / 2 = q by omega]; exact ⟨hq, h⟩
  · rintro ⟨h1, h2⟩
    exact ⟨r / 2, h1, by omega, h2⟩

theorem keptCommon_sorted {j cut : Nat} : (keptCommon sets j cut).Pairwise (· < ·) :=
  (List.Pairwise.filter _ List.pairwise_lt_range).sublist (List.take_sublist _ _)

theorem keptCommon_lt {j cut q : Nat} (h : q ∈ keptCommon sets j cut) : q < 2 ^ cut :=
  List.mem_range.1 (List.mem_filter.1 (List.mem_of_mem_take h)).1

theorem plain_halves {j cut : Nat} : halfBlocks (sets.map fun S => (false, S)) (j + cut) (j - 1) (keptCommon sets j cut) =
    keptHalves sets j cut := by
  apply sorted_ext
  · exact half_sorted keptCommon_sorted
  · exact List.Pairwise.filter _ (List.Pairwise.filter _ List.pairwise_lt_range)
  · intro r
    rw [mem_halfBlocks, plain_reached, keptHalves, List.mem_filter, decide_eq_true_eq, commonBlocks, List.mem_filter, List.mem_range]
    constructor
    · rintro ⟨h1, h2⟩
      have := keptCommon_lt h1
      exact ⟨⟨by rw [Nat.pow_succ]; omega, h2⟩, h1⟩
    · rintro ⟨⟨_, h2⟩, h1⟩
      exact ⟨h1, h2⟩

theorem elements_meet {j x : Nat} (h : (sets.all fun S => decide (x ∈ S)) = true) : meetsAll sets j (x / 2 ^ j) = true := by
  rw [List.all_eq_true] at h
  rw [meetsAll_iff]
  exact fun S hS => ⟨x, by simpa using h S hS, rfl⟩

theorem half_div_pred {j x : Nat} (hj : 1 ≤ j) : x / 2 ^ (j - 1) / 2 = x / 2 ^ j := by
  rw [Nat.div_div_eq_div_mul, ← Nat.pow_succ, show (j - 1).succ = j by omega]

/-- Elements of the first blocks, and of the other blocks. -/
theorem elements_split {t j : Nat} (m : Nat) {L : List Nat} (hs : L.Pairwise (· < ·)) :
    elementsIn sets t j (L.take m) ++ elementsIn sets t j (L.drop m) = elementsIn sets t j L := by
  have hlt : ∀ a ∈ L.take m, ∀ c ∈ L.drop m, a < c := by
    have := hs
    rw [← List.take_append_drop m L, List.pairwise_append] at this
    exact this.2.2
  apply sorted_ext
  · rw [List.pairwise_append]
    refine ⟨List.Pairwise.filter _ List.pairwise_lt_range, List.Pairwise.filter _ List.pairwise_lt_range, fun x hx y hy => ?_⟩
    rw [elementsIn, List.mem_filter, Bool.and_eq_true, decide_eq_true_eq] at hx hy
    have := hlt _ hx.2.2 _ hy.2.2
    by_contra hxy
    have := Nat.div_le_div_right (c := 2 ^ j) (show y ≤ x by omega)
    omega
  · exact List.Pairwise.filter _ List.pairwise_lt_range
  · intro x
    simp only [elementsIn, List.mem_append, List.mem_filter, Bool.and_eq_true, decide_eq_true_eq]
    have : x / 2 ^ j ∈ L ↔ x / 2 ^ j ∈ L.take m ∨ x / 2 ^ j ∈ L.drop m := by
      rw [← List.mem_append, List.take_append_drop]
    rw [this]
    tauto

theorem elements_halves {t j : Nat} (hj : 1 ≤ j) {L : List Nat} :
    elementsIn sets t (j - 1) (halfBlocks (sets.map fun S => (false, S)) t (j - 1) L) = elementsIn sets t j L := by
  rw [elementsIn, elementsIn]
  refine List.filter_congr fun x _ => ?_
  cases hx : sets.all fun S => decide (x ∈ S) with
  | false => rfl
  | true =>
    rw [Bool.true_and, Bool.true_and, decide_eq_decide, mem_halfBlocks, plain_reached, half_div_pred hj]
    exact ⟨fun h => h.1, fun h => ⟨h, elements_meet hx⟩⟩

theorem wideResult_plain (hne : sets ≠ []) {j cut : Nat} (hj : 1 ≤ j) :
    wideResult (sets.map fun S => (false, S)) j cut = widePlain sets j cut := by
  have h0 : (List.range (2 ^ (j + cut))).filter (reported (sets.map fun S => (false, S)) (j + cut) j) = [] :=
    List.filter_eq_nil_iff.2 fun x _ => by rw [plain_reported hne]; simp
  rw [wideResult, widePlain, h0, plain_kept, plain_halves, plain_collapsedIn hne, plain_collapsedIn hne, plain_common, plain_common, plain_common]
  simp only [List.nil_append]
  rw [elements_halves hj, elements_split _ keptCommon_sorted]

/-- What is found is a prefix of the intersection. -/
theorem widePlain_prefix (hne : sets ≠ []) {j cut : Nat} (hj : 1 ≤ j) (hb : ∀ S ∈ sets, ∀ x ∈ S, x < 2 ^ (j + cut)) {R : List Nat}
    (h : widePlain sets j cut = some R) : ∃ I, IsIntersection sets I ∧ R <+: I := by
  have hk : elementsIn sets (j + cut) j (keptCommon sets j cut) <+: elementsIn sets (j + cut) j (commonBlocks sets j cut) :=
    ⟨_, elements_split _ (List.Pairwise.filter _ List.pairwise_lt_range)⟩
  refine ⟨elementsIn sets (j + cut) j (commonBlocks sets j cut), ⟨List.Pairwise.filter _ List.pairwise_lt_range, fun x => ?_⟩, ?_⟩
  · simp only [elementsIn, List.mem_filter, List.mem_range, Bool.and_eq_true, decide_eq_true_eq, List.all_eq_true, commonBlocks]
    constructor
    · exact fun h => h.2.1
    · intro h
      obtain ⟨S, hS⟩ := List.exists_mem_of_ne_nil _ hne
      have hx := hb S hS x (h S hS)
      refine ⟨hx, h, ?_, elements_meet (by simpa using h)⟩
      rw [Nat.div_lt_iff_lt_mul (Nat.two_pow_pos _), ← Nat.pow_add, Nat.add_comm cut]
      exact hx
  · rw [widePlain] at h
    split at h
    · cases h
      exact hk
    · split at h
      · cases h
      · cases h
        refine List.IsPrefix.trans ?_ hk
        rw [← elements_halves hj, plain_halves]
        exact ⟨_, elements_split _ (List.Pairwise.filter _ (List.Pairwise.filter _ List.pairwise_lt_range))⟩

end

end CBT
