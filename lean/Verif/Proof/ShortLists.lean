import Verif.Props.ExactRuns
import Verif.Props.ToolsExact

/-!
Helper lemmas for C92: small sets have no large collapsed blocks.
-/

namespace CBT

open Spec

theorem collapsed_length {c : Bool × List Nat} {i k : Nat} (h : Spec.collapsed c i k = true) : c.1 = true ∧ 2 ^ i ≤ c.2.length := by
  simp only [Spec.collapsed, Bool.and_eq_true, List.all_eq_true, List.mem_range, decide_eq_true_eq] at h
  refine ⟨h.1, ?_⟩
  have hn : ((List.range (2 ^ i)).map (k * 2 ^ i + ·)).Nodup := List.Nodup.map (fun a b e => Nat.add_left_cancel e) List.nodup_range
  have := (List.subperm_of_subset hn (l₂ := c.2) (by
    intro y hy
    obtain ⟨z, hz, rfl⟩ := List.mem_map.1 hy
    exact h.2 z (List.mem_range.1 hz))).length_le
  simpa using this

theorem someCollapsed_short {cs : List (Bool × List Nat)} {i k : Nat} (h : ∀ c ∈ cs, c.1 = true → c.2.length < 2 ^ i) : someCollapsed cs i k = false := by
  rw [someCollapsed, List.any_eq_false]
  intro c hc H
  have := collapsed_length H
  have := h c hc this.1
  omega

/-- Where nothing large is collapsed, the result is complete. -/
theorem runsResult_complete {cs : List (Bool × List Nat)} {j cut : Nat} (hne : cs ≠ []) (hb : ∀ c ∈ cs, ∀ x ∈ c.2, x < 2 ^ (j + cut)) (hj : 0 < j)
    (H1 : ∀ i k, j < i → i ≤ j + cut → someCollapsed cs i k = false) (H2 : ∀ k, isSplit cs j cut k = true → someCollapsed cs j k = false) :
    IsIntersection (cs.map Prod.snd) (runsResult cs j cut) := by
  have hall : ∀ i k, someCollapsed cs i k = false → allCollapsed cs i k = false := by
    intro i k h
    cases cs with
    | nil => exact (hne rfl).elim
    | cons c cs =>
      simp only [someCollapsed, List.any_cons, Bool.or_eq_false_iff] at h
      rw [allCollapsed, List.all_cons, h.1, Bool.false_and]
  have e1 : (List.range (2 ^ (j + cut))).filter (reported cs (j + cut) j) = [] := by
    rw [List.filter_eq_nil_iff]
    intro x _ hr
    rw [reported, List.any_eq_true] at hr
    obtain ⟨i, hi, h⟩ := hr
    rw [hall _ _ (H1 (j + 1 + i) _ (by omega) (by have := List.mem_range.1 hi; omega)), Bool.false_and] at h
    cases h
  have e2 : (List.range (2 ^ (j + cut))).filter (fun x => isSplit cs j cut (x / 2 ^ j) && allCollapsed cs j (x / 2 ^ j)) = [] := by
    rw [List.filter_eq_nil_iff]
    intro x _ hr
    rw [Bool.and_eq_true] at hr
    rw [hall _ _ (H2 _ hr.1)] at hr
    cases hr.2
  have hcommon : ∀ i x, (∀ c ∈ cs, x ∈ c.2) → meetsAll (cs.map Prod.snd) i (x / 2 ^ i) = true := by
    intro i x hx
    simp only [meetsAll, List.all_eq_true, List.any_eq_true, decide_eq_true_eq]
    intro S hS
    obtain ⟨c, hc, rfl⟩ := List.mem_map.1 hS
    exact ⟨x, hx c hc, rfl⟩
  have e3 : ∀ x, (∀ c ∈ cs, x ∈ c.2) → (if isSplit cs j cut (x / 2 ^ j) then reached cs (j + cut) (j - 1) (x / 2 ^ (j - 1))
      else reached cs (j + cut) j (x / 2 ^ j)) = true := by
    intro x hx
    split
    next hs =>
      rw [reached, hcommon _ x hx, Bool.and_true]
      refine exposed_spec.2 fun i h1 h2 => ?_
      rcases Nat.lt_or_ge j i with h | h
      · exact H1 _ _ h h2
      · rw [show i = j by omega]; exact H2 _ hs
    next => rw [reached, hcommon _ x hx, Bool.and_true]; exact exposed_spec.2 fun i h1 h2 => H1 _ _ h1 h2
  rw [runsResult, e1, e2, List.nil_append, List.nil_append]
  refine ⟨List.pairwise_lt_range.filter _, fun x => ?_⟩
  rw [List.mem_filter, List.mem_range]
  have hS : (∀ S ∈ cs.map Prod.snd, x ∈ S) ↔ ∀ c ∈ cs, x ∈ c.2 := by simp only [List.forall_mem_map]
  rw [hS]
  constructor
  · rintro ⟨-, h⟩
    simp only [Bool.and_eq_true, List.all_eq_true, decide_eq_true_eq] at h
    exact h.1
  · intro h
    obtain ⟨c, hc⟩ := List.exists_mem_of_ne_nil _ hne
    refine ⟨hb c hc x (h c hc), ?_⟩
    simp only [Bool.and_eq_true, List.all_eq_true, decide_eq_true_eq]
    exact ⟨h, e3 x h⟩

theorem runsResult_short {cs : List (Bool × List Nat)} {j cut : Nat} (hne : cs ≠ []) (hb : ∀ c ∈ cs, ∀ x ∈ c.2, x < 2 ^ (j + cut)) (hj : 0 < j)
    (h : ∀ c ∈ cs, c.1 = true → c.2.length < 2 ^ j) : IsIntersection (cs.map Prod.snd) (runsResult cs j cut) :=
  runsResult_complete hne hb hj (fun i k h1 _ => someCollapsed_short fun c hc hr =>
    Nat.lt_of_lt_of_le (h c hc hr) (Nat.pow_le_pow_right (by decide) (Nat.le_of_lt h1))) fun k _ => someCollapsed_short h

/-- With two threads no block is replaced by its halves. -/
theorem isSplit_two (cs : List (Bool × List Nat)) (j : Nat) {cut : Nat} (hc : cut ≤ 1) (k : Nat) : isSplit cs j cut k = false := by
  rw [isSplit, decide_eq_false_iff_not, splitBlocks]
  cases taskBlocks cs j cut with
  | nil => simp
  | cons a l =>
    have : 2 ^ cut ≤ 2 ^ 1 := Nat.pow_le_pow_right (by decide) hc
    rw [List.map_cons, replaced, if_neg (by rw [List.length_cons]; omega)]
    simp

theorem runsResult_two {cs : List (Bool × List Nat)} {j cut : Nat} (hc : cut ≤ 1) (hne : cs ≠ []) (hb : ∀ c ∈ cs, ∀ x ∈ c.2, x < 2 ^ (j + cut))
    (hj : 0 < j) (h : ∀ c ∈ cs, c.1 = true → c.2.length < 2 ^ (j + cut)) : IsIntersection (cs.map Prod.snd) (runsResult cs j cut) :=
  runsResult_complete hne hb hj (fun i k h1 h2 => someCollapsed_short fun c hc hr =>
    Nat.lt_of_lt_of_le (h c hc hr) (Nat.pow_le_pow_right (by decide) (by omega))) fun k hs => by rw [isSplit_two cs j hc k] at hs; cases hs

theorem forall2_mem_imp {α β : Type} {P Q : α → β → Prop} {l : List α} {l' : List β} (h : List.Forall₂ P l l') :
    (∀ a ∈ l, ∀ b, P a b → Q a b) → List.Forall₂ Q l l' := by
  induction h with
  | nil => intro _; exact .nil
  | cons h _ ih => intro H; exact .cons (H _ List.mem_cons_self _ h) (ih fun a ha => H a (List.mem_cons_of_mem _ ha))

theorem isSplit_single {J cut : Nat} (h : 2 ≤ cut) : isSplit [(true, List.range (2 ^ J)), (false, [0])] J cut 0 = true := by
  have hr : ∀ q, reached [(true, List.range (2 ^ J)), (false, [0])] (J + cut) J q = true ↔ q = 0 := by
    intro q
    constructor
    · intro H
      simp only [reached, meetsAll, List.map_cons, List.map_nil, List.all_cons, List.all_nil, List.any_cons, List.any_nil, Bool.and_eq_true,
        Bool.or_false, decide_eq_true_eq] at H
      simpa using H.2.2.1.symm
    · rintro rfl
      rw [reached, Bool.and_eq_true]
      constructor
      · have : (0 : Nat) = 0 / 2 ^ J := by simp
        rw [this]
        refine exposed_spec.2 fun i h1 _ => ?_
        rw [someCollapsed, List.any_eq_false]
        intro c hc H
        have := collapsed_length H
        have hp : 2 ^ J < 2 ^ i := Nat.pow_lt_pow_right (by decide) h1
        rcases List.mem_cons.1 hc with rfl | hc
        · simp at this; omega
        · rw [List.mem_singleton.1 hc] at this; cases this.1
      · simp only [meetsAll, List.map_cons, List.map_nil, List.all_cons, List.all_nil, List.any_cons, List.any_nil, Bool.and_true, Bool.or_false,
          Nat.zero_div, decide_true, List.any_eq_true, decide_eq_true_eq, List.mem_range]
        exact ⟨0, Nat.two_pow_pos J, by simp⟩
  have ht : taskBlocks [(true, List.range (2 ^ J)), (false, [0])] J cut = [0] := by
    obtain ⟨n, hn⟩ : ∃ n, 2 ^ cut = n + 1 := ⟨2 ^ cut - 1, by have := Nat.two_pow_pos cut; omega⟩
    rw [taskBlocks, hn, List.range_succ_eq_map, List.filter_cons_of_pos ((hr 0).2 rfl)]
    congr 1
    rw [List.filter_eq_nil_iff]
    intro q hq H
    obtain ⟨m, -, rfl⟩ := List.mem_map.1 hq
    cases (hr _).1 H
  have h4 : 2 ^ 2 ≤ 2 ^ cut := Nat.pow_le_pow_right (by decide) h
  rw [isSplit, splitBlocks, ht, List.map_cons, replaced, if_pos (by simp only [List.length_singleton]; omega), Nat.add_comm, List.take_succ_cons]
  simp

theorem uneven_single {J t : Nat} (h : J ≤ t) : uneven [(true, List.range (2 ^ J)), (false, [0])] t J 0 := by
  refine ⟨J, Nat.le_refl _, h, ?_, ?_⟩
  · simp [someCollapsed, Spec.collapsed]
  · simp [allCollapsed, Spec.collapsed]

theorem answeredBy_short {runs : Bool} {t extra hw : Nat} {parallel : Bool} {sets : List (List Nat)} {R : List Nat} (hne : sets ≠ []) (he : 2 ≤ extra)
    (hb : ∀ S ∈ sets, ∀ x ∈ S, x < 2 ^ t) (hs : runs = true → parallel = true → ∀ S ∈ sets, S.length < 2 ^ (t - Nat.log2 hw))
    (h : AnsweredBy runs t (forks parallel t extra hw) sets R) : IsIntersection sets R := by
  rw [forks] at h
  split at h
  next hc =>
    rw [AnsweredBy] at h
    split at h
    next hr =>
      have := runsResult_short (cs := sets.map fun S => (true, S)) (j := t - Nat.log2 hw) (cut := Nat.log2 hw) (by simpa using hne)
        (by
          rw [show t - Nat.log2 hw + Nat.log2 hw = t by omega]
          intro c hc
          obtain ⟨S, hS, rfl⟩ := List.mem_map.1 hc
          exact hb S hS) (by omega)
        (by
          intro c hc' _
          obtain ⟨S, hS, rfl⟩ := List.mem_map.1 hc'
          exact hs hr hc.1 S hS)
      rw [h]
      simpa [List.map_map] using this
    next => exact h
  next => exact h

theorem query_sets {u : Nat} {lists : List (List Nat)} {q : List Nat} (hu : 2 ≤ u) (hv : ∀ l ∈ lists, ValidSet l u) (hq : ∀ i ∈ q, i < lists.length) :
    ∀ S ∈ q.map fun i => lists.getD i [], S ∈ lists ∧ ∀ x ∈ S, x < 2 ^ trieHeight u := by
  intro S hS
  obtain ⟨i, hi, rfl⟩ := List.mem_map.1 hS
  have hm : lists.getD i [] ∈ lists := by
    rw [List.getD_eq_getElem _ _ (hq i hi)]
    exact List.getElem_mem _
  refine ⟨hm, fun x hx => ?_⟩
  have := (hv _ hm).below x hx
  have h1 : u - 1 < 2 ^ (Nat.log2 (u - 1) + 1) := Nat.lt_log2_self
  rw [trieHeight]
  omega

end CBT
