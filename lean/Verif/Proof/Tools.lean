import Verif.Model.Tools
import Verif.SpecTools
import Verif.Proof.SerialRt
import Verif.Proof.FlatCollapse

/-!
# Lemmas about the tools
-/

namespace CBT

open Spec

/-! ## The builders -/

theorem skipList_list {l : List Nat} (h : l.length < 2 ^ 30) (rest : Bytes) :
    skipList (l.flatMap (leBytes 4) ++ rest) l.length = rest := by
  have e : (l.flatMap (leBytes 4)).length = 4 * l.length := by
    rw [List.length_flatMap, List.map_congr_left (fun x _ => length_leBytes 4 x)]
    simp [Nat.mul_comm]
  have h' : 4 * l.length % 2 ^ 32 = 4 * l.length := Nat.mod_eq_of_lt (by omega)
  rw [skipList, h', ← e, List.drop_left]

theorem accepts_eq (mn mx : Nat) (l : List Nat) :
    accepts mn mx l.length = (decide (mn < l.length) && decide (l.length ≤ mx)) := by
  rw [accepts, Bool.decide_and]

theorem readLE_listBytes {l : List Nat} (h : l.length < 2 ^ 30) (rest : Bytes) :
    readLE 4 (listBytes l ++ rest) = .ok (l.length, l.flatMap (leBytes 4) ++ rest) := by
  rw [listBytes, List.append_assoc, readLE_leBytes 4 _ _ (by omega)]

theorem kept_pos {mn mx : Nat} {l : List Nat} {ls : List (List Nat)}
    (ha : (decide (mn < l.length) && decide (l.length ≤ mx)) = true) : kept mn mx (l :: ls) = l :: kept mn mx ls :=
  List.filter_cons_of_pos (p := fun l : List Nat => decide (mn < l.length) && decide (l.length ≤ mx)) ha

theorem kept_neg {mn mx : Nat} {l : List Nat} {ls : List (List Nat)}
    (ha : ¬ (decide (mn < l.length) && decide (l.length ≤ mx)) = true) : kept mn mx (l :: ls) = kept mn mx ls :=
  List.filter_cons_of_neg (p := fun l : List Nat => decide (mn < l.length) && decide (l.length ≤ mx)) ha

theorem countSets_lists {mn mx : Nat} : (lists : List (List Nat)) → (fuel c : Nat) → (∀ l ∈ lists, l.length < 2 ^ 30) →
    lists.length < fuel → c + (kept mn mx lists).length < 2 ^ 32 →
    countSets mn mx fuel (lists.flatMap listBytes) c = .ok (c + (kept mn mx lists).length)
  | [], fuel + 1, c, _, _, _ => rfl
  | l :: ls, fuel + 1, c, hl, hf, hc => by
    have h0 : l.length < 2 ^ 30 := hl l (by simp)
    rw [List.flatMap_cons, countSets, readLE_listBytes h0]
    simp only
    rw [skipList_list h0, accepts_eq]
    by_cases ha : (decide (mn < l.length) && decide (l.length ≤ mx)) = true
    · have e : kept mn mx (l :: ls) = l :: kept mn mx ls := kept_pos ha
      rw [e, List.length_cons] at hc ⊢
      rw [if_pos ha, Nat.mod_eq_of_lt (by omega), countSets_lists ls fuel (c + 1) (fun l h => hl l (List.mem_cons_of_mem _ h))
        (by simp only [List.length_cons] at hf; omega) (by omega)]
      congr 1; omega
    · have e : kept mn mx (l :: ls) = kept mn mx ls := kept_neg ha
      rw [e] at hc ⊢
      rw [if_neg ha, countSets_lists ls fuel c (fun l h => hl l (List.mem_cons_of_mem _ h))
        (by simp only [List.length_cons] at hf; omega) hc]

/-- The tries of the accepted lists, from number `i` on. -/
def makeAll (make : Nat → List Nat → R Bytes) : Nat → List (List Nat) → R Bytes
  | _, [] => .ok []
  | i, l :: ls => do
    let b ← make i l
    let bs ← makeAll make (i + 1) ls
    .ok (b ++ bs)

theorem buildLoop_lists {mn mx : Nat} {make : Nat → List Nat → R Bytes} : (lists : List (List Nat)) → (fuel i : Nat) →
    (∀ l ∈ lists, l.length < 2 ^ 30) → (∀ l ∈ kept mn mx lists, ∀ x ∈ l, x < 2 ^ 32) → lists.length < fuel →
    buildLoop mn mx make fuel (lists.flatMap listBytes) i = makeAll make i (kept mn mx lists)
  | [], fuel + 1, i, _, _, _ => rfl
  | l :: ls, fuel + 1, i, hl, hx, hf => by
    have h0 : l.length < 2 ^ 30 := hl l (by simp)
    have hf' : ls.length < fuel := by simp only [List.length_cons] at hf; omega
    rw [List.flatMap_cons, buildLoop, readLE_listBytes h0]
    simp only
    rw [accepts_eq]
    by_cases ha : (decide (mn < l.length) && decide (l.length ≤ mx)) = true
    · have e : kept mn mx (l :: ls) = l :: kept mn mx ls := kept_pos ha
      rw [e] at hx ⊢
      have hr : readInvList l.length (l.flatMap (leBytes 4) ++ ls.flatMap listBytes) = .ok (l, ls.flatMap listBytes) := by
        rw [readInvList, readMany_flatMap (f := id) l _ fun x hxl rest => readLE_leBytes 4 x rest (by
          have := hx l (by simp) x hxl; omega)]
        simp
      rw [if_pos ha, hr, R_bind_ok]
      simp only
      rw [makeAll]
      simp only [buildLoop_lists ls fuel (i + 1) (fun l h => hl l (List.mem_cons_of_mem _ h))
        (fun l h => hx l (List.mem_cons_of_mem _ h)) hf']
    · have e : kept mn mx (l :: ls) = kept mn mx ls := kept_neg ha
      rw [e] at hx ⊢
      rw [if_neg ha, skipList_list h0, buildLoop_lists ls fuel i (fun l h => hl l (List.mem_cons_of_mem _ h)) hx hf']

theorem makeAll_ok {make : Nat → List Nat → R Bytes} {part : Nat → Bytes} : (ls : List (List Nat)) → (i : Nat) →
    (∀ j (h : j < ls.length), make (i + j) ls[j] = .ok (part (i + j))) →
    makeAll make i ls = .ok ((List.range' i ls.length).flatMap part)
  | [], _, _ => rfl
  | l :: ls, i, h => by
    rw [makeAll, show make i l = _ from h 0 (by simp), R_bind_ok, makeAll_ok ls (i + 1) fun j hj => by
      have := h (j + 1) (by simp only [List.length_cons]; omega)
      rw [show i + 1 + j = i + (j + 1) by omega]; exact this]
    simp only [R_bind_ok, List.length_cons, List.range'_succ, List.flatMap_cons, Nat.add_zero]

theorem length_le_flatMap (lists : List (List Nat)) : lists.length ≤ (lists.flatMap listBytes).length := by
  induction lists with
  | nil => simp
  | cons l ls ih =>
    rw [List.flatMap_cons, List.length_append, listBytes, List.length_append, length_leBytes, List.length_cons]
    omega

theorem buildFile_lists {mn mx : Nat} {hdr : Bytes} {make : Nat → Nat → List Nat → R Bytes} {one u : Nat}
    {lists : List (List Nat)} (h1 : one < 2 ^ 32) (hu : u < 2 ^ 32) (hl : ∀ l ∈ lists, l.length < 2 ^ 30)
    (hx : ∀ l ∈ kept mn mx lists, ∀ x ∈ l, x < 2 ^ 32) (hn : (kept mn mx lists).length < 2 ^ 32) :
    buildFile mn mx hdr make (collectionBytes one u lists) = (makeAll (make u) 0 (kept mn mx lists) >>= fun tries =>
      .ok (hdr ++ leBytes 4 (kept mn mx lists).length ++ leBytes 4 one ++ leBytes 4 u ++ tries)) := by
  have hf := length_le_flatMap lists
  rw [buildFile, collectionBytes, readLE_leBytes 4 _ _ (by omega), R_bind_ok]
  simp only
  rw [readLE_leBytes 4 _ _ (by omega), R_bind_ok]
  simp only
  rw [countSets_lists lists _ 0 hl (by omega) (by omega), R_bind_ok, buildLoop_lists lists _ 0 hl hx (by omega), Nat.zero_add]

theorem makeAll_inv {make : Nat → List Nat → R Bytes} : (ls : List (List Nat)) → (i : Nat) → (b : Bytes) →
    makeAll make i ls = .ok b → ∃ parts : List Bytes, b = parts.flatten ∧ parts.length = ls.length ∧
      ∀ j (h : j < ls.length) (h' : j < parts.length), make (i + j) ls[j] = .ok parts[j]
  | [], _, b, h => by
    rw [makeAll] at h; injection h with h; subst h
    exact ⟨[], rfl, rfl, fun j h => by simp at h⟩
  | l :: ls, i, b, h => by
    rw [makeAll] at h
    obtain ⟨p, hp, h⟩ := bind_ok h
    obtain ⟨bs, hbs, h⟩ := bind_ok h
    injection h with h
    obtain ⟨parts, e1, e2, e3⟩ := makeAll_inv ls (i + 1) bs hbs
    refine ⟨p :: parts, by rw [← h, e1, List.flatten_cons], by simp [e2], fun j hj hj' => ?_⟩
    cases j with
    | zero => simpa using hp
    | succ j =>
      simp only [List.getElem_cons_succ]
      rw [show i + (j + 1) = i + 1 + j by omega]
      exact e3 j _ _

/-- The builder succeeds exactly if all tries can be built. -/
theorem buildFile_iff {mn mx : Nat} {hdr : Bytes} {make : Nat → Nat → List Nat → R Bytes} {one u : Nat}
    {lists : List (List Nat)} (h1 : one < 2 ^ 32) (hu : u < 2 ^ 32) (hl : ∀ l ∈ lists, l.length < 2 ^ 30)
    (hx : ∀ l ∈ lists, ∀ x ∈ l, x < 2 ^ 32) (hn : (kept mn mx lists).length < 2 ^ 32) (f : Bytes) :
    buildFile mn mx hdr make (collectionBytes one u lists) = .ok f ↔
      ∃ parts : List Bytes, parts.length = (kept mn mx lists).length ∧
        (∀ j (h : j < (kept mn mx lists).length) (h' : j < parts.length), make u j (kept mn mx lists)[j] = .ok parts[j]) ∧
        f = hdr ++ leBytes 4 (kept mn mx lists).length ++ leBytes 4 one ++ leBytes 4 u ++ parts.flatten := by
  rw [buildFile_lists h1 hu hl (fun l h => hx l (List.mem_of_mem_filter h)) hn]
  constructor
  · intro h
    obtain ⟨b, hb, h⟩ := bind_ok h
    injection h with h
    obtain ⟨parts, e1, e2, e3⟩ := makeAll_inv _ _ _ hb
    refine ⟨parts, e2, fun j h h' => by have := e3 j h h'; rwa [Nat.zero_add] at this, ?_⟩
    rw [← h, e1]
  · rintro ⟨parts, e2, e3, rfl⟩
    have := makeAll_ok (make := make u) (part := fun j => parts.getD j []) (kept mn mx lists) 0 (fun j h => by
      rw [Nat.zero_add, e3 j h (by omega), List.getD_eq_getElem?_getD, List.getElem?_eq_getElem (by omega)]; rfl)
    rw [this, R_bind_ok]
    have e : (List.range' 0 (kept mn mx lists).length).flatMap (fun j => parts.getD j []) = parts.flatten := by
      rw [List.flatMap_def, ← e2]
      congr 1
      refine List.ext_getElem (by simp) fun j h1 h2 => ?_
      simp [List.getD_eq_getElem?_getD, List.getElem?_eq_getElem h2]
    rw [e]

theorem kept_ne_nil {mn mx : Nat} {lists : List (List Nat)} : ∀ l ∈ kept mn mx lists, l ≠ [] := by
  intro l h h0
  rw [kept, List.mem_filter] at h
  simp [h0] at h

/-! ## `setIndexes` -/

theorem mem_insertId {x z : Nat} : (l : List Nat) → (z ∈ insertId x l ↔ z = x ∨ z ∈ l)
  | [] => by simp [insertId]
  | y :: l => by
    rw [insertId]
    split
    · simp
    · rw [List.mem_cons, mem_insertId l, List.mem_cons]; tauto

theorem sorted_insertId {x : Nat} : (l : List Nat) → l.Pairwise (· ≤ ·) → (insertId x l).Pairwise (· ≤ ·)
  | [], _ => by simp [insertId]
  | y :: l, h => by
    rw [List.pairwise_cons] at h
    rw [insertId]
    split
    · rename_i hxy
      refine List.pairwise_cons.2 ⟨fun z hz => ?_, List.pairwise_cons.2 h⟩
      rcases List.mem_cons.1 hz with rfl | hz
      · exact hxy
      · have := h.1 z hz; omega
    · refine List.pairwise_cons.2 ⟨fun z hz => ?_, sorted_insertId l h.2⟩
      rcases (mem_insertId l).1 hz with rfl | hz
      · omega
      · exact h.1 z hz

theorem sortIds_spec (l : List Nat) : (sortIds l).Pairwise (· ≤ ·) ∧ ∀ z, z ∈ sortIds l ↔ z ∈ l := by
  induction l with
  | nil => simp [sortIds]
  | cons x l ih =>
    change (insertId x (sortIds l)).Pairwise (· ≤ ·) ∧ ∀ z, z ∈ insertId x (sortIds l) ↔ z ∈ x :: l
    exact ⟨sorted_insertId _ ih.1, fun z => by rw [mem_insertId, ih.2, List.mem_cons]⟩

theorem uniqueIds_spec : (l : List Nat) → l.Pairwise (· ≤ ·) → (uniqueIds l).Pairwise (· < ·) ∧ ∀ z, z ∈ uniqueIds l ↔ z ∈ l
  | [], _ => by simp [uniqueIds]
  | [x], _ => by simp [uniqueIds]
  | x :: y :: l, h => by
    rw [List.pairwise_cons] at h
    obtain ⟨h1, h2⟩ := uniqueIds_spec (y :: l) h.2
    rw [uniqueIds]
    split
    · rename_i hxy
      subst hxy
      exact ⟨h1, fun z => by rw [h2]; simp⟩
    · rename_i hxy
      refine ⟨List.pairwise_cons.2 ⟨fun z hz => ?_, h1⟩, fun z => by rw [List.mem_cons, h2, List.mem_cons (a := z) (b := x)]⟩
      have hy := h.1 y (by simp)
      rcases List.mem_cons.1 ((h2 z).1 hz) with rfl | hz
      · omega
      · have := (List.pairwise_cons.1 h.2).1 z hz; omega

theorem setIndexes_spec (queries : List (List Nat)) :
    (setIndexes queries).Pairwise (· < ·) ∧ ∀ z, z ∈ setIndexes queries ↔ ∃ q ∈ queries, z ∈ q := by
  obtain ⟨h1, h2⟩ := sortIds_spec queries.flatten
  obtain ⟨h3, h4⟩ := uniqueIds_spec _ h1
  exact ⟨h3, fun z => by rw [setIndexes, h4, h2, List.mem_flatten]⟩

/-! ## Loading -/

theorem loadLoop_ok {T : Type} {load : Nat → Bytes → R (T × Bytes)} {part : Nat → Bytes} {obj : Nat → T} :
    (n i : Nat) → (ids : List Nat) → (∀ j, i ≤ j → j < i + n → ∀ rest, load j (part j ++ rest) = .ok (obj j, rest)) →
    ids ≠ [] → ids.Pairwise (· < ·) → (∀ j ∈ ids, i ≤ j) → (rest : Bytes) →
    loadLoop load n i ids ((List.range' i n).flatMap part ++ rest) = .ok ((ids.filter (· < i + n)).map fun j => (j, obj j))
  | 0, i, ids, _, _, _, hge, rest => by
    have : ids.filter (· < i + 0) = [] := by
      rw [List.filter_eq_nil_iff]; intro j hj; have := hge j hj; simpa using this
    rw [this]; rfl
  | n + 1, i, ids, hl, hne, hp, hge, rest => by
    rw [List.range'_succ, List.flatMap_cons, List.append_assoc, loadLoop, hl i (Nat.le_refl _) (by omega), R_bind_ok]
    cases ids with
    | nil => exact absurd rfl hne
    | cons id ids' =>
      rw [List.pairwise_cons] at hp
      simp only
      have hid : i ≤ id := hge id (by simp)
      by_cases hi : i = id
      · subst hi
        rw [if_pos rfl]
        by_cases h' : ids' = []
        · subst h'
          rw [if_pos rfl]
          simp
        · rw [if_neg h', loadLoop_ok n (i + 1) ids' (fun j h1 h2 => hl j (by omega) (by omega)) h' hp.2
            (fun j hj => hp.1 j hj) rest, R_bind_ok, List.filter_cons_of_pos (by simp), List.map_cons,
            show i + 1 + n = i + (n + 1) by omega]
      · rw [if_neg hi, loadLoop_ok n (i + 1) (id :: ids') (fun j h1 h2 => hl j (by omega) (by omega)) (by simp)
          (List.pairwise_cons.2 hp) (fun j hj => by
            rcases List.mem_cons.1 hj with rfl | hj
            · omega
            · have := hp.1 j hj; omega) rest, show i + 1 + n = i + (n + 1) by omega]

theorem lookup_map {T : Type} (f : Nat → T) (x : Nat) : (ids : List Nat) → x ∈ ids →
    (ids.map fun j => (j, f j)).lookup x = some (f x)
  | [], h => by simp at h
  | y :: ids, h => by
    rw [List.map_cons, List.lookup_cons]
    by_cases hxy : x = y
    · subst hxy; simp
    · rw [beq_false_of_ne hxy]
      exact lookup_map f x ids ((List.mem_cons.1 h).resolve_left hxy)

theorem lookupAll_ok {T : Type} {m : List (Nat × T)} {f : Nat → T} : (q : List Nat) → (∀ x ∈ q, m.lookup x = some (f x)) →
    lookupAll m q = some (q.map f)
  | [], _ => rfl
  | x :: q, h => by
    rw [lookupAll, h x (by simp), lookupAll_ok q fun y hy => h y (List.mem_cons_of_mem _ hy)]
    rfl

/-- The loaded part of a query log. -/
theorem answerAll_ok {T : Type} {m : List (Nat × T)} {f : Nat → T} {inter : Nat → List T → R (List Nat)}
    {P : List Nat → List Nat → Prop} : (queries : List (List Nat)) → (i : Nat) →
    (∀ q ∈ queries, q.length ≤ 16 → ∀ x ∈ q, m.lookup x = some (f x)) →
    (∀ q ∈ queries, q.length ≤ 16 → ∀ j, ∃ R, inter j (q.map f) = .ok R ∧ P q R) →
    ∃ as, answerAll m inter i queries = .ok as ∧
      List.Forall₂ (fun q a => (q.length ≤ 16 → ∃ R, a = some R ∧ P q R) ∧ (16 < q.length → a = none)) queries as
  | [], _, _, _ => ⟨[], rfl, .nil⟩
  | q :: qs, i, h1, h2 => by
    obtain ⟨as, ha, hf⟩ := answerAll_ok qs (i + 1) (fun q hq => h1 q (List.mem_cons_of_mem _ hq))
      (fun q hq => h2 q (List.mem_cons_of_mem _ hq))
    by_cases hq : q.length ≤ 16
    · obtain ⟨R, hR, hP⟩ := h2 q (by simp) hq i
      refine ⟨some R :: as, ?_, .cons ⟨fun _ => ⟨R, rfl, hP⟩, fun h => by omega⟩ hf⟩
      rw [answerAll, answerQuery, if_pos hq, lookupAll_ok q (h1 q (by simp) hq)]
      simp only [hR, R_bind_ok, ha]
    · refine ⟨none :: as, ?_, .cons ⟨fun h => absurd h hq, fun _ => rfl⟩ hf⟩
      rw [answerAll, answerQuery, if_neg hq, R_bind_ok, ha, R_bind_ok]

end CBT
