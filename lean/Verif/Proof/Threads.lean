import Verif.Proof.Decode
import Verif.Model.Intersect
import Mathlib.Data.List.Basic

/-!
# Interleaved execution of commuting actions is sequential execution
-/

namespace CBT

section
variable {α σ : Type}

/-- The two actions may be exchanged. -/
def Commutes (act : α → σ → R σ) (a b : α) : Prop := ∀ s, (act a s >>= act b) = (act b s >>= act a)

theorem foldlM_append' (act : α → σ → R σ) (l m : List α) (s : σ) :
    (l ++ m).foldlM (fun s a => act a s) s = (l.foldlM (fun s a => act a s) s >>= fun s => m.foldlM (fun s a => act a s) s) :=
  List.foldlM_append

theorem foldlM_front (act : α → σ → R σ) {a : α} : {l : List α} → (∀ b ∈ l, Commutes act b a) → (m : List α) → (s : σ) →
    (l ++ a :: m).foldlM (fun s a => act a s) s = (act a s >>= fun s => (l ++ m).foldlM (fun s a => act a s) s)
  | [], _, m, s => rfl
  | b :: l, h, m, s => by
    rw [List.cons_append, List.foldlM_cons]
    simp only [foldlM_front act (fun b hb => h b (List.mem_cons_of_mem _ hb)) m]
    have := h b (by simp) s
    rw [← bind_assoc, this, bind_assoc]
    rfl

/-- A list with its element number `t`. -/
theorem split_get {β : Type} {l : List β} {t : Nat} {x : β} (h : l[t]? = some x) :
    ∃ l1 l2, l = l1 ++ x :: l2 ∧ ∀ y, l.set t y = l1 ++ y :: l2 := by
  obtain ⟨ht, rfl⟩ := List.getElem?_eq_some_iff.1 h
  refine ⟨l.take t, l.drop (t + 1), ?_, fun y => List.set_eq_take_append_cons_drop ▸ if_pos ht⟩
  rw [← List.drop_eq_getElem_cons, List.take_append_drop]

/-- Every schedule gives the result of running the threads one after the other, if actions of different threads commute. -/
theorem interleave_eq {act : α → σ → R σ} : ∀ (sched : List Nat) (progs : List (List α)) (s : σ),
    progs.Pairwise (fun p q => ∀ a ∈ p, ∀ b ∈ q, Commutes act a b) →
    interleave act sched progs s = progs.flatten.foldlM (fun s a => act a s) s := by
  intro sched
  induction sched with
  | nil => intro progs s _; rfl
  | cons t ts ih =>
    intro progs s h
    rw [interleave]
    split
    · rename_i a as hget
      obtain ⟨l1, l2, hl, hset⟩ := split_get hget
      have hpre : ∀ b ∈ l1.flatten, Commutes act b a := by
        intro b hb
        obtain ⟨p, hp, hbp⟩ := List.mem_flatten.1 hb
        rw [hl, List.pairwise_append] at h
        exact h.2.2 p hp (a :: as) (by simp) b hbp a (by simp)
      have hpw : (progs.set t as).Pairwise (fun p q => ∀ a ∈ p, ∀ b ∈ q, Commutes act a b) := by
        rw [hset]
        rw [hl] at h
        simp only [List.pairwise_append, List.pairwise_cons] at h ⊢
        refine ⟨h.1, ⟨fun q hq x hx => h.2.1.1 q hq x (by simp [hx]), h.2.1.2⟩, ?_⟩
        intro p hp q hq
        rcases List.mem_cons.1 hq with hq | hq
        · exact fun x hx b hb => h.2.2 p hp (a :: as) (by simp) x hx b (by rw [hq] at hb; simp [hb])
        · exact h.2.2 p hp q (by simp [hq])
      have : progs.flatten = l1.flatten ++ a :: (as ++ l2.flatten) := by rw [hl]; simp
      rw [this, foldlM_front act hpre]
      congr 1
      funext s
      rw [ih _ _ hpw, hset]
      simp
    · exact ih _ _ h

theorem mapM_ok {β γ : Type} {f : β → R γ} {g : β → γ} : (l : List β) → (∀ x ∈ l, f x = .ok (g x)) → l.mapM f = .ok (l.map g)
  | [], _ => rfl
  | x :: l, h => by
    rw [List.mapM_cons, h x (by simp), mapM_ok l fun y hy => h y (by simp [hy])]
    rfl

/-- The sub-ranges cover the indices in order. -/
theorem parallelChunks_ok {n k : Nat} (hk : 0 < k) :
    ∃ chunks, parallelChunks n k = .ok chunks ∧ chunks.length = k + 1 ∧ (∀ c ∈ chunks, c.1 ≤ c.2 ∧ c.2 ≤ n) ∧
      (chunks.map chunkIndices).flatten = List.range n := by
  have hpre : ∀ m, (((List.range m).map fun i => (i * (n / k), i * (n / k) + n / k)).map chunkIndices).flatten =
      List.range (m * (n / k)) := by
    intro m
    induction m with
    | zero => simp
    | succ m ih =>
      rw [List.range_succ, List.map_append, List.map_append, List.flatten_append, ih]
      simp only [List.map_cons, List.map_nil, List.flatten_cons, List.flatten_nil, List.append_nil, chunkIndices]
      rw [Nat.add_sub_cancel_left, Nat.succ_mul, List.range_eq_range', List.range_eq_range', List.range'_append_1.symm]
      simp
  have hdiv := Nat.div_add_mod n k
  refine ⟨_, if_neg (by omega), by simp, ?_, ?_⟩
  · intro c hc
    rw [List.mem_append] at hc
    rcases hc with hc | hc
    · obtain ⟨i, hi, rfl⟩ := List.mem_map.1 hc
      have hi := List.mem_range.1 hi
      refine ⟨by simp, ?_⟩
      have h1 : (i + 1) * (n / k) ≤ k * (n / k) := Nat.mul_le_mul_right _ hi
      rw [Nat.succ_mul] at h1
      show i * (n / k) + n / k ≤ n
      omega
    · rw [List.mem_singleton.1 hc]
      exact ⟨by simp, by show k * (n / k) + n % k ≤ n; omega⟩
  · rw [List.map_append, List.flatten_append, hpre]
    simp only [List.map_cons, List.map_nil, List.flatten_cons, List.flatten_nil, List.append_nil, chunkIndices]
    rw [Nat.add_sub_cancel_left, List.range_eq_range', List.range_eq_range']
    conv_rhs => rw [← hdiv]
    rw [← List.range'_append_1]
    simp

/-- A parallel loop whose iterations commute is the sequential loop, for every number of threads and every schedule. -/
theorem parallelFor_eq {act : α → σ → R σ} {sched : List Nat} {n k : Nat} {body : Nat → R (List α)} {f : Nat → List α} {s : σ}
    (hk : 0 < k) (hbody : ∀ i < n, body i = .ok (f i))
    (hcomm : ∀ i < n, ∀ j < n, i ≠ j → ∀ a ∈ f i, ∀ b ∈ f j, Commutes act a b) :
    parallelFor act sched n k body s = ((List.range n).map f).flatten.foldlM (fun s a => act a s) s := by
  obtain ⟨chunks, hc, _, hle, hfl⟩ := parallelChunks_ok (n := n) hk
  have hlt : ∀ c ∈ chunks, ∀ i ∈ chunkIndices c, i < n := by
    intro c hcm i hi
    have := hle c hcm
    simp only [chunkIndices, List.mem_range'_1] at hi
    omega
  rw [parallelFor, hc, R_bind_ok, mapM_ok (g := fun c => ((chunkIndices c).map f).flatten), R_bind_ok, interleave_eq]
  · congr 1
    rw [← hfl]
    have : ∀ l : List (Nat × Nat), (l.map fun c => ((chunkIndices c).map f).flatten).flatten =
        ((l.map chunkIndices).flatten.map f).flatten := by
      intro l
      induction l with
      | nil => rfl
      | cons c l ih => rw [List.map_cons, List.flatten_cons, ih]; simp only [List.map_cons, List.flatten_cons, List.map_append, List.flatten_append]
    exact this chunks
  · have hnd : (chunks.map chunkIndices).flatten.Nodup := by rw [hfl]; exact List.nodup_range
    rw [List.nodup_flatten] at hnd
    have hpw := hnd.2
    rw [List.pairwise_map] at hpw ⊢
    refine hpw.imp_of_mem ?_
    intro c c' hcm hcm' hdisj a ha b hb
    simp only [List.mem_flatten, List.mem_map] at ha hb
    obtain ⟨_, ⟨i, hi, rfl⟩, ha⟩ := ha
    obtain ⟨_, ⟨j, hj, rfl⟩, hb⟩ := hb
    refine hcomm i (hlt c hcm i hi) j (hlt c' hcm' j hj) ?_ a ha b hb
    rintro rfl
    exact hdisj hi hj
  · intro c hcm
    rw [mapM_ok (g := f) _ fun i hi => hbody i (hlt c hcm i hi)]
    rfl

end

/-! ## Pushes and writes -/

theorem actPush_comm {a b : Nat × Nat} (h : a.1 ≠ b.1) : Commutes actPush a b := by
  intro s
  by_cases ha : a.1 < s.length <;> by_cases hb : b.1 < s.length
  · simp [actPush, vGet, ha, hb, h, h.symm, List.set_comm _ _ h]
  · simp [actPush, vGet, ha, hb]
  · simp [actPush, vGet, ha, hb]
  · simp [actPush, vGet, ha, hb]

theorem actWrite_comm {a b : Nat × Nat} (h : a.1 ≠ b.1) : Commutes actWrite a b := by
  intro s
  by_cases ha : a.1 < s.length <;> by_cases hb : b.1 < s.length
  · simp [actWrite, ha, hb, List.set_comm _ _ h]
  · simp [actWrite, ha, hb]
  · simp [actWrite, ha, hb]
  · simp [actWrite, ha, hb]

theorem push_one (pre : List (List Nat)) (post : List (List Nat)) : (out v : List Nat) →
    (out.map fun x => (pre.length, x)).foldlM (fun s a => actPush a s) (pre ++ v :: post) = .ok (pre ++ (v ++ out) :: post)
  | [], v => by simp
  | x :: out, v => by
    rw [List.map_cons, List.foldlM_cons]
    have : actPush (pre.length, x) (pre ++ v :: post) = .ok (pre ++ (v ++ [x]) :: post) := by
      simp [actPush, vGet]
    rw [this, R_bind_ok, push_one pre post out]
    simp

theorem push_all : (outs : List (List Nat)) → (pre : List (List Nat)) →
    ((List.range' pre.length outs.length).map fun t => (outs[t - pre.length]?.getD []).map fun x => (t, x)).flatten.foldlM
      (fun s a => actPush a s) (pre ++ List.replicate outs.length []) = .ok (pre ++ outs)
  | [], pre => by simp
  | out :: outs, pre => by
    rw [List.length_cons, List.range'_succ, List.map_cons, List.flatten_cons, foldlM_append', List.replicate_succ]
    simp only [Nat.sub_self, List.getElem?_cons_zero, Option.getD_some]
    rw [push_one, R_bind_ok, List.nil_append]
    have := push_all outs (pre ++ [out])
    simp only [List.length_append, List.length_cons, List.length_nil, Nat.zero_add, List.append_assoc, List.cons_append, List.nil_append] at this
    rw [← this]
    congr 2
    apply List.map_congr_left
    intro t ht
    rw [List.mem_range'_1] at ht
    rw [show t - pre.length = t - (pre.length + 1) + 1 by omega, List.getElem?_cons_succ]

/-- The results of the threads, whatever the interleaving of their pushes. -/
theorem parallelFor_push {sched : List Nat} {outs : List (List Nat)} {body : Nat → R (List (Nat × Nat))} (hne : outs ≠ [])
    (hbody : ∀ t (h : t < outs.length), body t = .ok (outs[t].map fun x => (t, x))) :
    parallelFor actPush sched outs.length outs.length body (List.replicate outs.length []) = .ok outs := by
  rw [parallelFor_eq (f := fun t => (outs[t]?.getD []).map fun x => (t, x)) (List.length_pos_iff.2 hne)]
  · have := push_all outs []
    simpa [List.range_eq_range'] using this
  · intro t ht
    rw [hbody t ht]
    simp [ht]
  · intro i _ j _ hij a ha b hb
    apply actPush_comm
    simp only [List.mem_map] at ha hb
    obtain ⟨x, _, rfl⟩ := ha
    obtain ⟨y, _, rfl⟩ := hb
    exact hij

theorem write_one (pre post : List Nat) : (v w : List Nat) → v.length = w.length →
    ((List.range' pre.length v.length).zip v).foldlM (fun s a => actWrite a s) (pre ++ w ++ post) = .ok (pre ++ v ++ post)
  | [], [], _ => by simp
  | x :: v, y :: w, h => by
    have hl : v.length = w.length := by simpa using h
    rw [List.length_cons, List.range'_succ, List.zip_cons_cons, List.foldlM_cons]
    have : actWrite (pre.length, x) (pre ++ y :: w ++ post) = .ok (pre ++ [x] ++ w ++ post) := by
      simp [actWrite]
    rw [this, R_bind_ok]
    have := write_one (pre ++ [x]) post v w hl
    simp only [List.length_append, List.length_cons, List.length_nil, Nat.zero_add, List.append_assoc, List.cons_append, List.nil_append] at this ⊢
    exact this
  | [], _ :: _, h => by simp at h
  | _ :: _, [], h => by simp at h

theorem shiftsOf_length : (vs : List (List Nat)) → (sh : Nat) → (shiftsOf vs sh).length = vs.length
  | [], _ => rfl
  | v :: vs, sh => by simp [shiftsOf, shiftsOf_length vs]

theorem shiftsOf_get : (vs : List (List Nat)) → (sh t : Nat) → (h : t < vs.length) →
    (shiftsOf vs sh)[t]? = some (sh + ((vs.take t).map List.length).sum)
  | v :: vs, sh, 0, _ => by simp [shiftsOf]
  | v :: vs, sh, t + 1, h => by
    rw [shiftsOf, List.getElem?_cons_succ, shiftsOf_get vs _ t (by simpa using h)]
    simp [Nat.add_assoc]

/-- The writes of thread `t`. -/
def writesOf (inter : List Nat) (vs : List (List Nat)) (t : Nat) : List (Nat × Nat) :=
  (List.range' (inter.length + ((vs.take t).map List.length).sum) (vs[t]?.getD []).length).zip (vs[t]?.getD [])

theorem write_all : (vs : List (List Nat)) → (pre : List Nat) →
    ((List.range vs.length).map (writesOf pre vs)).flatten.foldlM (fun s a => actWrite a s)
      (pre ++ List.replicate (vs.map List.length).sum 0) = .ok (pre ++ vs.flatten)
  | [], pre => by simp
  | v :: vs, pre => by
    rw [List.length_cons, List.range_succ_eq_map, List.map_cons, List.map_cons, List.flatten_cons, foldlM_append', List.sum_cons,
      List.replicate_add, ← List.append_assoc]
    have h1 : writesOf pre (v :: vs) 0 = (List.range' pre.length v.length).zip v := by simp [writesOf]
    rw [h1, write_one _ _ _ _ (by simp), R_bind_ok]
    have := write_all vs (pre ++ v)
    simp only [List.flatten_cons, ← List.append_assoc] at this ⊢
    rw [← this, List.map_map]
    congr 2
    apply List.map_congr_left
    intro t _
    simp [writesOf, Nat.add_assoc]

theorem writes_disjoint {inter : List Nat} {vs : List (List Nat)} {i j : Nat} (hij : i < j) (hj : j < vs.length) {a b : Nat × Nat}
    (ha : a ∈ writesOf inter vs i) (hb : b ∈ writesOf inter vs j) : a.1 ≠ b.1 := by
  have h1 := (List.of_mem_zip (show (a.1, a.2) ∈ _ from ha)).1
  have h2 := (List.of_mem_zip (show (b.1, b.2) ∈ _ from hb)).1
  rw [List.mem_range'_1] at h1 h2
  have hi : i < vs.length := by omega
  have h3 : ((vs.take (i + 1)).map List.length).sum ≤ ((vs.take j).map List.length).sum := by
    have : vs.take (i + 1) = (vs.take j).take (i + 1) := by rw [List.take_take]; congr 1; omega
    rw [this]
    conv_rhs => rw [← List.take_append_drop (i + 1) (vs.take j), List.map_append, List.sum_append]
    omega
  rw [List.take_add_one, List.map_append, List.sum_append] at h3
  have hv : vs[i]? = some vs[i] := List.getElem?_eq_getElem hi
  rw [hv] at h3 h1
  simp only [Option.toList_some, List.map_cons, List.map_nil, List.sum_cons, List.sum_nil, Option.getD_some] at h3 h1
  omega

theorem zip_shift (sh : Nat) (v : List Nat) :
    ((List.range v.length).zip v).map (fun jx => (jx.1 + sh, jx.2)) = (List.range' sh v.length).zip v := by
  rw [List.range'_eq_map_range, List.zip_map_left]
  apply List.map_congr_left
  rintro ⟨j, x⟩ _
  simp [Nat.add_comm]

/-- Collecting the results, whatever the interleaving of the writes. -/
theorem gather_ok (sched inter : List Nat) (results : List (List Nat)) (hne : results ≠ []) :
    gather sched inter results results.length = .ok (inter ++ results.flatten) := by
  rw [gather]
  split
  · rw [parallelFor_eq (f := writesOf inter results) (List.length_pos_iff.2 hne), Nat.add_sub_cancel_left, write_all]
    · intro t ht
      have h1 : vGet results t = .ok results[t] := by simp [vGet, ht]
      have h2 : vGet (shiftsOf results inter.length) t = .ok (inter.length + ((results.take t).map List.length).sum) := by
        rw [vGet, shiftsOf_get _ _ _ ht]
      rw [h1, h2]
      simp only [R_bind_ok, R_pure, zip_shift]
      simp [writesOf, ht]
    · intro i hi j hj hij a ha b hb
      apply actWrite_comm
      rcases Nat.lt_or_gt_of_ne hij with h | h
      · exact writes_disjoint h hj ha hb
      · exact (writes_disjoint h hi hb ha).symm
  · rfl

end CBT
