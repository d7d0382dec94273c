import Verif.Proof.RunsAnd
import Verif.Proof.Threads
import Mathlib.Data.List.Perm.Subperm

/-!
# `partialAND` and the tasks of the threads
-/

namespace CBT

/-- Member of a tree, with or without collapsed subtrees. -/
def hasS (runs : Bool) (b d : Nat) (t : Tr d) (x : Nat) : Bool := if runs then hasR b d t x else has b d t x

def allS (runs : Bool) (b d : Nat) (ts : List (Tr d)) (x : Nat) : Bool := ts.all fun t => hasS runs b d t x

theorem allS_false {b d : Nat} (ts : List (Tr d)) : allS false b d ts = allHas b d ts := rfl

theorem allS_true {b d : Nat} (ts : List (Tr d)) : allS true b d ts = allO b d (ts.map some) := by
  funext x
  rw [allO, List.all_map]
  rfl

theorem hasS_lo {runs : Bool} {b d : Nat} {t : Tr (d + 1)} {x : Nat} (hx : x < 2 ^ (d + b)) (hb : runs = true → t.bare = false) :
    hasS runs b (d + 1) t x = t.l.any fun s => hasS runs b d s x := by
  cases runs with
  | false => exact has_lo hx
  | true => exact hasR_lo hx (hb rfl)

theorem hasS_hi {runs : Bool} {b d : Nat} {t : Tr (d + 1)} {x : Nat} (hb : runs = true → t.bare = false) :
    hasS runs b (d + 1) t (2 ^ (d + b) + x) = t.r.any fun s => hasS runs b d s x := by
  cases runs with
  | false => exact has_hi
  | true => exact hasR_hi (hb rfl)

theorem allS_lo {runs : Bool} {b d x : Nat} (hx : x < 2 ^ (d + b)) : (ts : List (Tr (d + 1))) →
    (runs = true → ∀ t ∈ ts, t.bare = false) → allS runs b (d + 1) ts x = (allL ts && allS runs b d (lefts ts) x)
  | [], _ => rfl
  | t :: ts, h => by
    have ih := allS_lo hx ts (fun hr t ht => h hr t (by simp [ht]))
    simp only [allS, allL, lefts] at ih ⊢
    rw [List.all_cons, List.all_cons, ih, hasS_lo hx (fun hr => h hr t (by simp)), List.filterMap_cons]
    cases t.l with
    | none => simp
    | some s => simp; cases hasS runs b d s x <;> simp

theorem allS_hi {runs : Bool} {b d x : Nat} : (ts : List (Tr (d + 1))) →
    (runs = true → ∀ t ∈ ts, t.bare = false) → allS runs b (d + 1) ts (2 ^ (d + b) + x) = (allR ts && allS runs b d (rights ts) x)
  | [], _ => rfl
  | t :: ts, h => by
    have ih := allS_hi (b := b) (x := x) ts (fun hr t ht => h hr t (by simp [ht]))
    simp only [allS, allR, rights] at ih ⊢
    rw [List.all_cons, List.all_cons, ih, hasS_hi (fun hr => h hr t (by simp)), List.filterMap_cons]
    cases t.r with
    | none => simp
    | some s => simp; cases hasS runs b d s x <;> simp

theorem enum_allS {runs : Bool} {b d : Nat} (ts : List (Tr (d + 1))) (h : runs = true → ∀ t ∈ ts, t.bare = false) (p : Nat) :
    enum (d + 1 + b) (allS runs b (d + 1) ts) p =
      (if allL ts then enum (d + b) (allS runs b d (lefts ts)) p else []) ++
      (if allR ts then enum (d + b) (allS runs b d (rights ts)) (p + 2 ^ (d + b)) else []) := by
  rw [show d + 1 + b = d + b + 1 by omega, enum_succ, enum_congr (fun x hx => allS_lo hx ts h),
    enum_congr (fun x _ => allS_hi ts h), enum_and, enum_and]

def anyL {d : Nat} (ts : List (Tr (d + 1))) : Bool := ts.any fun t => t.l.isSome
def anyR {d : Nat} (ts : List (Tr (d + 1))) : Bool := ts.any fun t => t.r.isSome

theorem bare_iff {d : Nat} {t : Tr (d + 1)} : t.bare = true ↔ t.l.isSome = false ∧ t.r.isSome = false := by
  simp [Tr.bare]

/-- No node of the first `m` levels lost its children. -/
def Top : (m d : Nat) → Tr d → Prop
  | 0, _, _ => True
  | _ + 1, 0, _ => True
  | m + 1, d + 1, t => Tr.bare t = false ∧ (∀ s, Tr.l t = some s → Top m d s) ∧ (∀ s, Tr.r t = some s → Top m d s)

section
variable {α : Type} (nav : α → Nav) (leaf : α → Nat → Nat → Nat → Prop)

/-- The active flags of `partialAND` are all true; they do not exist when `!runs`. -/
def ActOK (runs : Bool) (n : Nat) (act : List Bool) : Prop := runs = true → n ≤ act.length ∧ ∀ a ∈ act, a = true

theorem partialNodes_reps {runs : Bool} {d ℓ : Nat} : (as : List α) → (ts : List (Tr (d + 1))) → (os : List (Option Nat)) →
    (act : List Bool) → Reps nav leaf (d + 1) ℓ as ts os → ActOK runs as.length act → (A B C D : Bool) →
    ∃ tmp, partialNodes runs (as.map nav) os act ℓ (node2 A B) (node2 C D) =
      .ok (tmp, node2 (A && allL ts) (B && allR ts), node2 (C || (runs && anyL ts)) (D || (runs && anyR ts))) ∧
      ActOK runs as.length tmp
  | [], [], os, act, _, _, A, B, C, D => ⟨[], by simp [partialNodes, allL, allR, anyL, anyR], fun _ => by simp⟩
  | a :: as, t :: ts, some id :: os, act, h, ha, A, B, C, D => by
    cases runs with
    | false =>
      obtain ⟨tmp, e, h1⟩ := partialNodes_reps (runs := false) as ts os act h.2 (fun h => by simp at h)
        (A && t.l.isSome) (B && t.r.isSome) C D
      refine ⟨tmp, ?_, fun h => by simp at h⟩
      rw [List.map_cons, partialNodes.eq_def]
      simp only [readRoot, R_bind_ok, h.1.1, and_node2, Bool.false_eq_true, if_false, e]
      simp [allL, allR, Bool.and_assoc]
    | true =>
      have ha' := ha rfl
      cases act with
      | nil => simp at ha'
      | cons x act =>
        have hx : x = true := ha'.2 x (by simp)
        subst hx
        obtain ⟨tmp, e, h1⟩ := partialNodes_reps (runs := true) as ts os act h.2
          (fun _ => ⟨by simpa using ha'.1, fun a ha => ha'.2 a (by simp [ha])⟩)
          (A && t.l.isSome) (B && t.r.isSome) (C || t.l.isSome) (D || t.r.isSome)
        refine ⟨true :: tmp, ?_, fun _ => ?_⟩
        · rw [List.map_cons, partialNodes]
          simp only [readRoot, R_bind_ok, h.1.1, and_node2, or_node2, if_true, Bool.or_true, e]
          simp [allL, allR, anyL, anyR, Bool.and_assoc, Bool.or_assoc]
        · have h1 := h1 rfl
          exact ⟨by simpa using h1.1, by simpa using h1.2⟩
  | [], _ :: _, _, _, h, _, _, _, _, _ => by simp [Reps] at h
  | _ :: _, [], _, _, h, _, _, _, _, _ => by simp [Reps] at h
  | _ :: _, _ :: _, [], _, h, _, _, _, _, _ => by simp [Reps] at h
  | _ :: _, _ :: _, none :: _, _, h, _, _, _, _, _ => by simp [Reps] at h

/-- The task finds the elements `out`; if `g`, no node of the next `m` levels lost its children. -/
def TaskOK (g : Prop) (m : Nat) (runs : Bool) (as : List α) (b d ℓ : Nat) (t : Task) (out : List Nat) : Prop :=
  ∃ ts, Reps nav leaf d ℓ as ts t.roots ∧ ActOK runs as.length t.active ∧ 2 ^ (d + b) ∣ t.part ∧
    out = enum (d + b) (allS runs b d ts) t.part ∧ (g → ∀ t ∈ ts, Top m d t)

theorem subperm_split {A B l1 l2 m1 m2 : List Nat} (h1 : (l1 ++ m1).Subperm A) (h2 : (l2 ++ m2).Subperm B) :
    ((l1 ++ l2) ++ (m1 ++ m2)).Subperm (A ++ B) := by
  have hp : ((l1 ++ l2) ++ (m1 ++ m2)).Perm ((l1 ++ m1) ++ (l2 ++ m2)) := by
    simp only [List.append_assoc]
    apply List.Perm.append_left
    rw [← List.append_assoc, ← List.append_assoc]
    exact List.Perm.append_right _ List.perm_append_comm
  exact hp.subperm.trans (h1.append h2)

theorem mem_lefts {d : Nat} {ts : List (Tr (d + 1))} {s : Tr d} : s ∈ lefts ts ↔ ∃ t ∈ ts, t.l = some s := List.mem_filterMap
theorem mem_rights {d : Nat} {ts : List (Tr (d + 1))} {s : Tr d} : s ∈ rights ts ↔ ∃ t ∈ ts, t.r = some s := List.mem_filterMap

theorem partialAND_reps {g : Prop} {m : Nat} {runs : Bool} {as : List α} {c : Cfg} {b : Nat} (htop : c.top < 64) :
    ∀ (k d ℓ : Nat) (ts : List (Tr (d + k))) (os : List (Option Nat)) (act : List Bool) (part : Nat) (s : PSt),
    Reps nav leaf (d + k) ℓ as ts os → ActOK runs as.length act → c.top = ℓ + (d + k) + b → 2 ^ (d + k + b) ∣ part →
    (g → ∀ t ∈ ts, Top (m + k) (d + k) t) →
    ∃ rr new outs, partialAND (as.map nav) c runs k ℓ os act part s = .ok ⟨s.r ++ rr, s.tasks ++ new⟩ ∧
      List.Forall₂ (TaskOK nav leaf g m runs as b d (ℓ + k)) new outs ∧ new.length ≤ 2 ^ k ∧
      (rr ++ outs.flatten).Subperm (enum (d + k + b) (allS runs b (d + k) ts) part) ∧
      ((runs = true → g) → as ≠ [] → rr = [] ∧ outs.flatten = enum (d + k + b) (allS runs b (d + k) ts) part) := by
  intro k
  induction k with
  | zero =>
    intro d ℓ ts os act part s hr ha ht hd hg
    have e : enum (d + 0 + b) (allS runs b (d + 0) ts) part = [enum (d + b) (allS runs b d ts) part].flatten := by simp
    refine ⟨[], [⟨part, os.take (as.map nav).length, if runs then act.take (as.map nav).length else []⟩],
      [enum (d + b) (allS runs b d ts) part], ?_, .cons ⟨ts, ?_, ?_, hd, rfl, hg⟩ .nil, by simp, ?_, ?_⟩
    · rw [partialAND, List.append_nil, if_neg]
      rintro (h | ⟨h1, h2⟩)
      · rw [List.length_map] at h
        have := hr.length_le
        omega
      · rw [List.length_map] at h2
        have := (ha h1).1
        omega
    · simpa using hr.take
    · intro h
      have := ha h
      simp only [h, if_true, List.length_map]
      exact ⟨by simpa using this.1, fun a ha => this.2 a (List.mem_of_mem_take ha)⟩
    · rw [e]; exact List.Subperm.refl _
    · intro _ _; exact ⟨rfl, e.symm⟩
  | succ k ih =>
    intro d ℓ ts os act part s hr ha ht hd hg
    have hd' : 2 ^ (d + k + b + 1) ∣ part := by rwa [show d + k + b + 1 = d + (k + 1) + b by omega]
    have hs : shl1 (c.top - ℓ - 1) = .ok (2 ^ (d + k + b)) := by
      rw [ht, show ℓ + (d + (k + 1)) + b - ℓ - 1 = d + k + b by omega]; exact shl1_ok (by omega)
    obtain ⟨tmp, h3, hat⟩ := partialNodes_reps (d := d + k) nav leaf as ts os act hr ha true true false false
    rw [Bool.true_and, Bool.true_and, Bool.false_or, Bool.false_or, node2_tt, node2_ff] at h3
    rw [partialAND, h3]
    simp only [R_bind_ok, hs, or_two_pow hd']
    have hlen : ∀ {l m : List Task}, l.length ≤ 2 ^ k → m.length ≤ 2 ^ k → (l ++ m).length ≤ 2 ^ (k + 1) := by
      intro l m h1 h2; rw [List.length_append, Nat.pow_succ]; omega
    -- a common full range
    by_cases hfull : runs = true ∧ anyL (d := d + k) ts = false ∧ anyR (d := d + k) ts = false
    · obtain ⟨hru, h1, h2⟩ := hfull
      subst hru
      have hbare : ∀ t ∈ ts, Tr.bare (d := d + k) t = true := by
        intro t htm
        simp only [anyL, anyR, List.any_eq_false, Bool.not_eq_true] at h1 h2
        exact bare_iff.2 ⟨h1 t htm, h2 t htm⟩
      have hall : ∀ x, allS true b (d + (k + 1)) ts x = true := by
        intro x
        simp only [allS, List.all_eq_true]
        exact fun t htm => hasR_bare (d := d + k) (hbare t htm)
      simp only [Bool.true_and, h1, h2, node2_ff, Bool.not_true, Bool.false_eq_true, false_and, if_false, and_self, if_true]
      rw [ht, show ℓ + (d + (k + 1)) + b - ℓ = d + (k + 1) + b by omega, fillRange_ok s.r (by omega) hd (fun x _ => hall x)]
      refine ⟨enum (d + (k + 1) + b) (allS true b (d + (k + 1)) ts) part, [], [], by rw [R_bind_ok, List.append_nil], .nil, by simp, by rw [List.flatten_nil, List.append_nil], ?_⟩
      intro htk hne
      cases ts with
      | nil => cases as with
        | nil => exact (hne rfl).elim
        | cons _ _ => simp [Reps] at hr
      | cons t ts =>
        have := (hg (htk (by trivial)) t (by simp)).1
        rw [hbare t (by simp)] at this
        simp at this
    · have hn00 : ¬(runs = true ∧ node2 (runs && anyL (d := d + k) ts) (runs && anyR (d := d + k) ts) = 0) := by
        rintro ⟨h1, h2⟩
        rw [h1, Bool.true_and, Bool.true_and, node2_eq_zero] at h2
        exact hfull ⟨h1, h2⟩
      simp only [hn00, if_false]
      -- nothing in common, or lost
      by_cases hres : allL (d := d + k) ts = false ∧ allR (d := d + k) ts = false
      · simp only [hres.1, hres.2, node2_ff, Nat.reduceEqDiff, if_false, ite_self]
        refine ⟨[], [], [], by simp, .nil, by simp, by simp, ?_⟩
        intro htk _
        refine ⟨rfl, ?_⟩
        refine Eq.trans ?_ (enum_allS (d := d + k) ts (fun h t htm => (hg (htk h) t htm).1) part).symm
        simp [hres.1, hres.2]
      · have hnb : runs = true → ∀ t ∈ ts, Tr.bare (d := d + k) t = false := by
          intro _ t htm
          by_contra hb
          rw [Bool.not_eq_false, bare_iff] at hb
          apply hres
          constructor
          · exact List.all_eq_false.2 ⟨t, htm, by simp [hb.1]⟩
          · exact List.all_eq_false.2 ⟨t, htm, by simp [hb.2]⟩
        have hen : enum (d + (k + 1) + b) (allS runs b (d + (k + 1)) ts) part =
            (if allL (d := d + k) ts then enum (d + k + b) (allS runs b (d + k) (lefts ts)) part else []) ++
            (if allR (d := d + k) ts then enum (d + k + b) (allS runs b (d + k) (rights ts)) (part + 2 ^ (d + k + b)) else []) :=
          enum_allS (d := d + k) ts hnb part
        have htl : g → ∀ t ∈ lefts (d := d + k) ts, Top (m + k) (d + k) t := by
          intro h t ht
          obtain ⟨t', h1, h2⟩ := mem_lefts.1 ht
          exact (hg h t' h1).2.1 t h2
        have htr : g → ∀ t ∈ rights (d := d + k) ts, Top (m + k) (d + k) t := by
          intro h t ht
          obtain ⟨t', h1, h2⟩ := mem_rights.1 ht
          exact (hg h t' h1).2.2 t h2
        cases hL : allL (d := d + k) ts with
        | false =>
          cases hR : allR (d := d + k) ts with
          | false => exact (hres ⟨hL, hR⟩).elim
          | true =>
            obtain ⟨cs, e1, h1⟩ := children_right (d := d + k) nav leaf as ts os hr hR
            simp only [node2_ft, Nat.reduceEqDiff, one_ne_zero, and_false, if_false, if_true, e1, R_bind_ok]
            obtain ⟨rr, new, outs, e2, h4, h5, h6, h7⟩ := ih d (ℓ + 1) _ cs tmp _ s h1 hat (by omega) (dvd_hi hd') htr
            rw [hL, hR] at hen
            rw [if_neg (by simp), if_pos rfl, List.nil_append] at hen
            refine ⟨rr, new, outs, e2, by rwa [show ℓ + (k + 1) = ℓ + 1 + k by omega],
              h5.trans (Nat.pow_le_pow_right (by omega) (by omega)), hen ▸ h6, fun h hne => ?_⟩
            rw [hen]
            exact h7 h hne
        | true =>
          obtain ⟨cs, e1, h1, h2⟩ := children_left (d := d + k) nav leaf as ts os hr hL
          obtain ⟨rr, new, outs, e2, h4, h5, h6, h7⟩ := ih d (ℓ + 1) _ cs tmp part s h1 hat (by omega) (dvd_lo hd') htl
          cases hR : allR (d := d + k) ts with
          | false =>
            simp only [node2_tf, Nat.reduceEqDiff, OfNat.ofNat_ne_zero, and_false, if_false, if_true, e1, R_bind_ok]
            rw [hL, hR] at hen
            rw [if_pos rfl, if_neg (by simp), List.append_nil] at hen
            refine ⟨rr, new, outs, e2, by rwa [show ℓ + (k + 1) = ℓ + 1 + k by omega],
              h5.trans (Nat.pow_le_pow_right (by omega) (by omega)), hen ▸ h6, fun h hne => ?_⟩
            rw [hen]
            exact h7 h hne
          | true =>
            simp only [node2_tt, Nat.reduceEqDiff, OfNat.ofNat_ne_zero, and_false, if_false, if_true, e1, R_bind_ok, e2]
            obtain ⟨rr', new', outs', e2', h4', h5', h6', h7'⟩ := ih d (ℓ + 1) _ _ tmp _ ⟨s.r ++ rr, s.tasks ++ new⟩ (h2 hR) hat
              (by omega) (dvd_hi hd') htr
            rw [hL, hR] at hen
            rw [if_pos rfl, if_pos rfl] at hen
            refine ⟨rr ++ rr', new ++ new', outs ++ outs', by rw [e2']; simp, ?_, hlen h5 h5', ?_, fun h hne => ?_⟩
            · rw [show ℓ + (k + 1) = ℓ + 1 + k by omega]
              exact List.rel_append h4 h4'
            · rw [hen, List.flatten_append]
              exact subperm_split h6 h6'
            · rw [hen, List.flatten_append, (h7 h hne).1, (h7' h hne).1, (h7 h hne).2, (h7' h hne).2]
              simp

end

end CBT
