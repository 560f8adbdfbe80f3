import Verif.Lemmas.Basic
/-!
# Normal forms of the `NoditMap` operations on a chain
-/
namespace Nodit
open Spec PointType

section Comparators
variable {I K Q V : Type} [PointType I] [IntervalType I K] [IntervalType I Q]

theorem overlappingComp_gt {p : I} {k : K} (hk : start k ≤ stop k) :
    overlappingComp p k = .gt ↔ stop k < p := by
  unfold overlappingComp cmpPointWithInterval inclusiveComp; grind

theorem overlappingComp_lt {p : I} {k : K} : overlappingComp p k = .lt ↔ p < start k := by
  unfold overlappingComp cmpPointWithInterval inclusiveComp; grind

theorem overlappingComp_eq {p : I} {k : K} : overlappingComp p k = .eq ↔ start k ≤ p ∧ p ≤ stop k := by
  unfold overlappingComp cmpPointWithInterval inclusiveComp; grind

theorem startsComp_gt {n k : K} : startsComp n k = .gt ↔ start k < start n := compare_gt_iff_gt
theorem startsComp_lt {n k : K} : startsComp n k = .lt ↔ start n < start k := compare_lt_iff_lt
theorem startsComp_eq {n k : K} : startsComp n k = .eq ↔ start n = start k := compare_eq_iff_eq

theorem touchingStartComp_eq {s : I} {k : K} : touchingStartComp s k = .eq ↔ up (stop k) = some s := by
  unfold touchingStartComp
  cases h : up (stop k) with
  | none => simp
  | some t => simp only [Option.some.injEq]; rw [compare_eq_iff_eq, eq_comm]

theorem gt_beq {p : I} {k : K} (hk : start k ≤ stop k) :
    (overlappingComp p k == .gt) = decide (stop k < p) := by
  rw [Bool.eq_iff_iff]
  simp [overlappingComp_gt hk]

theorem ne_lt_iff {p : I} {k : K} : (overlappingComp p k != .lt) = decide (start k ≤ p) := by
  rw [Bool.eq_iff_iff]
  simp [overlappingComp_lt]

variable [LawfulPoint I]

theorem touchingStartComp_ne_gt {s : I} {k : K} : touchingStartComp s k ≠ .gt ↔ s ≤ stop k ∨
    up (stop k) = some s := by
  unfold touchingStartComp
  cases h : up (stop k) with
  | none => simp [LawfulPoint.up_none _ h s]
  | some t =>
    obtain ⟨h1, h2⟩ := up_eq_some.1 h
    simp only [ne_eq, compare_gt_iff_gt, not_lt, Option.some.injEq]
    constructor
    · intro h3
      rcases lt_or_ge (stop k) s with h4 | h4
      · right; exact le_antisymm (h2 s h4) h3
      · exact Or.inl h4
    · rintro (h3 | h3) <;> order

theorem touchingEndComp_eq {e : I} {k : K} : touchingEndComp e k = .eq ↔ up e = some (start k) := by
  rw [up_eq_some_iff_down]
  unfold touchingEndComp
  cases h : down (start k) with
  | none => simp
  | some t => simp only [Option.some.injEq]; rw [compare_eq_iff_eq, eq_comm]

theorem touchingEndComp_ne_gt {e : I} {k : K} : touchingEndComp e k ≠ .gt ↔ e < start k := by
  unfold touchingEndComp
  cases h : down (start k) with
  | none => simp [LawfulPoint.down_none _ h e]
  | some t =>
    obtain ⟨h1, h2⟩ := down_eq_some.1 h
    simp only [ne_eq, compare_gt_iff_gt, not_lt]
    exact ⟨fun h3 => lt_of_le_of_lt h3 h1, h2 e⟩
end Comparators

namespace BTree
variable {K V : Type} {c : K → Ordering} {l : List (K × V)}

theorem find_eq_some (h : l.Pairwise (fun a b => c a.1 ≠ .gt → c b.1 ≠ .eq)) {e : K × V} :
    find c l = some e ↔ e ∈ l ∧ c e.1 = .eq := by
  induction l with
  | nil => simp [find]
  | cons a l ih =>
    rw [List.pairwise_cons] at h
    have ih := ih h.2
    have h1 := h.1
    unfold find
    cases hc : c a.1 with
    | gt => grind
    | eq => grind
    | lt => grind

theorem find_eq_none (h : l.Pairwise (fun a b => c a.1 ≠ .gt → c b.1 ≠ .eq)) :
    find c l = none ↔ ∀ e ∈ l, c e.1 ≠ .eq := by
  constructor
  · intro hn e he hc
    have := (find_eq_some h).2 ⟨he, hc⟩
    rw [hn] at this; cases this
  · intro hn
    cases hf : find c l with
    | none => rfl
    | some e => exact absurd ((find_eq_some h).1 hf).2 (hn e ((find_eq_some h).1 hf).1)

theorem remove_eq (h : l.Pairwise (fun a b => c a.1 ≠ .gt → c b.1 ≠ .eq)) :
    remove c l = l.filter (fun e => c e.1 != .eq) := by
  induction l with
  | nil => rfl
  | cons a l ih =>
    rw [List.pairwise_cons] at h
    have ih := ih h.2
    have h1 : c a.1 ≠ .gt → l.filter (fun e => c e.1 != .eq) = l := fun hc => by
      rw [List.filter_eq_self]; intro b hb; simpa using h.1 b hb hc
    unfold remove
    cases hc : c a.1 with
    | gt => simp [hc, ih]
    | eq => simp [hc, h1]
    | lt => simp [hc, h1]

theorem modify_eq (h : l.Pairwise (fun a b => c a.1 ≠ .gt → c b.1 ≠ .eq)) (f : K → V → V) :
    modify c f l = l.map (fun e => (e.1, if c e.1 = .eq then f e.1 e.2 else e.2)) := by
  induction l with
  | nil => rfl
  | cons a l ih =>
    rw [List.pairwise_cons] at h
    have ih := ih h.2
    have h1 : c a.1 ≠ .gt → l.map (fun e => (e.1, if c e.1 = .eq then f e.1 e.2 else e.2)) = l :=
      fun hc => by
        conv_rhs => rw [← List.map_id l]
        apply List.map_congr_left
        intro b hb
        simp [h.1 b hb hc]
    unfold modify
    cases hc : c a.1 with
    | gt => simp [hc, ih]
    | eq => simp [hc, h1]
    | lt => simp [hc, h1]
end BTree

section
variable {I K Q V : Type} [PointType I] [IntervalType I K] [IntervalType I Q]

theorem invalidIntervalPanic_ok {q : Q} (h : start q ≤ stop q) : invalidIntervalPanic q = .ok () := by
  simp [invalidIntervalPanic, InclusiveInterval.isValid, h]

theorem invalidIntervalPanic_err {q : Q} (h : ¬ start q ≤ stop q) :
    invalidIntervalPanic q = .error .invalidInterval := by
  simp [invalidIntervalPanic, InclusiveInterval.isValid, not_le.1 h]

theorem containsPointU_iff {k : K} {p : I} : containsPointU k p = true ↔ start k ≤ p ∧ p ≤ stop k := by
  unfold containsPointU
  rw [Ordering.isEq_iff_eq_eq]
  exact overlappingComp_eq

theorem config_ok {a : K} {b : Q} (ha : start a ≤ stop a) (hb : start b ≤ stop b) :
    config a b = .ok (
      if start a < start b then
        if stop a < start b then .leftFirstNonOverlapping
        else if stop a < stop b then .leftFirstPartialOverlap
        else .leftContainsRight
      else
        if stop b < start a then .rightFirstNonOverlapping
        else if stop b < stop a then .rightFirstPartialOverlap
        else .rightContainsLeft) := by
  unfold config
  have h1 := @containsPointU_iff I K _ _ a (start b)
  have h2 := @containsPointU_iff I K _ _ a (stop b)
  have h3 := @containsPointU_iff I Q _ _ b (start a)
  have h4 := @containsPointU_iff I Q _ _ b (stop a)
  by_cases h : start a < start b
  · simp only [h, if_true]
    cases hc1 : containsPointU a (start b) <;> cases hc2 : containsPointU a (stop b) <;>
      simp only [hc1, hc2, Bool.false_eq_true, false_iff, true_iff, not_and, not_le] at h1 h2 <;> grind
  · simp only [h, if_false]
    cases hc1 : containsPointU b (start a) <;> cases hc2 : containsPointU b (stop a) <;>
      simp only [hc1, hc2, Bool.false_eq_true, false_iff, true_iff, not_and, not_le] at h3 h4 <;> grind

theorem overlaps_ok {a : K} {b : Q} (ha : start a ≤ stop a) (hb : start b ≤ stop b) :
    InclusiveInterval.overlaps a b = .ok (decide (start a ≤ stop b ∧ start b ≤ stop a)) := by
  unfold InclusiveInterval.overlaps sortedConfig
  rw [config_ok ha hb]
  simp only [bind, Except.bind, pure, Except.pure]
  split_ifs <;> simp <;> grind
end


section
variable {I K Q V : Type} [PointType I] [IntervalType I K] [IntervalType I Q] {l : List (K × V)}

theorem Chain.search_overlapping (h : Chain l) (p : I) :
    l.Pairwise (fun a b => overlappingComp p a.1 ≠ .gt → overlappingComp p b.1 ≠ .eq) := by
  refine List.Pairwise.imp_of_mem ?_ h.2
  intro a b ha hb hab h1 h2
  rw [Ne, overlappingComp_gt (h.1 a ha)] at h1
  rw [overlappingComp_eq] at h2
  order

theorem Chain.search_touchingStart [LawfulPoint I] (h : Chain l) (s : I) :
    l.Pairwise (fun a b => touchingStartComp s a.1 ≠ .gt → touchingStartComp s b.1 ≠ .eq) := by
  refine List.Pairwise.imp_of_mem ?_ h.2
  intro a b ha hb hab h1 h2
  rw [touchingStartComp_ne_gt, up_eq_some] at h1
  rw [touchingStartComp_eq, up_eq_some] at h2
  have := h.1 a ha
  have := h.1 b hb
  rcases h1 with h1 | ⟨h1, h3⟩
  · order
  · have := h3 _ hab; order

theorem Chain.search_touchingEnd [LawfulPoint I] (h : Chain l) (s : I) :
    l.Pairwise (fun a b => touchingEndComp s a.1 ≠ .gt → touchingEndComp s b.1 ≠ .eq) := by
  refine List.Pairwise.imp_of_mem ?_ h.2
  intro a b ha hb hab h1 h2
  rw [touchingEndComp_ne_gt] at h1
  rw [touchingEndComp_eq, up_eq_some] at h2
  have := h.1 a ha
  have := h2.2 _ h1
  order

/-- the Boolean overlap test on ends -/
def ovl (q : Q) (e : K × V) : Bool := decide (start e.1 ≤ stop q ∧ start q ≤ stop e.1)

theorem ovl_iff {q : Q} {e : K × V} (hq : start q ≤ stop q) (he : start e.1 ≤ stop e.1) :
    ovl q e = true ↔ Overlap e.1 q := by
  rw [overlap_iff he hq]; simp [ovl]

theorem Chain.dropWhile_gt (h : Chain l) (p : I) :
    l.dropWhile (fun e => overlappingComp p e.1 == .gt) = l.filter (fun e => decide (p ≤ stop e.1)) := by
  rw [dropWhile_eq_filter]
  · apply List.filter_congr
    intro e he
    rw [gt_beq (h.1 e he), ← decide_not]
    simp only [not_lt]
  · refine List.Pairwise.imp_of_mem ?_ h.2
    intro a b ha hb hab
    simp only [beq_iff_eq, overlappingComp_gt (h.1 a ha), overlappingComp_gt (h.1 b hb)]
    have := h.1 a ha; have := h.1 b hb; intro; order

theorem Chain.takeWhile_gt (h : Chain l) (p : I) :
    l.takeWhile (fun e => overlappingComp p e.1 == .gt) = l.filter (fun e => decide (stop e.1 < p)) := by
  rw [takeWhile_eq_filter]
  · apply List.filter_congr
    intro e he
    rw [gt_beq (h.1 e he)]
  · refine List.Pairwise.imp_of_mem ?_ h.2
    intro a b ha hb hab
    simp only [beq_iff_eq, overlappingComp_gt (h.1 a ha), overlappingComp_gt (h.1 b hb)]
    have := h.1 a ha; have := h.1 b hb; intro; order

theorem Chain.takeWhile_ne_lt (h : Chain l) (p : I) :
    l.takeWhile (fun e => overlappingComp p e.1 != .lt) = l.filter (fun e => decide (start e.1 ≤ p)) := by
  rw [takeWhile_eq_filter]
  · exact List.filter_congr fun e _ => ne_lt_iff
  refine List.Pairwise.imp_of_mem ?_ h.2
  intro a b ha hb hab
  simp only [ne_lt_iff, decide_eq_true_eq]
  have := h.1 a ha; have := h.1 b hb; intro; order

theorem Chain.dropWhile_ne_lt (h : Chain l) (p : I) :
    l.dropWhile (fun e => overlappingComp p e.1 != .lt) = l.filter (fun e => decide (p < start e.1)) := by
  rw [dropWhile_eq_filter]
  · apply List.filter_congr
    intro e he
    rw [ne_lt_iff, ← decide_not]
    simp only [not_le]
  · refine List.Pairwise.imp_of_mem ?_ h.2
    intro a b ha hb hab
    simp only [ne_lt_iff, decide_eq_true_eq]
    have := h.1 a ha; have := h.1 b hb; intro; order

theorem Chain.range_eq (h : Chain l) (s e : I) :
    BTree.range (overlappingComp s) (overlappingComp e) l =
      l.filter (fun x => decide (start x.1 ≤ e ∧ s ≤ stop x.1)) := by
  unfold BTree.range
  rw [h.dropWhile_gt, (h.filter _).takeWhile_ne_lt, List.filter_filter]
  apply List.filter_congr
  intro x _
  simp

theorem Chain.rangeMut_eq (h : Chain l) (s e : I) (f : K → V → V) :
    BTree.rangeMut (overlappingComp s) (overlappingComp e) f l =
      l.map (fun x => (x.1, if start x.1 ≤ e ∧ s ≤ stop x.1 then f x.1 x.2 else x.2)) := by
  unfold BTree.rangeMut
  simp only
  rw [h.takeWhile_gt, h.dropWhile_gt, (h.filter _).takeWhile_ne_lt, (h.filter _).dropWhile_ne_lt]
  set F : K × V → K × V := fun x => (x.1, if start x.1 ≤ e ∧ s ≤ stop x.1 then f x.1 x.2 else x.2)
  have e1 : l.filter (fun e => decide (stop e.1 < s)) = (l.filter (fun e => decide (stop e.1 < s))).map F := by
    conv_lhs => rw [← List.map_id (l.filter _)]
    apply List.map_congr_left
    intro x hx
    have := (List.mem_filter.1 hx).2
    simp only [decide_eq_true_eq] at this
    simp [F, not_le.2 this]
  have e3 : List.filter (fun x => decide (e < start x.1)) (l.filter (fun x => decide (s ≤ stop x.1))) =
      (List.filter (fun x => decide (e < start x.1)) (l.filter (fun x => decide (s ≤ stop x.1)))).map F := by
    conv_lhs => rw [← List.map_id (List.filter _ (l.filter _))]
    apply List.map_congr_left
    intro x hx
    have := (List.mem_filter.1 hx).2
    simp only [decide_eq_true_eq] at this
    simp [F, not_le.2 this]
  have e2 : (List.filter (fun x => decide (start x.1 ≤ e)) (l.filter (fun x => decide (s ≤ stop x.1)))).map
        (fun e => (e.1, f e.1 e.2)) =
      (List.filter (fun x => decide (start x.1 ≤ e)) (l.filter (fun x => decide (s ≤ stop x.1)))).map F := by
    apply List.map_congr_left
    intro x hx
    rw [List.mem_filter, List.mem_filter] at hx
    simp only [decide_eq_true_eq] at hx
    simp [F, hx.2, hx.1.2]
  rw [e1, e2, e3, ← List.map_append, ← List.map_append, List.append_assoc]
  congr 1
  have h1 : (l.filter (fun x => decide (s ≤ stop x.1))).Pairwise
      (fun a b => decide (start b.1 ≤ e) = true → decide (start a.1 ≤ e) = true) := by
    refine List.Pairwise.imp_of_mem ?_ (h.filter _).2
    intro a b ha hb hab
    simp only [decide_eq_true_eq]
    have := (h.filter _).1 a ha; have := (h.filter _).1 b hb; intro; order
  have h2 := filter_append_filter_not h1
  simp only [← decide_not, not_le] at h2
  rw [h2]
  have h3 : l.Pairwise (fun a b => decide (stop b.1 < s) = true → decide (stop a.1 < s) = true) := by
    refine List.Pairwise.imp_of_mem ?_ h.2
    intro a b ha hb hab
    simp only [decide_eq_true_eq]
    have := h.1 a ha; have := h.1 b hb; intro; order
  have h4 := filter_append_filter_not h3
  simp only [← decide_not, not_lt] at h4
  exact h4

namespace NoditMap
variable {m : NoditMap K V} {q : Q}

theorem overlapping_ok (h : Chain m.inner) (hq : start q ≤ stop q) :
    m.overlapping q = .ok (m.inner.filter (ovl q)) := by
  unfold overlapping
  rw [invalidIntervalPanic_ok hq, h.range_eq]
  rfl

theorem overlaps_ok (h : Chain m.inner) (hq : start q ≤ stop q) :
    m.overlaps q = .ok (m.inner.any (ovl q)) := by
  unfold overlaps
  rw [invalidIntervalPanic_ok hq, overlapping_ok h hq]
  simp only [bind, Except.bind, pure, Except.pure, Except.ok.injEq]
  rw [Bool.eq_iff_iff, List.any_eq_true]
  cases hl : m.inner.filter (ovl q) with
  | nil =>
    rw [List.filter_eq_nil_iff] at hl
    simp; grind
  | cons a t =>
    have := List.mem_filter.1 (show a ∈ m.inner.filter (ovl q) by rw [hl]; simp)
    simp
    exact ⟨a.1, a.2, this.1, this.2⟩

theorem overlappingMut_ok (h : Chain m.inner) (hq : start q ≤ stop q) (f : K → V → V) :
    m.overlappingMut q f = .ok ⟨m.inner.map (fun x => (x.1, if ovl q x then f x.1 x.2 else x.2))⟩ := by
  unfold overlappingMut
  rw [invalidIntervalPanic_ok hq, h.rangeMut_eq]
  simp [ovl, bind, Except.bind, pure, Except.pure]

theorem removeLoop_ok {l : List (K × V)} (h : Chain l) (hq : start q ≤ stop q)
    (hl : ∀ e ∈ l, start q ≤ stop e.1) :
    removeLoop q l = .ok (l.filter (ovl q), l.filter (fun e => !ovl q e)) := by
  induction l with
  | nil => rfl
  | cons e l ih =>
    rw [Chain.cons] at h
    have hle : start q ≤ stop e.1 := hl e (by simp)
    unfold removeLoop
    rw [Nodit.overlaps_ok hq h.1]
    simp only [bind, Except.bind, pure, Except.pure]
    by_cases ho : start e.1 ≤ stop q
    · have : ovl q e = true := by simp [ovl, ho, hle]
      simp [ho, hle, this, ih h.2.2 (fun x hx => hl x (by simp [hx]))]
    · have : ovl q e = false := by simp [ovl, ho]
      have h1 : l.filter (ovl q) = [] := by
        rw [List.filter_eq_nil_iff]
        intro x hx
        have := h.2.1 x hx
        have := h.1
        simp only [ovl, decide_eq_true_eq, not_and]
        intro; order
      have h2 : l.filter (fun e => !ovl q e) = l := by
        rw [List.filter_eq_self]
        intro x hx
        have := h.2.1 x hx
        have := h.1
        simp only [ovl, Bool.not_eq_true', decide_eq_false_iff_not, not_and]
        intro; order
      simp [ho, this, h1, h2]

theorem _root_.Nodit.Chain.split (h : Chain l) (p : I) :
    l.filter (fun e => decide (stop e.1 < p)) ++ l.filter (fun e => decide (p ≤ stop e.1)) = l := by
  have h3 : l.Pairwise (fun a b => decide (stop b.1 < p) = true → decide (stop a.1 < p) = true) := by
    refine List.Pairwise.imp_of_mem ?_ h.2
    intro a b ha hb hab
    simp only [decide_eq_true_eq]
    have := h.1 a ha; have := h.1 b hb; intro; order
  have h4 := filter_append_filter_not h3
  simp only [← decide_not, not_lt] at h4
  exact h4

theorem removeOverlapping_ok (h : Chain m.inner) (hq : start q ≤ stop q) :
    m.removeOverlapping q = .ok (⟨m.inner.filter (fun e => !ovl q e)⟩, m.inner.filter (ovl q)) := by
  unfold removeOverlapping BTree.lowerBound
  rw [invalidIntervalPanic_ok hq, h.takeWhile_gt, h.dropWhile_gt]
  simp only [bind, Except.bind, pure, Except.pure]
  rw [removeLoop_ok (h.filter _) hq]
  · simp only [Except.ok.injEq, Prod.mk.injEq, mk.injEq]
    constructor
    · have : m.inner.filter (fun e => decide (stop e.1 < start q)) =
          (m.inner.filter (fun e => decide (stop e.1 < start q))).filter (fun e => !ovl q e) := by
        rw [eq_comm, List.filter_eq_self]
        intro x hx
        have := (List.mem_filter.1 hx).2
        simp only [decide_eq_true_eq] at this
        simp [ovl, not_le.2 this]
      rw [this, ← List.filter_append, h.split]
    · rw [List.filter_filter]
      apply List.filter_congr
      intro x hx
      simp [ovl]
  · intro e he; simpa using (List.mem_filter.1 he).2
end NoditMap
end
end Nodit
