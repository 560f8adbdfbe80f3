import Verif.Lemmas.Map
/-!
# `cut` and inserts on a chain
-/
set_option linter.unusedSectionVars false
set_option linter.unusedSimpArgs false
namespace Nodit
open Spec PointType

section
variable {I K Q V : Type} [PointType I] [IntervalType I K] [IntervalType I Q]

/-- the parts of an entry that `cut` leaves -/
def cutOut (q : Q) (e : K × V) : List (K × V) :=
  if ovl q e then
    (if start e.1 < start q then
      (match down (start q) with | some d => [(ofInterval ⟨start e.1, d⟩, e.2)] | none => []) else []) ++
    (if stop q < stop e.1 then
      (match up (stop q) with | some u => [(ofInterval ⟨u, stop e.1⟩, e.2)] | none => []) else [])
  else [e]

/-- the part of an entry that `cut` returns -/
def cutIn (q : Q) (e : K × V) : List (K × V) :=
  if ovl q e then [(ofInterval ⟨max (start e.1) (start q), min (stop e.1) (stop q)⟩, e.2)] else []

variable [LawfulPoint I]

theorem cutInterval_ok {e : K} {q : Q} (he : start e ≤ stop e) (hq : start q ≤ stop q)
    (ho : start e ≤ stop q ∧ start q ≤ stop e) :
    cutInterval e q = .ok {
      beforeCut := if start e < start q then (down (start q)).map (fun d => ⟨start e, d⟩) else none
      insideCut := some ⟨max (start e) (start q), min (stop e) (stop q)⟩
      afterCut := if stop q < stop e then (up (stop q)).map (fun u => ⟨u, stop e⟩) else none } := by
  obtain ⟨ho1, ho2⟩ := ho
  unfold cutInterval cutIntervalRaw
  rw [config_ok he hq]
  simp only [bind, Except.bind, pure, Except.pure]
  by_cases h1 : start e < start q
  · obtain ⟨d, hd, hd1, hd2, -⟩ := down_exists h1
    simp only [h1, if_true, not_lt.2 ho2, if_false, hd]
    rw [max_eq_right h1.le]
    by_cases h2 : stop e < stop q
    · have h3 : ¬ stop q < stop e := not_lt.2 h2.le
      simp only [h2, if_true, unwrap, h3, if_false]
      rw [min_eq_left h2.le]
      simp [InclusiveInterval.isValid, start, stop, hd2, ho2]
    · simp only [h2, if_false, unwrap]
      rw [min_eq_right (not_lt.1 h2)]
      by_cases h3 : stop q < stop e
      · obtain ⟨u, hu, hu1, hu2, -⟩ := up_exists h3
        simp [InclusiveInterval.isValid, start, stop, hd2, hq, hu, hu2, h3]
      · have h4 : stop q = stop e := le_antisymm (not_lt.1 h2) (not_lt.1 h3)
        cases hu : up (stop q) with
        | none => simp [InclusiveInterval.isValid, start, stop, hd2, hq, h3]
        | some u =>
          obtain ⟨hu1, -⟩ := up_eq_some.1 hu
          have : stop e < u := by order
          simp [InclusiveInterval.isValid, start, stop, hd2, hq, h3, this]
  · simp only [h1, if_false, not_lt.2 ho1]
    rw [max_eq_left (not_lt.1 h1)]
    by_cases h2 : stop q < stop e
    · obtain ⟨u, hu, hu1, hu2, -⟩ := up_exists h2
      simp only [h2, if_true, unwrap, hu]
      rw [min_eq_right h2.le]
      simp [InclusiveInterval.isValid, start, stop, ho1, hu2]
    · simp only [h2, if_false]
      rw [min_eq_left (not_lt.1 h2)]
      simp [InclusiveInterval.isValid, start, stop, he]

theorem cutOut_of_ovl {q : Q} {e : K × V} (h : ovl q e = true) : cutOut q e =
    (match (if start e.1 < start q then (down (start q)).map (fun d => (⟨start e.1, d⟩ : Interval I)) else none) with
      | some b => [(ofInterval b, e.2)] | none => []) ++
    (match (if stop q < stop e.1 then (up (stop q)).map (fun u => (⟨u, stop e.1⟩ : Interval I)) else none) with
      | some b => [(ofInterval b, e.2)] | none => []) := by
  unfold cutOut
  rw [if_pos h]
  congr 1
  · split_ifs
    · cases down (start q) <;> rfl
    · rfl
  · split_ifs
    · cases up (stop q) <;> rfl
    · rfl

namespace NoditMap
variable {m : NoditMap K V} {q : Q} {l : List (K × V)}

theorem cutLoop_ok (h : Chain l) (hq : start q ≤ stop q) (hl : ∀ e ∈ l, start q ≤ stop e.1) :
    cutLoop q l = .ok (l.flatMap (cutOut q), l.flatMap (cutIn q)) := by
  induction l with
  | nil => rfl
  | cons e l ih =>
    obtain ⟨k, v⟩ := e
    rw [Chain.cons] at h
    have hle : start q ≤ stop k := hl (k, v) (by simp)
    unfold cutLoop
    rw [Nodit.overlaps_ok h.1 hq]
    simp only [bind, Except.bind, pure, Except.pure]
    by_cases ho : start k ≤ stop q
    · have hov : ovl q (k, v) = true := by simp [ovl, ho, hle]
      rw [cutInterval_ok h.1 hq ⟨ho, hle⟩]
      simp only [ho, hle, and_self, decide_true, Bool.not_true, Bool.false_eq_true, if_false, unwrap,
        ih h.2.2 (fun x hx => hl x (by simp [hx])), List.flatMap_cons, cutOut_of_ovl hov]
      simp only [cutIn, hov, if_true]
      rfl
    · have hn : ∀ x ∈ (k, v) :: l, ovl q x = false := by
        intro x hx
        simp only [ovl, decide_eq_false_iff_not, not_and]
        intro hx1
        exfalso
        rcases List.mem_cons.1 hx with rfl | hx
        · exact ho hx1
        · have := h.2.1 x hx
          have := h.1
          simp only at *
          order
      have h1 : ((k, v) :: l).flatMap (cutIn q) = [] := by
        rw [List.flatMap_eq_nil_iff]; intro x hx; simp [cutIn, hn x hx]
      have h2 : ((k, v) :: l).flatMap (cutOut q) = (k, v) :: l := by
        conv_rhs => rw [← List.flatMap_singleton' ((k, v) :: l)]
        rw [List.flatMap_def, List.flatMap_def]
        congr 1
        apply List.map_congr_left
        intro x hx; simp [cutOut, hn x hx]
      rw [h1, h2]
      simp [ho]

theorem cut_ok (h : Chain m.inner) (hq : start q ≤ stop q) :
    m.cut q = .ok (⟨m.inner.flatMap (cutOut q)⟩, m.inner.flatMap (cutIn q)) := by
  unfold cut BTree.lowerBound
  rw [invalidIntervalPanic_ok hq, h.takeWhile_gt, h.dropWhile_gt]
  simp only [bind, Except.bind, pure, Except.pure]
  rw [cutLoop_ok (h.filter _) hq]
  · have hn : ∀ x ∈ m.inner.filter (fun e => decide (stop e.1 < start q)), ovl q x = false := by
      intro x hx
      have := (List.mem_filter.1 hx).2
      simp only [decide_eq_true_eq] at this
      simp [ovl, not_le.2 this]
    have e1 : (m.inner.filter (fun e => decide (stop e.1 < start q))).flatMap (cutOut q) =
        m.inner.filter (fun e => decide (stop e.1 < start q)) := by
      conv_rhs => rw [← List.flatMap_singleton' (m.inner.filter _)]
      rw [List.flatMap_def, List.flatMap_def]
      congr 1
      apply List.map_congr_left
      intro x hx; simp [cutOut, hn x hx]
    have e2 : (m.inner.filter (fun e => decide (stop e.1 < start q))).flatMap (cutIn q) = [] := by
      rw [List.flatMap_eq_nil_iff]; intro x hx; simp [cutIn, hn x hx]
    have e3 : m.inner.flatMap (cutOut q) = m.inner.filter (fun e => decide (stop e.1 < start q)) ++
        (m.inner.filter (fun e => decide (start q ≤ stop e.1))).flatMap (cutOut q) := by
      conv_lhs => rw [← h.split (start q), List.flatMap_append, e1]
    have e4 : m.inner.flatMap (cutIn q) =
        (m.inner.filter (fun e => decide (start q ≤ stop e.1))).flatMap (cutIn q) := by
      conv_lhs => rw [← h.split (start q), List.flatMap_append, e2]
      rfl
    rw [e3, e4]
  · intro e he; simpa using (List.mem_filter.1 he).2
end NoditMap

variable [LawfulInterval I K]

omit [LawfulPoint I] in
@[simp] theorem start_of (i : Interval I) : start (ofInterval i : K) = i.start := LawfulInterval.start_of i
omit [LawfulPoint I] in
@[simp] theorem stop_of (i : Interval I) : stop (ofInterval i : K) = i.stop := LawfulInterval.stop_of i

/-- replacing every entry of a chain by a chain inside it gives a chain -/
theorem Chain.flatMap {l : List (K × V)} (h : Chain l) (f : K × V → List (K × V))
    (hf : ∀ e ∈ l, Chain (f e)) (hin : ∀ e ∈ l, ∀ x ∈ f e, start e.1 ≤ start x.1 ∧ stop x.1 ≤ stop e.1) :
    Chain (l.flatMap f) := by
  induction l with
  | nil => exact Chain.nil
  | cons e l ih =>
    rw [Chain.cons] at h
    rw [List.flatMap_cons, Chain.append]
    refine ⟨hf e (by simp), ih h.2.2 (fun x hx => hf x (by simp [hx])) (fun x hx => hin x (by simp [hx])), ?_⟩
    intro a ha b hb
    obtain ⟨d, hd, hbd⟩ := List.mem_flatMap.1 hb
    have h1 := hin e (by simp) a ha
    have h2 := hin d (by simp [hd]) b hbd
    have h3 := h.2.1 d hd
    order

theorem cutOut_chain {q : Q} {e : K × V} (hq : start q ≤ stop q) (he : start e.1 ≤ stop e.1) :
    Chain (cutOut q e) ∧ ∀ x ∈ cutOut q e, start e.1 ≤ start x.1 ∧ stop x.1 ≤ stop e.1 := by
  unfold cutOut
  split_ifs with h h1 h2 h2
  · obtain ⟨d, hd, hd1, hd2, -⟩ := down_exists h1
    obtain ⟨u, hu, hu1, hu2, -⟩ := up_exists h2
    simp only [ovl, decide_eq_true_eq] at h
    simp only [hd, hu, List.cons_append, List.nil_append, Chain.cons, List.mem_cons, List.not_mem_nil,
      or_false, forall_eq, forall_eq_or_imp, start_of, stop_of, Chain.nil, false_imp_iff, implies_true,
      and_true]
    refine ⟨⟨hd2, ?_, hu2⟩, ⟨le_refl _, ?_⟩, ?_, le_refl _⟩ <;> order
  · obtain ⟨d, hd, hd1, hd2, -⟩ := down_exists h1
    simp only [ovl, decide_eq_true_eq] at h
    simp only [hd, List.append_nil, Chain.cons, List.mem_cons, List.not_mem_nil,
      or_false, forall_eq, forall_eq_or_imp, start_of, stop_of, Chain.nil, false_imp_iff, implies_true,
      and_true]
    refine ⟨hd2, le_refl _, ?_⟩; order
  · obtain ⟨u, hu, hu1, hu2, -⟩ := up_exists h2
    simp only [ovl, decide_eq_true_eq] at h
    simp only [hu, List.nil_append, Chain.cons, List.mem_cons, List.not_mem_nil,
      or_false, forall_eq, forall_eq_or_imp, start_of, stop_of, Chain.nil, false_imp_iff, implies_true,
      and_true]
    refine ⟨hu2, ?_, le_refl _⟩; order
  · simp [Chain.nil]
  · simp [Chain.cons, Chain.nil, he]

theorem cutIn_chain {q : Q} {e : K × V} (hq : start q ≤ stop q) (he : start e.1 ≤ stop e.1) :
    Chain (cutIn q e) ∧ ∀ x ∈ cutIn q e, start e.1 ≤ start x.1 ∧ stop x.1 ≤ stop e.1 := by
  unfold cutIn
  split_ifs with h
  · simp only [ovl, decide_eq_true_eq] at h
    simp [Chain.cons, Chain.nil, he, hq, h.1, h.2]
  · simp [Chain.nil]

theorem describes_iff {i : Interval I} {P : I → Prop} (hP : ∃ a b, a ≤ b ∧ ∀ p, P p ↔ a ≤ p ∧ p ≤ b) :
    Describes i P ↔ ∀ a b, a ≤ b → (∀ p, P p ↔ a ≤ p ∧ p ≤ b) → i = ⟨a, b⟩ := by
  constructor
  · rintro ⟨⟨p, hp⟩, h2⟩ a b hab hP
    have e1 := (h2 a).2 ((hP a).2 ⟨le_refl _, hab⟩)
    have e2 := (h2 b).2 ((hP b).2 ⟨hab, le_refl _⟩)
    have e3 := (hP _).1 ((h2 i.start).1 ⟨le_refl _, le_trans hp.1 hp.2⟩)
    have e4 := (hP _).1 ((h2 i.stop).1 ⟨le_trans hp.1 hp.2, le_refl _⟩)
    obtain ⟨s, t⟩ := i
    simp only [Interval.mk.injEq]
    exact ⟨le_antisymm e1.1 e3.1, le_antisymm e4.2 e2.2⟩
  · intro h
    obtain ⟨a, b, hab, hP⟩ := hP
    rw [h a b hab hP]
    exact ⟨⟨a, le_refl _, hab⟩, fun p => (hP p).symm⟩

theorem describes_of {i : Interval I} {P : I → Prop} {a b : I} (hab : a ≤ b)
    (hP : ∀ p, P p ↔ a ≤ p ∧ p ≤ b) : Describes i P ↔ i = ⟨a, b⟩ := by
  constructor
  · intro h; exact (describes_iff ⟨a, b, hab, hP⟩).1 h a b hab hP
  · rintro rfl; exact ⟨⟨a, le_refl _, hab⟩, fun p => (hP p).symm⟩

theorem describes_false {i : Interval I} {P : I → Prop} (hP : ∀ p, ¬ P p) : ¬ Describes i P := by
  rintro ⟨⟨p, hp⟩, h⟩
  exact hP p ((h p).1 hp)

theorem mem_cutIn {q : Q} {e x : K × V} (hq : start q ≤ stop q) (he : start e.1 ≤ stop e.1) :
    x ∈ cutIn q e ↔ ∃ i, x = (ofInterval i, e.2) ∧ Describes i (fun p => Mem p e.1 ∧ Mem p q) := by
  unfold cutIn
  split_ifs with h
  · simp only [ovl, decide_eq_true_eq] at h
    have hd : ∀ i : Interval I, Describes i (fun p => Mem p e.1 ∧ Mem p q) ↔
        i = ⟨max (start e.1) (start q), min (stop e.1) (stop q)⟩ := fun i => by
      apply describes_of
      · simp [he, hq, h.1, h.2]
      · intro p; simp only [Mem, max_le_iff, le_min_iff]; tauto
    simp only [hd, List.mem_singleton]
    constructor
    · intro hx; exact ⟨_, hx, rfl⟩
    · rintro ⟨i, hx, rfl⟩; exact hx
  · simp only [List.not_mem_nil, false_iff, not_exists, not_and]
    intro i _
    apply describes_false
    rintro p ⟨⟨h1, h2⟩, h3, h4⟩
    apply h
    simp only [ovl, decide_eq_true_eq]
    exact ⟨le_trans h1 h4, le_trans h3 h2⟩

theorem mem_cutOut {q : Q} {e x : K × V} (hq : start q ≤ stop q) (he : start e.1 ≤ stop e.1) :
    x ∈ cutOut q e ↔ (x = e ∧ ¬ Overlap e.1 q) ∨
      (Overlap e.1 q ∧ ∃ i, x = (ofInterval i, e.2) ∧
         (Describes i (fun p => Mem p e.1 ∧ ∀ x, Mem x q → p < x) ∨
          Describes i (fun p => Mem p e.1 ∧ ∀ x, Mem x q → x < p))) := by
  unfold cutOut
  simp only [forall_mem_lt hq, forall_mem_gt hq]
  by_cases h : ovl q e = true
  · have ho := (ovl_iff hq he).1 h
    simp only [h, if_true, ho, not_true, and_false, false_or, true_and, List.mem_append]
    simp only [ovl, decide_eq_true_eq] at h
    have h1 : ∀ i : Interval I, Describes i (fun p => Mem p e.1 ∧ p < start q) ↔
        start e.1 < start q ∧ ∃ d, down (start q) = some d ∧ i = ⟨start e.1, d⟩ := by
      intro i
      by_cases hlt : start e.1 < start q
      · obtain ⟨d, hd, hd1, hd2, hd3⟩ := down_exists hlt
        simp only [hlt, hd, true_and, Option.some.injEq, exists_eq_left']
        apply describes_of hd2
        intro p
        rw [hd3]
        simp only [Mem]
        constructor
        · rintro ⟨⟨a, _⟩, b⟩; exact ⟨a, b⟩
        · rintro ⟨a, b⟩; exact ⟨⟨a, by order⟩, b⟩
      · simp only [hlt, false_and, iff_false]
        apply describes_false
        rintro p ⟨⟨a, _⟩, b⟩; exact hlt (lt_of_le_of_lt a b)
    have h2 : ∀ i : Interval I, Describes i (fun p => Mem p e.1 ∧ stop q < p) ↔
        stop q < stop e.1 ∧ ∃ u, up (stop q) = some u ∧ i = ⟨u, stop e.1⟩ := by
      intro i
      by_cases hlt : stop q < stop e.1
      · obtain ⟨d, hd, hd1, hd2, hd3⟩ := up_exists hlt
        simp only [hlt, hd, true_and, Option.some.injEq, exists_eq_left']
        apply describes_of hd2
        intro p
        rw [hd3]
        simp only [Mem]
        constructor
        · rintro ⟨⟨_, a⟩, b⟩; exact ⟨b, a⟩
        · rintro ⟨a, b⟩; exact ⟨⟨by order, b⟩, a⟩
      · simp only [hlt, false_and, iff_false]
        apply describes_false
        rintro p ⟨⟨_, a⟩, b⟩; exact hlt (lt_of_lt_of_le b a)
    simp only [h1, h2]
    constructor
    · rintro (hx | hx)
      · split_ifs at hx with hlt
        · cases hd : down (start q) with
          | none => simp [hd] at hx
          | some d => rw [hd] at hx; simp only [List.mem_singleton] at hx; exact ⟨_, hx, Or.inl ⟨hlt, d, rfl, rfl⟩⟩
        · simp at hx
      · split_ifs at hx with hlt
        · cases hd : up (stop q) with
          | none => simp [hd] at hx
          | some d => rw [hd] at hx; simp only [List.mem_singleton] at hx; exact ⟨_, hx, Or.inr ⟨hlt, d, rfl, rfl⟩⟩
        · simp at hx
    · rintro ⟨i, rfl, (⟨hlt, d, hd, rfl⟩ | ⟨hlt, d, hd, rfl⟩)⟩
      · left; simp [hlt, hd]
      · right; simp [hlt, hd]
  · have ho : ¬ Overlap e.1 q := fun ho => h ((ovl_iff hq he).2 ho)
    simp [h, ho]

namespace NoditMap
variable {m : NoditMap K V} {q : Q}

theorem cut_spec (h : Chain m.inner) (hq : start q ≤ stop q) : ∃ m' out, m.cut q = .ok (m', out) ∧
    Chain m'.inner ∧ Chain out ∧
    (∀ x, x ∈ m'.inner ↔ x ∈ CutRemaining {e | e ∈ m.inner} q) ∧
    (∀ x, x ∈ out ↔ x ∈ CutReturned {e | e ∈ m.inner} q) := by
  refine ⟨_, _, cut_ok h hq, ?_, ?_, ?_, ?_⟩
  · exact h.flatMap _ (fun e he => (cutOut_chain hq (h.1 e he)).1) (fun e he => (cutOut_chain hq (h.1 e he)).2)
  · exact h.flatMap _ (fun e he => (cutIn_chain hq (h.1 e he)).1) (fun e he => (cutIn_chain hq (h.1 e he)).2)
  · intro x
    simp only [List.mem_flatMap, CutRemaining, Set.mem_ofPred_eq]
    constructor
    · rintro ⟨e, he, hx⟩
      rcases (mem_cutOut hq (h.1 e he)).1 hx with ⟨rfl, hno⟩ | ⟨ho, hi⟩
      · exact Or.inl ⟨he, hno⟩
      · exact Or.inr ⟨e, he, ho, hi⟩
    · rintro (⟨he, hno⟩ | ⟨e, he, ho, hi⟩)
      · exact ⟨x, he, (mem_cutOut hq (h.1 x he)).2 (Or.inl ⟨rfl, hno⟩)⟩
      · exact ⟨e, he, (mem_cutOut hq (h.1 e he)).2 (Or.inr ⟨ho, hi⟩)⟩
  · intro x
    simp only [List.mem_flatMap, CutReturned, Set.mem_ofPred_eq]
    constructor
    · rintro ⟨e, he, hx⟩; exact ⟨e, he, (mem_cutIn hq (h.1 e he)).1 hx⟩
    · rintro ⟨e, he, hx⟩; exact ⟨e, he, (mem_cutIn hq (h.1 e he)).2 hx⟩

omit [LawfulPoint I] [LawfulInterval I K] in
theorem insertUnchecked_spec {k : K} {v : V} (h : Chain m.inner) (hk : start k ≤ stop k)
    (hno : ∀ e ∈ m.inner, ovl k e = false) :
    Chain (m.insertUnchecked k v).inner ∧
      ∀ x, x ∈ (m.insertUnchecked k v).inner ↔ x ∈ m.inner ∨ x = (k, v) := by
  obtain ⟨l⟩ := m
  unfold insertUnchecked
  simp only at *
  have hno' : ∀ e ∈ l, stop e.1 < start k ∨ stop k < start e.1 := by
    intro e he
    have := hno e he
    simp only [ovl, decide_eq_false_iff_not, not_and, not_le] at this
    rcases le_or_gt (start e.1) (stop k) with h1 | h1
    · exact Or.inl (this h1)
    · exact Or.inr h1
  clear hno
  induction l with
  | nil => simp [BTree.insert, Chain.cons, hk, Chain.nil]
  | cons e l ih =>
    rw [Chain.cons] at h
    have he := hno' e (by simp)
    have ih := ih h.2.2 (fun x hx => hno' x (by simp [hx]))
    unfold BTree.insert
    cases hc : startsComp k e.1 with
    | gt =>
      rw [startsComp_gt] at hc
      have hlt : stop e.1 < start k := by rcases he with he | he; exact he; order
      simp only [Chain.cons, List.mem_cons, ih.2, ih.1]
      refine ⟨⟨h.1, ?_, trivial⟩, fun x => by tauto⟩
      rintro x (hx | rfl)
      · exact h.2.1 x hx
      · exact hlt
    | eq =>
      rw [startsComp_eq] at hc
      exfalso
      have := h.1
      rcases he with he | he <;> order
    | lt =>
      rw [startsComp_lt] at hc
      have hlt : stop k < start e.1 := by rcases he with he | he; (have := h.1; order); exact he
      simp only [Chain.cons, List.mem_cons, hk, true_and]
      refine ⟨⟨?_, h⟩, fun x => by tauto⟩
      rintro x (rfl | hx)
      · exact hlt
      · have := h.2.1 x hx; have := h.1; order
end NoditMap
end
end Nodit
