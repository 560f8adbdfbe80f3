import Verif.History
import Mathlib.Tactic.Order
import Mathlib.Tactic.Tauto
import Mathlib.Tactic.Set
import Mathlib.Order.MinMax
import Mathlib.Data.List.Pairwise
/-!
# Basic lemmas: intervals, ordered lists, comparators
-/
namespace Nodit
open Spec PointType

section Lists
variable {α : Type}

/-- On a list along which `p` can only switch from true to false, `takeWhile` is `filter`. -/
theorem takeWhile_eq_filter {p : α → Bool} {l : List α} (h : l.Pairwise (fun a b => p b → p a)) :
    l.takeWhile p = l.filter p := by
  induction l with
  | nil => rfl
  | cons a l ih =>
    rw [List.pairwise_cons] at h
    by_cases ha : p a
    · simp [ha, ih h.2]
    · have : l.filter p = [] := by
        rw [List.filter_eq_nil_iff]; intro b hb hpb; exact ha (h.1 b hb hpb)
      simp [ha, this]

theorem dropWhile_eq_filter {p : α → Bool} {l : List α} (h : l.Pairwise (fun a b => p b → p a)) :
    l.dropWhile p = l.filter (fun x => !p x) := by
  induction l with
  | nil => rfl
  | cons a l ih =>
    rw [List.pairwise_cons] at h
    by_cases ha : p a
    · simp [ha, ih h.2]
    · have : l.filter (fun x => !p x) = l := by
        rw [List.filter_eq_self]; intro b hb
        have := h.1 b hb
        simp only [Bool.not_eq_true'] at *
        cases hpb : p b
        · rfl
        · exact absurd (this hpb) ha
      simp [ha, this]

theorem filter_append_filter_not {p : α → Bool} {l : List α} (h : l.Pairwise (fun a b => p b → p a)) :
    l.filter p ++ l.filter (fun x => !p x) = l := by
  rw [← takeWhile_eq_filter h, ← dropWhile_eq_filter h, List.takeWhile_append_dropWhile]

theorem mem_tupleWindows {l : List α} {a b : α} :
    (a, b) ∈ tupleWindows l ↔ ∃ l1 l2, l = l1 ++ a :: b :: l2 := by
  induction l with
  | nil => simp [tupleWindows]
  | cons x l ih =>
    cases l with
    | nil =>
      simp only [tupleWindows, List.not_mem_nil, false_iff]
      rintro ⟨l1, l2, h⟩
      have := congrArg List.length h
      simp at this
      omega
    | cons y l =>
      simp only [tupleWindows, List.mem_cons, Prod.mk.injEq, ih]
      constructor
      · rintro (⟨rfl, rfl⟩ | ⟨l1, l2, h⟩)
        · exact ⟨[], l, rfl⟩
        · exact ⟨x :: l1, l2, by rw [h]; rfl⟩
      · rintro ⟨l1, l2, h⟩
        cases l1 with
        | nil => left; simp at h; exact ⟨h.1.symm, h.2.1.symm⟩
        | cons z l1 => right; simp at h; exact ⟨l1, l2, h.2⟩

theorem tupleWindows_map {β : Type} (f : α → β) (l : List α) :
    tupleWindows (l.map f) = (tupleWindows l).map (fun w => (f w.1, f w.2)) := by
  induction l with
  | nil => rfl
  | cons x l ih =>
    cases l with
    | nil => rfl
    | cons y l => simpa [tupleWindows] using ih

/-- consecutive windows of a list ordered by `R` -/
theorem pairwise_tupleWindows {R : α → α → Prop} {l : List α} (h : l.Pairwise R) :
    (tupleWindows l).Pairwise (fun u w => u.2 = w.1 ∨ R u.2 w.1) := by
  induction l with
  | nil => simp [tupleWindows]
  | cons x l ih =>
    cases l with
    | nil => simp [tupleWindows]
    | cons y l =>
      rw [tupleWindows, List.pairwise_cons]
      refine ⟨?_, ih h.tail⟩
      rintro ⟨a, b⟩ hab
      rw [mem_tupleWindows] at hab
      obtain ⟨l1, l2, h'⟩ := hab
      cases l1 with
      | nil => left; simp at h'; exact h'.1
      | cons z l1 =>
        right
        simp at h'
        have h2 : (y :: l).Pairwise R := h.tail
        rw [List.pairwise_cons] at h2
        exact h2.1 a (by rw [h'.2]; simp)

theorem tupleWindows_rel {R : α → α → Prop} {l : List α} (h : l.Pairwise R) {w : α × α}
    (hw : w ∈ tupleWindows l) : R w.1 w.2 ∧ w.1 ∈ l ∧ w.2 ∈ l := by
  obtain ⟨a, b⟩ := w
  rw [mem_tupleWindows] at hw
  obtain ⟨l1, l2, rfl⟩ := hw
  refine ⟨?_, by simp, by simp⟩
  rw [List.pairwise_append] at h
  have := h.2.1
  rw [List.pairwise_cons] at this
  exact this.1 b (by simp)

/-- neighbours in an ordered list with nothing in between form a window -/
theorem mem_tupleWindows_of_adjacent {R : α → α → Prop} {l : List α} (hirr : ∀ a ∈ l, ¬ R a a)
    (hasymm : ∀ a ∈ l, ∀ b ∈ l, R a b → ¬ R b a) (h : l.Pairwise R) {a b : α}
    (ha : a ∈ l) (hb : b ∈ l) (hab : R a b) (hno : ∀ c ∈ l, ¬ (R a c ∧ R c b)) :
    (a, b) ∈ tupleWindows l := by
  obtain ⟨s, t, rfl⟩ := List.append_of_mem ha
  rw [List.pairwise_append, List.pairwise_cons] at h
  obtain ⟨_, ⟨hat, ht⟩, hst⟩ := h
  have hbt : b ∈ t := by
    rcases List.mem_append.1 hb with hb' | hb'
    · exact absurd (hst b hb' a (by simp)) (hasymm a ha b hb hab)
    · rcases List.mem_cons.1 hb' with rfl | hb'
      · exact absurd hab (hirr _ ha)
      · exact hb'
  obtain ⟨u, w, rfl⟩ := List.append_of_mem hbt
  cases u with
  | nil => exact mem_tupleWindows.2 ⟨s, w, rfl⟩
  | cons c u =>
    exfalso
    refine hno c (by simp) ⟨hat c (by simp), ?_⟩
    rw [List.cons_append, List.pairwise_cons] at ht
    exact ht.1 b (by simp)

/-- a list ordered by an irreflexive asymmetric relation is determined by its members -/
theorem eq_of_pairwise_of_mem_iff {R : α → α → Prop} {l₁ l₂ : List α}
    (h₁ : l₁.Pairwise R) (h₂ : l₂.Pairwise R) (hirr : ∀ a ∈ l₁, ¬ R a a)
    (hasymm : ∀ a ∈ l₁, ∀ b ∈ l₁, R a b → ¬ R b a) (h : ∀ a, a ∈ l₁ ↔ a ∈ l₂) : l₁ = l₂ := by
  induction l₁ generalizing l₂ with
  | nil =>
    cases l₂ with
    | nil => rfl
    | cons b l => exact absurd ((h b).2 (by simp)) (by simp)
  | cons a l₁ ih =>
    cases l₂ with
    | nil => exact absurd ((h a).1 (by simp)) (by simp)
    | cons b l₂ =>
      rw [List.pairwise_cons] at h₁ h₂
      have hab : a = b := by
        by_contra hne
        have ha : a ∈ l₂ := by
          rcases List.mem_cons.1 ((h a).1 (by simp)) with h' | h'
          · exact absurd h' hne
          · exact h'
        have hb : b ∈ l₁ := by
          rcases List.mem_cons.1 ((h b).2 (by simp)) with h' | h'
          · exact absurd h'.symm hne
          · exact h'
        exact hasymm a (by simp) b (by simp [hb]) (h₁.1 b hb) (h₂.1 a ha)
      subst hab
      have hal₁ : a ∉ l₁ := fun hm => hirr a (by simp) (h₁.1 a hm)
      have hal₂ : a ∉ l₂ := fun hm => hirr a (by simp) (h₂.1 a hm)
      congr 1
      refine ih h₁.2 h₂.2 (fun x hx => hirr x (by simp [hx]))
        (fun x hx y hy => hasymm x (by simp [hx]) y (by simp [hy])) ?_
      intro x
      have := h x
      simp only [List.mem_cons] at this
      constructor
      · intro hx
        rcases this.1 (Or.inr hx) with rfl | h'
        · exact absurd hx hal₁
        · exact h'
      · intro hx
        rcases this.2 (Or.inr hx) with rfl | h'
        · exact absurd hx hal₂
        · exact h'
end Lists

section Points
variable {I : Type} [PointType I] [LawfulPoint I]

theorem up_eq_some {x y : I} : up x = some y ↔ x < y ∧ ∀ z, x < z → y ≤ z := by
  constructor
  · exact LawfulPoint.up_some x y
  · rintro ⟨h1, h2⟩
    cases h : up x with
    | none => exact absurd (LawfulPoint.up_none x h y) (not_le.2 h1)
    | some u =>
      obtain ⟨h3, h4⟩ := LawfulPoint.up_some x u h
      rw [le_antisymm (h4 y h1) (h2 u h3)]

theorem down_eq_some {x y : I} : down x = some y ↔ y < x ∧ ∀ z, z < x → z ≤ y := by
  constructor
  · exact LawfulPoint.down_some x y
  · rintro ⟨h1, h2⟩
    cases h : down x with
    | none => exact absurd (LawfulPoint.down_none x h y) (not_le.2 h1)
    | some u =>
      obtain ⟨h3, h4⟩ := LawfulPoint.down_some x u h
      rw [le_antisymm (h2 u h3) (h4 y h1)]

theorem up_exists {x y : I} (h : x < y) : ∃ u, up x = some u ∧ x < u ∧ u ≤ y ∧ ∀ z, x < z ↔ u ≤ z := by
  cases h' : up x with
  | none => exact absurd (LawfulPoint.up_none x h' y) (not_le.2 h)
  | some u =>
    obtain ⟨h3, h4⟩ := LawfulPoint.up_some x u h'
    exact ⟨u, rfl, h3, h4 y h, fun z => ⟨h4 z, fun hz => lt_of_lt_of_le h3 hz⟩⟩

theorem down_exists {x y : I} (h : y < x) :
    ∃ u, down x = some u ∧ u < x ∧ y ≤ u ∧ ∀ z, z < x ↔ z ≤ u := by
  cases h' : down x with
  | none => exact absurd (LawfulPoint.down_none x h' y) (not_le.2 h)
  | some u =>
    obtain ⟨h3, h4⟩ := LawfulPoint.down_some x u h'
    exact ⟨u, rfl, h3, h4 y h, fun z => ⟨h4 z, fun hz => lt_of_le_of_lt hz h3⟩⟩

theorem up_eq_some_iff_down {x y : I} : up x = some y ↔ down y = some x := by
  rw [up_eq_some, down_eq_some]
  constructor
  · rintro ⟨h1, h2⟩
    exact ⟨h1, fun z hz => le_of_not_gt fun h => absurd (h2 z h) (not_le.2 hz)⟩
  · rintro ⟨h1, h2⟩
    exact ⟨h1, fun z hz => le_of_not_gt fun h => absurd (h2 z h) (not_le.2 hz)⟩

theorem min_le (x : I) : MIN ≤ x := LawfulPoint.min_le x
theorem le_max (x : I) : x ≤ MAX := LawfulPoint.le_max x

theorem up_none_iff {x : I} : up x = none ↔ x = MAX := by
  constructor
  · intro h; exact le_antisymm (le_max x) (LawfulPoint.up_none x h _)
  · rintro rfl
    cases h : up (MAX : I) with
    | none => rfl
    | some u => exact absurd (LawfulPoint.up_some _ _ h).1 (not_lt.2 (le_max u))

theorem down_none_iff {x : I} : down x = none ↔ x = MIN := by
  constructor
  · intro h; exact le_antisymm (LawfulPoint.down_none x h _) (min_le x)
  · rintro rfl
    cases h : down (MIN : I) with
    | none => rfl
    | some u => exact absurd (LawfulPoint.down_some _ _ h).1 (not_lt.2 (min_le u))
end Points

section Intervals
variable {I K A B V : Type} [PointType I] [IntervalType I K] [IntervalType I A] [IntervalType I B]

theorem valid_iff {k : K} : Valid k ↔ start k ≤ stop k :=
  ⟨fun ⟨_, h1, h2⟩ => le_trans h1 h2, fun h => ⟨start k, le_refl _, h⟩⟩

theorem overlap_iff {a : A} {b : B} (ha : start a ≤ stop a) (hb : start b ≤ stop b) :
    Overlap a b ↔ start a ≤ stop b ∧ start b ≤ stop a := by
  constructor
  · rintro ⟨p, ⟨h1, h2⟩, ⟨h3, h4⟩⟩; exact ⟨le_trans h1 h4, le_trans h3 h2⟩
  · rintro ⟨h1, h2⟩
    rcases le_total (start a) (start b) with h | h
    · exact ⟨start b, ⟨h, h2⟩, ⟨le_refl _, hb⟩⟩
    · exact ⟨start a, ⟨le_refl _, ha⟩, ⟨h, h1⟩⟩

theorem overlap_comm {a : A} {b : B} : Overlap a b ↔ Overlap b a :=
  ⟨fun ⟨p, h1, h2⟩ => ⟨p, h2, h1⟩, fun ⟨p, h1, h2⟩ => ⟨p, h2, h1⟩⟩

theorem before_iff {a : A} {b : B} (ha : start a ≤ stop a) (hb : start b ≤ stop b) :
    Before a b ↔ stop a < start b := by
  constructor
  · intro h; exact h _ _ ⟨ha, le_refl _⟩ ⟨le_refl _, hb⟩
  · rintro h p q ⟨_, h2⟩ ⟨h3, _⟩; order

/-- the set of points below an interval, in terms of its ends -/
theorem forall_mem_lt {k : K} (hk : start k ≤ stop k) (p : I) :
    (∀ x, Mem x k → p < x) ↔ p < start k :=
  ⟨fun h => h _ ⟨le_refl _, hk⟩, fun h _ hx => lt_of_lt_of_le h hx.1⟩

theorem forall_mem_gt {k : K} (hk : start k ≤ stop k) (p : I) :
    (∀ x, Mem x k → x < p) ↔ stop k < p :=
  ⟨fun h => h _ ⟨hk, le_refl _⟩, fun h _ hx => lt_of_le_of_lt hx.2 h⟩

theorem touch_iff [LawfulPoint I] {a : A} {b : B} (ha : start a ≤ stop a) (hb : start b ≤ stop b) :
    Touch a b ↔ up (stop a) = some (start b) ∨ up (stop b) = some (start a) := by
  unfold Touch
  simp only [forall_mem_lt ha, forall_mem_lt hb, forall_mem_gt ha, forall_mem_gt hb,
    overlap_iff ha hb, up_eq_some]
  constructor
  · rintro ⟨h1, h2⟩
    rcases lt_or_ge (stop a) (start b) with h | h
    · left; refine ⟨h, fun z hz => le_of_not_gt fun hzb => (h2 z).1 ⟨hz, hzb⟩⟩
    · right
      have h' : stop b < start a := not_le.1 fun h' => h1 ⟨h', h⟩
      refine ⟨h', fun z hz => le_of_not_gt fun hzb => (h2 z).2 ⟨hz, hzb⟩⟩
  · rintro (⟨h1, h2⟩ | ⟨h1, h2⟩)
    · refine ⟨fun h => absurd h.2 (not_le.2 h1), fun p => ⟨?_, ?_⟩⟩
      · rintro ⟨h3, h4⟩; exact absurd (h2 p h3) (not_le.2 h4)
      · rintro ⟨h3, h4⟩; order
    · refine ⟨fun h => absurd h.1 (not_le.2 h1), fun p => ⟨?_, ?_⟩⟩
      · rintro ⟨h3, h4⟩; order
      · rintro ⟨h3, h4⟩; exact absurd (h2 p h3) (not_le.2 h4)

/-- internal form of `WF`, on end points -/
def Chain (l : List (K × V)) : Prop :=
  (∀ e ∈ l, start e.1 ≤ stop e.1) ∧ l.Pairwise (fun a b => stop a.1 < start b.1)

theorem wf_iff_chain {l : List (K × V)} : WF l ↔ Chain l := by
  unfold WF Chain
  simp only [valid_iff]
  refine and_congr_right fun h => ?_
  exact List.Pairwise.iff_of_mem fun {a b} ha hb => before_iff (h a ha) (h b hb)

def ChainK (l : List K) : Prop :=
  (∀ k ∈ l, start k ≤ stop k) ∧ l.Pairwise (fun a b => stop a < start b)

theorem ascending_iff {l : List K} : Ascending l ↔ ChainK l := by
  unfold Ascending ChainK
  simp only [valid_iff]
  refine and_congr_right fun h => ?_
  exact List.Pairwise.iff_of_mem fun {a b} ha hb => before_iff (h a ha) (h b hb)

namespace Chain
variable {l l₁ l₂ : List (K × V)}

theorem nil : Chain ([] : List (K × V)) := ⟨by simp, by simp⟩

theorem cons {e : K × V} : Chain (e :: l) ↔
    start e.1 ≤ stop e.1 ∧ (∀ x ∈ l, stop e.1 < start x.1) ∧ Chain l := by
  unfold Chain
  simp only [List.mem_cons, forall_eq_or_imp, List.pairwise_cons]
  tauto

theorem append : Chain (l₁ ++ l₂) ↔
    Chain l₁ ∧ Chain l₂ ∧ ∀ a ∈ l₁, ∀ b ∈ l₂, stop a.1 < start b.1 := by
  unfold Chain
  simp only [List.mem_append, List.pairwise_append, or_imp, forall_and]
  tauto

theorem filter (h : Chain l) (p : K × V → Bool) : Chain (l.filter p) :=
  ⟨fun e he => h.1 e (List.mem_filter.1 he).1, h.2.filter p⟩

theorem map_value {W : Type} (h : Chain l) (f : K × V → W) : Chain (l.map fun e => (e.1, f e)) := by
  refine ⟨?_, ?_⟩
  · intro e he
    obtain ⟨d, hd, rfl⟩ := List.mem_map.1 he
    exact h.1 d hd
  · rw [List.pairwise_map]; exact h.2

/-- two different entries are apart -/
theorem apart (h : Chain l) {a b : K × V} (ha : a ∈ l) (hb : b ∈ l) (hne : a ≠ b) :
    stop a.1 < start b.1 ∨ stop b.1 < start a.1 := by
  induction l with
  | nil => simp at ha
  | cons e l ih =>
    rw [cons] at h
    rcases List.mem_cons.1 ha with rfl | ha' <;> rcases List.mem_cons.1 hb with rfl | hb'
    · exact absurd rfl hne
    · exact Or.inl (h.2.1 b hb')
    · exact Or.inr (h.2.1 a ha')
    · exact ih h.2.2 ha' hb'

theorem eq_of_common (h : Chain l) {a b : K × V} (ha : a ∈ l) (hb : b ∈ l)
    (h1 : start a.1 ≤ stop b.1) (h2 : start b.1 ≤ stop a.1) : a = b := by
  by_contra hne
  rcases h.apart ha hb hne with h' | h' <;> order

theorem ext (h₁ : Chain l₁) (h₂ : Chain l₂) (h : ∀ e, e ∈ l₁ ↔ e ∈ l₂) : l₁ = l₂ := by
  refine eq_of_pairwise_of_mem_iff h₁.2 h₂.2 ?_ ?_ h
  · intro a ha; exact not_lt.2 (h₁.1 a ha)
  · intro a ha b hb h'
    have := h₁.1 a ha; have := h₁.1 b hb; order

/-- a downward closed predicate is antitone along the chain -/
theorem antitone (h : Chain l) (p : K × V → Bool)
    (hp : ∀ a b : K × V, start a.1 ≤ stop a.1 → start b.1 ≤ stop b.1 → stop a.1 < start b.1 → p b → p a) :
    l.Pairwise (fun a b => p b → p a) := by
  refine List.Pairwise.imp_of_mem ?_ h.2
  intro a b ha hb hab
  exact hp a b (h.1 a ha) (h.1 b hb) hab

end Chain

theorem ChainK.ext {l₁ l₂ : List K} (h₁ : ChainK l₁) (h₂ : ChainK l₂) (h : ∀ e, e ∈ l₁ ↔ e ∈ l₂) :
    l₁ = l₂ := by
  refine eq_of_pairwise_of_mem_iff h₁.2 h₂.2 ?_ ?_ h
  · intro a ha; exact not_lt.2 (h₁.1 a ha)
  · intro a ha b hb h'
    have := h₁.1 a ha; have := h₁.1 b hb; order
end Intervals

end Nodit
