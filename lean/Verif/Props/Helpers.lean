import Verif.Lemmas.Cut
import Verif.Props.Demo
/-!
# C82: the interval arithmetic behind `overlaps` and `cut`
-/
set_option linter.unusedSectionVars false
namespace Nodit
open Spec PointType
variable {I A B : Type} [PointType I] [IntervalType I A] [IntervalType I B]

/-- `r` is the interval of the points satisfying `P`, or nothing if there are none -/
def PartIs (r : Option (Interval I)) (P : I → Prop) : Prop :=
  (∀ i, r = some i → Describes i P) ∧ (r = none → ∀ p, ¬ P p)

theorem partIs_some {P : I → Prop} {a b : I} (hab : a ≤ b) (hP : ∀ p, P p ↔ a ≤ p ∧ p ≤ b) :
    PartIs (some (⟨a, b⟩ : Interval I)) P :=
  ⟨fun i hi => by cases hi; exact ⟨⟨a, le_refl _, hab⟩, fun p => (hP p).symm⟩, fun h => by cases h⟩

/-- C82: cutting the interval `cut` out of the interval `base` gives three intervals: the points of `base` below, inside, and
above `cut`, each absent if there are no such points - for all valid intervals, also disjoint ones and ones at the ends of
the point type, without panicking. -/
theorem C82_cut_interval [LawfulPoint I] {base : A} {cut : B} (hb : Valid base) (hc : Valid cut) :
    ∃ r, cutInterval base cut = .ok r ∧
      PartIs r.beforeCut (fun p => Mem p base ∧ ∀ x, Mem x cut → p < x) ∧
      PartIs r.insideCut (fun p => Mem p base ∧ Mem p cut) ∧
      PartIs r.afterCut (fun p => Mem p base ∧ ∀ x, Mem x cut → x < p) := by
  rw [valid_iff] at hb hc
  have hlow : ∀ p, (∀ x, Mem x cut → p < x) ↔ p < start cut := fun p =>
    ⟨fun h => h _ ⟨le_refl _, hc⟩, fun h x hx => lt_of_lt_of_le h hx.1⟩
  have hhigh : ∀ p, (∀ x, Mem x cut → x < p) ↔ stop cut < p := fun p =>
    ⟨fun h => h _ ⟨hc, le_refl _⟩, fun h x hx => lt_of_le_of_lt hx.2 h⟩
  simp only [hlow, hhigh]
  by_cases ho : start base ≤ stop cut ∧ start cut ≤ stop base
  · refine ⟨_, cutInterval_ok hb hc ho, ?_, ?_, ?_⟩
    · by_cases h1 : start base < start cut
      · obtain ⟨d, hd, hd1, hd2, hd3⟩ := down_exists h1
        simp only [h1, if_true, hd, Option.map_some]
        refine partIs_some hd2 fun p => ?_
        have := (down_eq_some.1 hd).2 p
        simp only [Mem]; grind
      · simp only [h1, if_false]
        refine ⟨by simp, fun _ p hp => ?_⟩
        have := hp.1.1; have := hp.2; order
    · refine partIs_some (by grind) fun p => ?_
      simp only [Mem, max_le_iff, le_min_iff]; tauto
    · by_cases h1 : stop cut < stop base
      · obtain ⟨u, hu, hu1, hu2, hu3⟩ := up_exists h1
        simp only [h1, if_true, hu, Option.map_some]
        refine partIs_some hu2 fun p => ?_
        have := (up_eq_some.1 hu).2 p
        simp only [Mem]; grind
      · simp only [h1, if_false]
        refine ⟨by simp, fun _ p hp => ?_⟩
        have := hp.1.2; have := hp.2; order
  · unfold cutInterval cutIntervalRaw
    rw [config_ok hb hc]
    simp only [bind, Except.bind, pure, Except.pure]
    by_cases h1 : stop base < start cut
    · have h2 : start base < start cut := by order
      simp only [h1, h2, if_true, Except.ok.injEq, exists_eq_left']
      simp only [InclusiveInterval.isValid, start, stop]
      have hv : decide ((start base) ≤ stop base) = true := by simpa using hb
      simp only [Option.filter_some, hv, if_true, Option.filter_none]
      refine ⟨partIs_some hb fun p => ?_, ⟨by simp, fun _ p hp => ?_⟩, ⟨by simp, fun _ p hp => ?_⟩⟩
      · simp only [Mem]; grind
      · have := hp.1.2; have := hp.2.1; order
      · have := hp.1.2; have := hp.2; order
    · have h2 : stop cut < start base := by grind
      have h3 : ¬ start base < start cut := by order
      simp only [h2, h3, if_true, if_false, Except.ok.injEq, exists_eq_left']
      simp only [InclusiveInterval.isValid, start, stop]
      have hv : decide ((start base) ≤ stop base) = true := by simpa using hb
      simp only [Option.filter_some, hv, if_true, Option.filter_none]
      refine ⟨⟨by simp, fun _ p hp => ?_⟩, ⟨by simp, fun _ p hp => ?_⟩, partIs_some hb fun p => ?_⟩
      · have := hp.1.1; have := hp.2; order
      · have := hp.1.1; have := hp.2.2; order
      · simp only [Mem]; grind

example : cutInterval (Demo.iv 3 8) (Demo.iv 5 6) = .ok ⟨some (Demo.iv 3 4), some (Demo.iv 5 6), some (Demo.iv 7 8)⟩ := by decide
example : cutInterval (Demo.iv 3 8) (Demo.iv 15 16) = .ok ⟨some (Demo.iv 3 8), none, none⟩ := by decide
example : cutInterval (Demo.iv 250 255) (Demo.iv 252 255) = .ok ⟨some (Demo.iv 250 251), some (Demo.iv 252 255), none⟩ := by decide

/-- C82: the classification of two valid intervals `a` and `b` by `config` says what it is named after. -/
theorem C82_config {a : A} {b : B} (ha : Valid a) (hb : Valid b) :
    ∃ c, config a b = .ok c ∧ match c with
      | .leftFirstNonOverlapping => Before a b
      | .rightFirstNonOverlapping => Before b a
      | .leftFirstPartialOverlap => Overlap a b ∧ (∃ p, Mem p a ∧ ∀ x, Mem x b → p < x) ∧ (∃ p, Mem p b ∧ ∀ x, Mem x a → x < p)
      | .rightFirstPartialOverlap => Overlap a b ∧ (∀ p, Mem p a → ∃ x, Mem x b ∧ x ≤ p) ∧ (∃ p, Mem p a ∧ ∀ x, Mem x b → x < p)
      | .leftContainsRight => (∀ p, Mem p b → Mem p a) ∧ (∃ p, Mem p a ∧ ∀ x, Mem x b → p < x)
      | .rightContainsLeft => ∀ p, Mem p a → Mem p b := by
  rw [valid_iff] at ha hb
  refine ⟨_, config_ok ha hb, ?_⟩
  by_cases h1 : start a < start b
  · simp only [h1, if_true]
    have hp : ∃ p, Mem p a ∧ ∀ x, Mem x b → p < x := ⟨start a, ⟨le_refl _, ha⟩, fun x hx => lt_of_lt_of_le h1 hx.1⟩
    by_cases h2 : stop a < start b
    · simp only [h2, if_true]
      intro p q hp hq; have := hp.2; have := hq.1; order
    · simp only [h2, if_false]
      by_cases h3 : stop a < stop b
      · simp only [h3, if_true]
        exact ⟨⟨start b, ⟨h1.le, not_lt.1 h2⟩, le_refl _, hb⟩, hp, stop b, ⟨hb, le_refl _⟩, fun x hx => lt_of_le_of_lt hx.2 h3⟩
      · simp only [h3, if_false]
        exact ⟨fun p hp => ⟨by have := hp.1; order, by have := hp.2; order⟩, hp⟩
  · simp only [h1, if_false]
    by_cases h2 : stop b < start a
    · simp only [h2, if_true]
      intro p q hp hq; have := hp.2; have := hq.1; order
    · simp only [h2, if_false]
      by_cases h3 : stop b < stop a
      · simp only [h3, if_true]
        exact ⟨⟨start a, ⟨le_refl _, ha⟩, not_lt.1 h1, not_lt.1 h2⟩, fun p hp => ⟨start b, ⟨le_refl _, hb⟩, by have := hp.1; order⟩,
          stop a, ⟨ha, le_refl _⟩, fun x hx => lt_of_le_of_lt hx.2 h3⟩
      · simp only [h3, if_false]
        exact fun p hp => ⟨by have := hp.1; order, by have := hp.2; order⟩

example : config (Demo.iv 3 8) (Demo.iv 5 12) = .ok .leftFirstPartialOverlap := by decide

/-- C82: `sorted_config` reports non-overlapping exactly for intervals that share no point, with the lower one first, and
hands on both intervals with the one starting first (for equal starts: `b`) in front. -/
theorem C82_sorted_config {a : A} {b : B} (ha : Valid a) (hb : Valid b) :
    ∃ x y, ((x = ⟨start a, stop a⟩ ∧ y = ⟨start b, stop b⟩ ∧ start a < start b) ∨
        (x = ⟨start b, stop b⟩ ∧ y = ⟨start a, stop a⟩ ∧ start b ≤ start a)) ∧
      (¬ Overlap a b → sortedConfig a b = .ok (.nonOverlapping x y) ∧ Before x y) ∧
      (Overlap a b → sortedConfig a b = .ok (.partialOverlap x y) ∨ sortedConfig a b = .ok (.swallowed x y)) := by
  rw [valid_iff] at ha hb
  rw [overlap_iff ha hb]
  unfold sortedConfig
  rw [config_ok ha hb]
  simp only [bind, Except.bind, pure, Except.pure]
  by_cases h1 : start a < start b
  · refine ⟨⟨start a, stop a⟩, ⟨start b, stop b⟩, Or.inl ⟨rfl, rfl, h1⟩, fun ho => ?_, fun ho => ?_⟩
    · have h2 : stop a < start b := by grind
      simp only [h1, h2, if_true, true_and]
      intro p q hp hq; have h3 : p ≤ stop a := hp.2; have h4 : start b ≤ q := hq.1; order
    · have h2 : ¬ stop a < start b := by grind
      simp only [h1, h2, if_true, if_false]
      split_ifs <;> simp
  · refine ⟨⟨start b, stop b⟩, ⟨start a, stop a⟩, Or.inr ⟨rfl, rfl, not_lt.1 h1⟩, fun ho => ?_, fun ho => ?_⟩
    · have h2 : stop b < start a := by grind
      simp only [h1, h2, if_true, if_false, true_and]
      intro p q hp hq; have h3 : p ≤ stop b := hp.2; have h4 : start a ≤ q := hq.1; order
    · have h2 : ¬ stop b < start a := by grind
      simp only [h1, h2, if_false]
      split_ifs <;> simp

example : sortedConfig (Demo.iv 13 18) (Demo.iv 5 9) = .ok (.nonOverlapping (Demo.iv 5 9) (Demo.iv 13 18)) := by decide

/-- C82: the label the overlapping cases carry is not reliable: when the left interval comes first and they overlap
partially, `sorted_config` says that one swallows the other (`/repo/src/utils.rs:67`). Nothing reads the label. -/
theorem C82_sorted_config_mislabels : ∃ a b : Interval Demo.U8,
    sortedConfig a b = .ok (.swallowed a b) ∧ ¬ (∀ p, Mem p a → Mem p b) ∧ ¬ (∀ p, Mem p b → Mem p a) := by
  refine ⟨Demo.iv 3 8, Demo.iv 5 12, by decide, fun h => ?_, fun h => ?_⟩
  · have := h (Demo.u8 3) (by unfold Mem; decide)
    exact absurd this (by unfold Mem; decide)
  · have := h (Demo.u8 12) (by unfold Mem; decide)
    exact absurd this (by unfold Mem; decide)
end Nodit
