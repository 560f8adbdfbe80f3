import Verif.RangeIter
import Verif.Props.Intervals
/-!
# Iterated ranges: theorems (C25)
-/
namespace Nodit
open PointType InclusiveInterval
set_option linter.unusedSectionVars false
variable {I : Type} [PointType I] [LawfulPoint I]

namespace Spec
/-- one step of taking a point from a set of points `A`: nothing if there is none, otherwise an extreme one, which the
set loses; `back` asks for the greatest instead of the least -/
def TakesOne (back : Bool) (A : I → Prop) (x : Option I) (B : I → Prop) : Prop :=
  match x with
  | none => (∀ p, ¬ A p) ∧ ∀ p, ¬ B p
  | some x => A x ∧ (∀ p, A p → if back then p ≤ x else x ≤ p) ∧ ∀ p, B p ↔ A p ∧ p ≠ x
/-- the items `xs` come from taking points of `A` at the ends given by `bs`, and leave `B` -/
def Takes : List Bool → (I → Prop) → List (Option I) → (I → Prop) → Prop
  | [], A, xs, B => xs = [] ∧ ∀ p, A p ↔ B p
  | b :: bs, A, xs, B => ∃ x ys C, xs = x :: ys ∧ TakesOne b A x C ∧ Takes bs C ys B
end Spec
open Spec

namespace IterRange

theorem contains_iff {r : IterRange I} {p : I} :
    r.contains p = true ↔ r.start ≤ p ∧ if r.exhausted then p < r.stop else p ≤ r.stop := by
  unfold contains endBound Bound.admitsAbove Bound.admitsBelow
  cases r.exhausted <;> simp

/-- what iteration keeps: an exhausted range has equal end-points, and the end-points stay ordered -/
def Inv (s e : I) (r : IterRange I) : Prop :=
  (r.exhausted = true → r.start = r.stop ∧ s ≤ e) ∧ (r.start ≤ r.stop ↔ s ≤ e)

theorem isEmpty_iff {s e : I} {r : IterRange I} (h : Inv s e r) : r.isEmpty = true ↔ ∀ p, ¬ r.contains p = true := by
  unfold isEmpty
  simp only [contains_iff]
  cases hx : r.exhausted
  · simp only [Bool.false_or, Bool.not_eq_true', decide_eq_false_iff_not, not_le]
    constructor
    · rintro h p ⟨a, b⟩; simp at b; order
    · intro h; by_contra hc; exact h r.start ⟨le_refl _, by simpa using not_lt.1 hc⟩
  · obtain ⟨he, -⟩ := h.1 hx
    simp only [Bool.true_or, true_iff]
    rintro p ⟨a, b⟩; simp at b; order

theorem next_spec {s e : I} {r : IterRange I} (h : Inv s e r) :
    TakesOne false (fun p => r.contains p = true) r.next.1 (fun p => r.next.2.contains p = true) ∧ Inv s e r.next.2 := by
  unfold next
  by_cases he : r.isEmpty = true
  · rw [if_pos he]; exact ⟨⟨(isEmpty_iff h).1 he, (isEmpty_iff h).1 he⟩, h⟩
  · rw [if_neg he]
    have hx : r.exhausted = false ∧ r.start ≤ r.stop := by
      unfold isEmpty at he; cases hh : r.exhausted <;> simp_all
    obtain ⟨hx, hle⟩ := hx
    by_cases hlt : r.start < r.stop
    · rw [if_pos hlt]
      obtain ⟨u, hu⟩ : ∃ u, up r.start = some u := by
        rcases hu : up r.start with _ | u
        · exact absurd (LawfulPoint.up_none _ hu r.stop) (not_le.2 hlt)
        · exact ⟨u, rfl⟩
      obtain ⟨hu1, hu2⟩ := LawfulPoint.up_some _ _ hu
      refine ⟨⟨?_, ?_, ?_⟩, ?_⟩
      · simp [contains_iff, hx, hle]
      · intro p hp; simpa using (contains_iff.1 hp).1
      · intro p
        simp only [contains_iff, hu, Option.getD_some, hx]
        constructor
        · rintro ⟨a, b⟩; exact ⟨⟨by order, b⟩, by rintro rfl; order⟩
        · rintro ⟨⟨a, b⟩, c⟩; exact ⟨hu2 p (lt_of_le_of_ne a (Ne.symm c)), b⟩
      · refine ⟨fun h' => ?_, ?_⟩
        · simp [hx] at h'
        · simp only [hu, Option.getD_some]
          exact ⟨fun _ => h.2.1 hle, fun _ => hu2 _ hlt⟩
    · rw [if_neg hlt]
      have hes : r.start = r.stop := le_antisymm hle (not_lt.1 hlt)
      refine ⟨⟨?_, ?_, ?_⟩, ?_⟩
      · simp [contains_iff, hx, hle]
      · intro p hp; simpa using (contains_iff.1 hp).1
      · intro p
        simp only [contains_iff, hx, hes]
        simp only [if_true, Bool.false_eq_true, if_false]
        constructor
        · rintro ⟨a, b⟩; order
        · rintro ⟨⟨a, b⟩, c⟩; exact absurd (le_antisymm b a) c
      · exact ⟨fun _ => ⟨hes, h.2.1 hle⟩, h.2⟩

theorem nextBack_spec {s e : I} {r : IterRange I} (h : Inv s e r) :
    TakesOne true (fun p => r.contains p = true) r.nextBack.1 (fun p => r.nextBack.2.contains p = true) ∧
      Inv s e r.nextBack.2 := by
  unfold nextBack
  by_cases he : r.isEmpty = true
  · rw [if_pos he]; exact ⟨⟨(isEmpty_iff h).1 he, (isEmpty_iff h).1 he⟩, h⟩
  · rw [if_neg he]
    have hx : r.exhausted = false ∧ r.start ≤ r.stop := by
      unfold isEmpty at he; cases hh : r.exhausted <;> simp_all
    obtain ⟨hx, hle⟩ := hx
    by_cases hlt : r.start < r.stop
    · rw [if_pos hlt]
      obtain ⟨u, hu⟩ : ∃ u, down r.stop = some u := by
        rcases hu : down r.stop with _ | u
        · exact absurd (LawfulPoint.down_none _ hu r.start) (not_le.2 hlt)
        · exact ⟨u, rfl⟩
      obtain ⟨hu1, hu2⟩ := LawfulPoint.down_some _ _ hu
      refine ⟨⟨?_, ?_, ?_⟩, ?_⟩
      · simp [contains_iff, hx, hle]
      · intro p hp; simpa [hx] using (contains_iff.1 hp).2
      · intro p
        simp only [contains_iff, hu, Option.getD_some, hx, Bool.false_eq_true, if_false]
        constructor
        · rintro ⟨a, b⟩; exact ⟨⟨a, by order⟩, by rintro rfl; order⟩
        · rintro ⟨⟨a, b⟩, c⟩; exact ⟨a, hu2 p (lt_of_le_of_ne b c)⟩
      · refine ⟨fun h' => ?_, ?_⟩
        · simp [hx] at h'
        · simp only [hu, Option.getD_some]
          exact ⟨fun _ => h.2.1 hle, fun _ => hu2 _ hlt⟩
    · rw [if_neg hlt]
      have hes : r.start = r.stop := le_antisymm hle (not_lt.1 hlt)
      refine ⟨⟨?_, ?_, ?_⟩, ?_⟩
      · simp [contains_iff, hx, hle]
      · intro p hp; simpa [hx] using (contains_iff.1 hp).2
      · intro p
        simp only [contains_iff, hx, hes]
        simp only [if_true, Bool.false_eq_true, if_false]
        constructor
        · rintro ⟨a, b⟩; order
        · rintro ⟨⟨a, b⟩, c⟩; exact absurd (le_antisymm b a) c
      · exact ⟨fun _ => ⟨hes, h.2.1 hle⟩, h.2⟩

theorem iterate_spec {s e : I} (bs : List Bool) (r : IterRange I) (h : Inv s e r) :
    Takes bs (fun p => r.contains p = true) (iterate bs r).1 (fun p => (iterate bs r).2.contains p = true) ∧
      Inv s e (iterate bs r).2 := by
  induction bs generalizing r with
  | nil => exact ⟨⟨rfl, fun _ => Iff.rfl⟩, h⟩
  | cons b bs ih =>
    cases b
    · obtain ⟨h1, h2⟩ := next_spec h
      obtain ⟨h3, h4⟩ := ih _ h2
      exact ⟨⟨_, _, _, rfl, h1, h3⟩, h4⟩
    · obtain ⟨h1, h2⟩ := nextBack_spec h
      obtain ⟨h3, h4⟩ := ih _ h2
      exact ⟨⟨_, _, _, rfl, h1, h3⟩, h4⟩

theorem iterate_exhausted (bs : List Bool) (r : IterRange I) (h : r.exhausted = true) :
    iterate bs r = (List.replicate bs.length none, r) := by
  induction bs with
  | nil => rfl
  | cons b bs ih =>
    have h1 : r.next = (none, r) := by unfold next isEmpty; simp [h]
    have h2 : r.nextBack = (none, r) := by unfold nextBack isEmpty; simp [h]
    cases b <;> simp [iterate, h1, h2, ih, List.replicate_succ]

theorem iterate_last {s e : I} (bs : List Bool) (r : IterRange I) (h : r.exhausted = false) (hI : Inv s e r)
    (hx : (iterate bs r).2.exhausted = true) :
    r.contains (iterate bs r).2.stop = true ∧
      ∃ pre k, (iterate bs r).1 = pre ++ some (iterate bs r).2.stop :: List.replicate k none := by
  induction bs generalizing r with
  | nil => simp [iterate, h] at hx
  | cons b bs ih =>
    have key : ∀ s' : Option I × IterRange I, (s' = if b then r.nextBack else r.next) →
        TakesOne b (fun p => r.contains p = true) s'.1 (fun p => s'.2.contains p = true) ∧ Inv s e s'.2 ∧
        (s'.2.exhausted = true → s'.1 = some s'.2.stop) := by
      rintro s' rfl
      cases b
      · obtain ⟨h1, h2⟩ := next_spec hI
        refine ⟨h1, h2, fun h3 => ?_⟩
        simp only [Bool.false_eq_true, if_false] at h3 ⊢
        have he := (h2.1 h3).1
        unfold next at h3 he ⊢
        split_ifs at h3 he ⊢ with a b
        · simp [h] at h3
        · simp [h] at h3
        · exact congrArg some he
      · obtain ⟨h1, h2⟩ := nextBack_spec hI
        refine ⟨h1, h2, fun h3 => ?_⟩
        simp only [if_true] at h3 ⊢
        unfold nextBack at h3 ⊢
        split_ifs at h3 ⊢ with a b
        · simp [h] at h3
        · simp [h] at h3
        · rfl
    obtain ⟨h1, h2, h3⟩ := key _ rfl
    have hit : iterate (b :: bs) r = ((if b then r.nextBack else r.next).1 ::
      (iterate bs (if b then r.nextBack else r.next).2).1, (iterate bs (if b then r.nextBack else r.next).2).2) := rfl
    rw [hit] at hx ⊢
    generalize (if b then r.nextBack else r.next) = s' at *
    by_cases hs : s'.2.exhausted = true
    · have h4 := h3 hs
      rw [iterate_exhausted _ _ hs, h4]
      rw [h4] at h1
      exact ⟨h1.1, [], bs.length, rfl⟩
    · obtain ⟨h5, pre, k, h6⟩ := ih s'.2 (by simpa using hs) h2 hx
      refine ⟨?_, s'.1 :: pre, k, by rw [h6]; rfl⟩
      rcases h7 : s'.1 with _ | x
      · rw [h7] at h1; exact absurd h5 (h1.2 _)
      · rw [h7] at h1; exact ((h1.2.2 _).1 h5).1

end IterRange
open IterRange

/-- **C25**, for ranges that have been iterated: take any range `s..=e`, call `next` and `next_back` on it in any
order, and convert what is left. Iteration takes points off the two ends of the range, and
* the conversion panics iff the range was empty before any iteration (iterating never makes it panic);
* while the range still has points, the interval has exactly those points;
* once iteration has used the range up (it is empty, although it was not at the start), the conversion does *not*
  panic: it returns an interval of one point, that of the last item taken. -/
theorem C25_iterated_range (s e : I) (bs : List Bool) :
    let r := (iterate bs (new s e)).2
    Takes bs (fun p => s ≤ p ∧ p ≤ e) (iterate bs (new s e)).1 (fun p => r.contains p = true) ∧
    ((∃ x, r.toInterval = .error x) ↔ ¬ s ≤ e) ∧
    (∀ i, r.toInterval = .ok i → (∃ p, r.contains p = true) → ∀ p, Mem p i ↔ r.contains p = true) ∧
    (s ≤ e → (∀ p, ¬ r.contains p = true) → ∃ q, s ≤ q ∧ q ≤ e ∧ r.toInterval = .ok ⟨q, q⟩ ∧
      ∃ pre k, (iterate bs (new s e)).1 = pre ++ some q :: List.replicate k none) := by
  intro r
  have h0 : Inv s e (new s e) := ⟨fun h => Bool.noConfusion h, Iff.rfl⟩
  obtain ⟨ht, hi⟩ := iterate_spec bs _ h0
  have hok : r.start ≤ r.stop → r.toInterval = .ok ⟨r.start, r.stop⟩ := fun h => by
    unfold IterRange.toInterval ii mkChecked; rw [invalidIntervalPanic_ok]; exact rfl; exact h
  refine ⟨?_, ?_, ?_, ?_⟩
  · have : (fun p => (new s e).contains p = true) = fun p => s ≤ p ∧ p ≤ e := by
      funext p; simp [contains_iff, new]
    rw [this] at ht; exact ht
  · constructor
    · rintro ⟨x, hx⟩ hse
      rw [hok (hi.2.2 hse)] at hx; cases hx
    · intro hse
      refine ⟨.invalidInterval, ?_⟩
      unfold IterRange.toInterval ii mkChecked
      rw [invalidIntervalPanic_err]
      · rfl
      · exact fun hh => hse (hi.2.1 hh)
  · rintro i h ⟨q, hq⟩ p
    have hle : r.start ≤ r.stop := by
      have := contains_iff.1 hq
      split_ifs at this <;> order
    rw [hok hle] at h; cases h
    have hx : r.exhausted = false := by
      cases hx : r.exhausted
      · rfl
      · have := contains_iff.1 hq
        rw [hx] at this
        obtain ⟨he, -⟩ := hi.1 hx
        simp at this; order
    rw [contains_iff, hx]; simp [Mem, start, stop]
  · intro hse hemp
    have hle := hi.2.2 hse
    have hx : r.exhausted = true := by
      by_contra hx
      exact hemp r.start (contains_iff.2 ⟨le_refl _, by simpa [hx] using hle⟩)
    obtain ⟨he, -⟩ := hi.1 hx
    obtain ⟨h1, pre, k, h2⟩ := iterate_last bs (new s e) rfl h0 hx
    have h3 := contains_iff.1 h1
    refine ⟨r.stop, h3.1, h3.2, ?_, pre, k, h2⟩
    rw [hok hle, ← he]

/-- **C25**, an interval as an iterator: the range made from an interval contains exactly the points of the interval, gives them at its two
ends in whatever order `next` and `next_back` are called, and, as long as it is not iterated, converts back to the interval. -/
theorem C25_iterating_an_interval (i : Interval I) (bs : List Bool) :
    (∀ p, (IterRange.ofInterval i).contains p = true ↔ Mem p i) ∧
    Takes bs (fun p => Mem p i) (iterate bs (IterRange.ofInterval i)).1 (fun p => (iterate bs (IterRange.ofInterval i)).2.contains p = true) ∧
    (Valid i → (IterRange.ofInterval i).toInterval = .ok i) := by
  have hc : ∀ p, (IterRange.ofInterval i).contains p = true ↔ Mem p i := fun p => by
    rw [contains_iff]; simp [IterRange.ofInterval, new, Mem, start, stop]
  have h0 : IterRange.Inv i.start i.stop (IterRange.ofInterval i) := ⟨fun h => Bool.noConfusion h, Iff.rfl⟩
  refine ⟨hc, ?_, fun hv => ?_⟩
  · have := (iterate_spec bs _ h0).1
    rwa [show (fun p => (IterRange.ofInterval i).contains p = true) = fun p => Mem p i from funext fun p => propext (hc p)] at this
  · unfold IterRange.toInterval ii mkChecked
    rw [invalidIntervalPanic_ok]
    · rfl
    · exact valid_iff.1 hv

example : (iterate [false, true, true, false, true] (IterRange.ofInterval (Demo.iv 253 255))).1 =
    [some (Demo.u8 253), some (Demo.u8 255), some (Demo.u8 254), none, none] := by decide

/-- the case of an exhausted range is reached: `2..=3`, iterated to its end, is empty and converts to `[3, 3]`, and the
range `3..=2`, which is as empty, panics -/
example : let r := (iterate [false, false, false] (new (Demo.u8 2) (Demo.u8 3))).2
    (iterate [false, false, false] (new (Demo.u8 2) (Demo.u8 3))).1 = [some (Demo.u8 2), some (Demo.u8 3), none] ∧
    r.isEmpty = true ∧ r.toInterval = .ok (Demo.iv 3 3) ∧
    (new (Demo.u8 3) (Demo.u8 2)).isEmpty = true ∧
    (new (Demo.u8 3) (Demo.u8 2)).toInterval = .error .invalidInterval := by decide

/-- and so is the case of a range with points left: `2..=9` less its two ends -/
example : (iterate [false, true] (new (Demo.u8 2) (Demo.u8 9))).2.toInterval = .ok (Demo.iv 3 8) := by decide

end Nodit
