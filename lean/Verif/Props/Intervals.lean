import Verif.Lemmas.Cut
import Verif.Props.Demo
/-!
# C23 - C27: intervals
-/
set_option linter.unusedSectionVars false
namespace Nodit
open Spec PointType

variable {I K Q : Type} [PointType I] [IntervalType I K] [IntervalType I Q] [LawfulPoint I]

/-- the call returns the interval of exactly the points satisfying `P`, and panics iff there is no such point -/
def BuildsExactly (r : Res (Interval I)) (P : I → Prop) : Prop :=
  ((∃ p, P p) → ∃ i, r = .ok i ∧ ∀ p, Mem p i ↔ P p) ∧ ((¬ ∃ p, P p) → ∃ x, r = .error x)

theorem mkChecked_builds {s e : I} : BuildsExactly (mkChecked ⟨s, e⟩) (fun p => s ≤ p ∧ p ≤ e) := by
  constructor
  · rintro ⟨p, h1, h2⟩
    refine ⟨⟨s, e⟩, ?_, fun p => Iff.rfl⟩
    unfold mkChecked; rw [invalidIntervalPanic_ok]
    · rfl
    · exact le_trans h1 h2
  · intro h
    refine ⟨.invalidInterval, ?_⟩
    unfold mkChecked; rw [invalidIntervalPanic_err]
    · rfl
    · intro hse; exact h ⟨s, le_refl _, hse⟩

theorem BuildsExactly.congr {r : Res (Interval I)} {P P' : I → Prop} (h : BuildsExactly r P) (hp : ∀ p, P p ↔ P' p) :
    BuildsExactly r P' := by
  have : P = P' := funext fun p => propext (hp p)
  rwa [← this]

theorem builds_error {x : Panic} {P : I → Prop} (h : ∀ p, ¬ P p) : BuildsExactly (.error x) P :=
  ⟨fun ⟨p, hp⟩ => absurd hp (h p), fun _ => ⟨x, rfl⟩⟩

theorem up_cases (s : I) : (up s = none ∧ ∀ p, ¬ s < p) ∨ ∃ u, up s = some u ∧ ∀ p, s < p ↔ u ≤ p := by
  cases h : up s with
  | none => exact Or.inl ⟨rfl, fun p hp => absurd (LawfulPoint.up_none s h p) (not_le.2 hp)⟩
  | some u =>
    have := LawfulPoint.up_some s u h
    exact Or.inr ⟨u, rfl, fun p => ⟨this.2 p, fun hp => lt_of_lt_of_le this.1 hp⟩⟩

theorem down_cases (s : I) : (down s = none ∧ ∀ p, ¬ p < s) ∨ ∃ u, down s = some u ∧ ∀ p, p < s ↔ p ≤ u := by
  cases h : down s with
  | none => exact Or.inl ⟨rfl, fun p hp => absurd (LawfulPoint.down_none s h p) (not_le.2 hp)⟩
  | some u =>
    have := LawfulPoint.down_some s u h
    exact Or.inr ⟨u, rfl, fun p => ⟨this.2 p, fun hp => lt_of_le_of_lt hp this.1⟩⟩

/-- **C23**: each constructor builds exactly the documented set of points, and panics iff that set is empty. -/
theorem C23_constructors_exact (s e : I) :
    BuildsExactly (uu : Res (Interval I)) (fun _ => True) ∧
    BuildsExactly (ui e) (fun p => p ≤ e) ∧ BuildsExactly (ue e) (fun p => p < e) ∧
    BuildsExactly (iu s) (fun p => s ≤ p) ∧ BuildsExactly (eu s) (fun p => s < p) ∧
    BuildsExactly (ii s e) (fun p => s ≤ p ∧ p ≤ e) ∧ BuildsExactly (ie s e) (fun p => s ≤ p ∧ p < e) ∧
    BuildsExactly (ei s e) (fun p => s < p ∧ p ≤ e) ∧ BuildsExactly (ee s e) (fun p => s < p ∧ p < e) := by
  have hmin : ∀ p : I, MIN ≤ p := min_le
  have hmax : ∀ p : I, p ≤ MAX := le_max
  refine ⟨?_, ?_, ?_, ?_, ?_, mkChecked_builds, ?_, ?_, ?_⟩
  · exact mkChecked_builds.congr fun p => by simp [hmin p, hmax p]
  · exact mkChecked_builds.congr fun p => by simp [hmin p]
  · unfold ue
    rcases down_cases e with ⟨h, hn⟩ | ⟨u, h, hn⟩ <;> rw [h]
    · exact builds_error hn
    · exact mkChecked_builds.congr fun p => by simp [hmin p, hn]
  · exact mkChecked_builds.congr fun p => by simp [hmax p]
  · unfold eu
    rcases up_cases s with ⟨h, hn⟩ | ⟨u, h, hn⟩ <;> rw [h]
    · exact builds_error hn
    · exact mkChecked_builds.congr fun p => by simp [hmax p, hn]
  · unfold ie
    rcases down_cases e with ⟨h, hn⟩ | ⟨u, h, hn⟩ <;> rw [h]
    · exact builds_error fun p hp => hn p hp.2
    · exact mkChecked_builds.congr fun p => by simp [hn]
  · unfold ei
    rcases up_cases s with ⟨h, hn⟩ | ⟨u, h, hn⟩ <;> rw [h]
    · exact builds_error fun p hp => hn p hp.1
    · exact mkChecked_builds.congr fun p => by simp [hn]
  · unfold ee
    rcases up_cases s with ⟨h, hn⟩ | ⟨u, h, hn⟩ <;> rw [h]
    · exact builds_error fun p hp => hn p hp.1
    · rcases down_cases e with ⟨h', hn'⟩ | ⟨u', h', hn'⟩ <;> rw [h']
      · exact builds_error fun p hp => hn' p hp.2
      · exact mkChecked_builds.congr fun p => by simp [hn, hn']

/-- both outcomes occur, also at the ends of the type -/
example : ee (Demo.u8 3) (Demo.u8 6) = .ok (Demo.iv 4 5) ∧ (∃ x, ee (Demo.u8 3) (Demo.u8 4) = .error x) ∧
    (∃ x, ue (Demo.u8 0) = .error x) ∧ eu (Demo.u8 254) = .ok (Demo.iv 255 255) := by
  refine ⟨by decide, ⟨.invalidInterval, by decide⟩, ⟨.unwrapNone, by decide⟩, by decide⟩

/-- **C24**: on valid intervals (of possibly different types) `overlaps` decides whether there is a common point and
is symmetric. -/
theorem C24_overlaps_iff_common_point {a : K} {b : Q} (ha : Valid a) (hb : Valid b) :
    ∃ r, InclusiveInterval.overlaps a b = .ok r ∧ InclusiveInterval.overlaps b a = .ok r ∧
      (r = true ↔ ∃ p, Mem p a ∧ Mem p b) := by
  have ha' := valid_iff.1 ha
  have hb' := valid_iff.1 hb
  refine ⟨_, overlaps_ok ha' hb', ?_, ?_⟩
  · rw [overlaps_ok hb' ha']; congr 1; simp only [Bool.decide_and]; rw [Bool.and_comm]
  · rw [decide_eq_true_iff]; exact (overlap_iff ha' hb').symm

/-- **C24**: `intersection` of any two intervals holds exactly their common points, and is `None` iff there are none. -/
theorem C24_intersection_exact [LawfulInterval I K] (a : K) (b : Q) :
    (∀ r, InclusiveInterval.intersection a b = some r → Valid r ∧ ∀ p, Mem p r ↔ Mem p a ∧ Mem p b) ∧
    (InclusiveInterval.intersection a b = none ↔ ¬ ∃ p, Mem p a ∧ Mem p b) := by
  have key : (∃ p, Mem p a ∧ Mem p b) ↔ max (start a) (start b) ≤ min (stop a) (stop b) := by
    constructor
    · rintro ⟨p, ⟨h1, h2⟩, h3, h4⟩; exact le_trans (max_le h1 h3) (le_min h2 h4)
    · intro h
      exact ⟨max (start a) (start b), ⟨le_max_left _ _, le_trans h (min_le_left _ _)⟩,
        ⟨le_max_right _ _, le_trans h (min_le_right _ _)⟩⟩
  unfold InclusiveInterval.intersection
  simp only
  split_ifs with h
  · refine ⟨?_, ?_⟩
    · rintro r ⟨⟩
      refine ⟨valid_iff.2 (by simpa using h), fun p => ?_⟩
      simp only [Mem, start_of, stop_of, max_le_iff, le_min_iff]; tauto
    · simp only [false_iff, not_not]; exact key.2 h
  · exact ⟨fun r hr => (by cases hr), by simp only [true_iff]; exact fun hc => h (key.1 hc)⟩

/-- **C24**: the remaining predicates. -/
theorem C24_predicates_exact (a : K) (b : Q) (p : I) :
    (InclusiveInterval.containsPoint a p = true ↔ Mem p a) ∧
    (Valid b → (InclusiveInterval.containsInterval a b = true ↔ ∀ x, Mem x b → Mem x a)) ∧
    (InclusiveInterval.isValid a = true ↔ ∃ x, Mem x a) ∧
    (InclusiveInterval.isSingular a = true ↔ ∃ x, ∀ y, Mem y a ↔ y = x) := by
  refine ⟨?_, fun hb => ?_, ?_, ?_⟩
  · simp [InclusiveInterval.containsPoint, Mem]
  · have hb' := valid_iff.1 hb
    simp only [InclusiveInterval.containsInterval, Bool.and_eq_true, decide_eq_true_iff]
    constructor
    · rintro ⟨h1, h2⟩ x ⟨h3, h4⟩; exact ⟨le_trans h1 h3, le_trans h4 h2⟩
    · intro h; exact ⟨(h _ ⟨le_refl _, hb'⟩).1, (h _ ⟨hb', le_refl _⟩).2⟩
  · simp only [InclusiveInterval.isValid, decide_eq_true_iff]; exact valid_iff.symm
  · simp only [InclusiveInterval.isSingular, beq_iff_eq]
    constructor
    · intro h
      refine ⟨start a, fun y => ?_⟩
      simp only [Mem, ← h]
      exact ⟨fun hh => le_antisymm hh.2 hh.1, fun hh => hh ▸ ⟨le_refl _, le_refl _⟩⟩
    · rintro ⟨x, hx⟩
      have hv := (hx x).2 rfl
      have h1 := (hx (start a)).1 ⟨le_refl _, le_trans hv.1 hv.2⟩
      have h2 := (hx (stop a)).1 ⟨le_trans hv.1 hv.2, le_refl _⟩
      rw [h1, h2]

example : Valid (Demo.iv 3 7) ∧ Valid (Demo.iv 7 9) ∧
    InclusiveInterval.intersection (Demo.iv 3 7) (Demo.iv 7 9) = some (Demo.iv 7 7) ∧
    InclusiveInterval.overlaps (Demo.iv 3 7) (Demo.iv 8 9) = .ok false :=
  ⟨valid_iff.2 (by decide), valid_iff.2 (by decide), by decide, by decide⟩

/-- **C25**: the range conversions round-trip, and each conversion succeeds exactly when it can. -/
theorem C25_range_conversions (i : Interval I) (hi : Valid i) (r : RangeInclusive I) (s : Range I) :
    i.toRangeInclusive.toInterval = .ok i ∧
    (i.stop ≠ MAX → ∃ r, i.toRange = .ok r ∧ r.toInterval = .ok i ∧ ∀ p, (r.start ≤ p ∧ p < r.stop) ↔ Mem p i) ∧
    (i.stop = MAX → ∃ x, i.toRange = .error x) ∧
    (∀ p, (i.toRangeInclusive.start ≤ p ∧ p ≤ i.toRangeInclusive.stop) ↔ Mem p i) ∧
    BuildsExactly r.toInterval (fun p => r.start ≤ p ∧ p ≤ r.stop) ∧
    BuildsExactly s.toInterval (fun p => s.start ≤ p ∧ p < s.stop) := by
  have hi' : i.start ≤ i.stop := valid_iff.1 hi
  refine ⟨?_, fun hm => ?_, fun hm => ?_, fun p => Iff.rfl, (C23_constructors_exact _ _).2.2.2.2.2.1,
    (C23_constructors_exact _ _).2.2.2.2.2.2.1⟩
  · unfold Interval.toRangeInclusive RangeInclusive.toInterval ii mkChecked
    rw [invalidIntervalPanic_ok hi']; rfl
  · rcases up_cases i.stop with ⟨h, -⟩ | ⟨u, h, hn⟩
    · exact absurd (up_none_iff.1 h) hm
    · refine ⟨⟨i.start, u⟩, by unfold Interval.toRange; rw [h]; rfl, ?_, fun p => ?_⟩
      · unfold Range.toInterval ie
        rw [up_eq_some_iff_down.1 h]
        show mkChecked _ = _
        unfold mkChecked; rw [invalidIntervalPanic_ok hi']; rfl
      · simp only [Mem, start, stop, and_congr_right_iff]
        intro _
        constructor
        · intro hp; by_contra hc; exact absurd ((hn p).1 (not_le.1 hc)) (not_le.2 hp)
        · intro hp; by_contra hc; exact absurd ((hn p).2 (not_lt.1 hc)) (not_lt.2 hp)
  · refine ⟨.unwrapNone, ?_⟩
    unfold Interval.toRange; rw [up_none_iff.2 hm]; rfl

example : Valid (Demo.iv 3 7) ∧ (Demo.iv 3 7).toRange = .ok ⟨Demo.u8 3, Demo.u8 8⟩ ∧
    (Demo.iv 3 255).toRange = .error .unwrapNone := ⟨valid_iff.2 (by decide), by decide, by decide⟩

section Arith
variable {lo hi : Int} [Fact (lo ≤ hi)] {K : Type} [IntervalType (BInt lo hi) K] [LawfulInterval (BInt lo hi) K]

theorem addChecked_cases (a b : BInt lo hi) :
    ((lo ≤ a.val + b.val ∧ a.val + b.val ≤ hi) ∧ ∃ c, a.addChecked b = .ok c ∧ c.val = a.val + b.val) ∨
    ((a.val + b.val < lo ∨ hi < a.val + b.val) ∧ a.addChecked b = .error .overflow) := by
  unfold BInt.addChecked
  cases h : a.checkedAdd b.val with
  | none => exact Or.inr ⟨BInt.checkedAdd_eq_none.1 h, rfl⟩
  | some c =>
    have := BInt.checkedAdd_eq_some.1 h
    have h1 := c.ge; have h2 := c.le
    exact Or.inl ⟨⟨by omega, by omega⟩, c, rfl, this⟩

/-- **C26**: with overflow checks, `translate` yields exactly the points shifted by `delta`, or panics with the
overflow of an end-point, which happens iff an end-point leaves the type. -/
theorem C26_translate_exact (k : K) (delta : BInt lo hi) :
    (∀ r : K, InclusiveInterval.translate BInt.addChecked k delta = .ok r →
      (start r).val = (start k).val + delta.val ∧ (stop r).val = (stop k).val + delta.val ∧
      ∀ p : BInt lo hi, Mem p r ↔ ∃ x : BInt lo hi, Mem x k ∧ p.val = x.val + delta.val) ∧
    (∀ x, InclusiveInterval.translate BInt.addChecked k delta = .error x → x = .overflow) ∧
    ((∃ r, InclusiveInterval.translate BInt.addChecked k delta = .ok r) ↔
      (lo ≤ (start k).val + delta.val ∧ (start k).val + delta.val ≤ hi) ∧
      (lo ≤ (stop k).val + delta.val ∧ (stop k).val + delta.val ≤ hi)) := by
  unfold InclusiveInterval.translate
  rcases addChecked_cases (start k) delta with ⟨h1, s, hs, hs'⟩ | ⟨h1, hs⟩ <;> rw [hs]
  · rcases addChecked_cases (stop k) delta with ⟨h2, e, he, he'⟩ | ⟨h2, he⟩ <;> rw [he]
    · refine ⟨?_, fun x hx => (by cases hx), ⟨fun _ => ⟨h1, h2⟩, fun _ => ⟨_, rfl⟩⟩⟩
      rintro r hr
      cases hr
      refine ⟨by rw [start_of]; exact hs', by rw [stop_of]; exact he', fun p => ?_⟩
      simp only [Mem, start_of, stop_of, BInt.le_def]
      constructor
      · intro hp
        have := (start k).ge; have := (start k).le; have := (stop k).ge; have := (stop k).le
        exact ⟨⟨p.val - delta.val, by omega, by omega⟩, by simp only; omega, by simp only; omega⟩
      · rintro ⟨x, hx, hp⟩; omega
    · refine ⟨fun r hr => (by cases hr), fun x hx => (by cases hx; rfl), ⟨fun ⟨r, hr⟩ => (by cases hr), fun hc => ?_⟩⟩
      omega
  · refine ⟨fun r hr => (by cases hr), fun x hx => (by cases hx; rfl), ⟨fun ⟨r, hr⟩ => (by cases hr), fun hc => ?_⟩⟩
    omega

/-- **C26**: `width` is the distance between the ends, or overflow (only possible for signed types). `lo ≤ 0` holds for
every primitive integer type. -/
theorem C26_width_exact (h0 : lo ≤ 0) (k : K) (hk : Valid k) :
    (∀ w, InclusiveInterval.width BInt.subChecked k = .ok w → w.val = (stop k).val - (start k).val) ∧
    (∀ x, InclusiveInterval.width BInt.subChecked k = .error x → x = .overflow ∧ hi < (stop k).val - (start k).val) ∧
    (0 = lo → ∃ w, InclusiveInterval.width BInt.subChecked k = .ok w) := by
  have hv := BInt.le_def.1 (valid_iff.1 hk)
  have := (start k).ge; have := (start k).le; have := (stop k).ge; have := (stop k).le
  unfold InclusiveInterval.width BInt.subChecked
  cases h : (stop k).checkedSub (start k).val with
  | none =>
    have h' := BInt.checkedSub_eq_none.1 h
    refine ⟨fun w hw => (by cases hw), fun x hx => ?_, fun h0 => ?_⟩
    · cases hx
      refine ⟨rfl, ?_⟩
      by_contra hc
      omega
    · omega
  | some c =>
    have h' := BInt.checkedSub_eq_some.1 h
    exact ⟨fun w hw => (by cases hw; exact h'), fun x hx => (by cases hx), fun _ => ⟨c, rfl⟩⟩
end Arith

example : InclusiveInterval.translate BInt.addChecked (Demo.iv 4 6) (Demo.u8 8) = .ok (Demo.iv 12 14) ∧
    InclusiveInterval.translate BInt.addChecked (Demo.iv 4 250) (Demo.u8 8) = .error .overflow ∧
    InclusiveInterval.width BInt.subChecked (Demo.iv 4 6) = .ok (Demo.u8 2) := by decide

/-! ## C27: `translate` in builds without overflow checks -/

theorem addWrapping_val {lo hi : Int} (h : lo ≤ 0) (h' : 0 ≤ hi) (a b : BInt lo hi) :
    ∃ c, a.addWrapping b = .ok c ∧
      ((lo ≤ a.val + b.val ∧ a.val + b.val ≤ hi ∧ c.val = a.val + b.val) ∨
       (a.val + b.val < lo ∧ c.val = a.val + b.val + (hi - lo + 1)) ∨
       (hi < a.val + b.val ∧ c.val = a.val + b.val - (hi - lo + 1))) := by
  refine ⟨_, rfl, ?_⟩
  have := a.ge; have := a.le; have := b.ge; have := b.le
  simp only [BInt.wrapInt]
  generalize a.val = x at *
  generalize b.val = y at *
  rcases lt_or_ge (x + y) lo with h1 | h1
  · right; left
    refine ⟨h1, ?_⟩
    have : (x + y - lo) % (hi - lo + 1) = x + y - lo + (hi - lo + 1) := by
      rw [← Int.add_emod_right, Int.emod_eq_of_lt] <;> omega
    omega
  · rcases lt_or_ge hi (x + y) with h2 | h2
    · right; right
      refine ⟨h2, ?_⟩
      have : (x + y - lo) % (hi - lo + 1) = x + y - lo - (hi - lo + 1) := by
        rw [← Int.sub_emod_right, Int.emod_eq_of_lt] <;> omega
      omega
    · left
      refine ⟨h1, h2, ?_⟩
      rw [Int.emod_eq_of_lt] <;> omega

/-- **C27 is false**: in a build without overflow checks `250..=255u8` translated by 3 is the invalid `253..=2`. -/
theorem C27_translate_can_build_invalid_interval :
    ∃ (i : Interval Demo.U8) (d : Demo.U8) (r : Interval Demo.U8), Valid i ∧
      InclusiveInterval.translate BInt.addWrapping i d = .ok r ∧ ¬ Valid r :=
  ⟨Demo.iv 250 255, Demo.u8 3, Demo.iv 253 2, valid_iff.2 (by decide), by decide, mt valid_iff.1 (by decide)⟩

/-- **C27**, what holds (missing: validity in general, see the counterexample above): without overflow checks
`translate` of a valid interval never panics, and the result is valid exactly unless one end-point wraps around and
the other does not. -/
theorem C27_translate_wrapping_valid_iff_partial {lo hi : Int} [Fact (lo ≤ hi)] {K : Type}
    [IntervalType (BInt lo hi) K] [LawfulInterval (BInt lo hi) K] (h0 : lo ≤ 0) (h1 : 0 ≤ hi)
    (k : K) (hk : Valid k) (d : BInt lo hi) :
    ∃ r : K, InclusiveInterval.translate BInt.addWrapping k d = .ok r ∧
      (Valid r ↔ ¬ ((start k).val + d.val ≤ hi ∧ hi < (stop k).val + d.val) ∧
                 ¬ ((start k).val + d.val < lo ∧ lo ≤ (stop k).val + d.val)) := by
  obtain ⟨s, hs, hs'⟩ := addWrapping_val h0 h1 (start k) d
  obtain ⟨e, he, he'⟩ := addWrapping_val h0 h1 (stop k) d
  refine ⟨ofInterval ⟨s, e⟩, by unfold InclusiveInterval.translate; rw [hs, he]; rfl, ?_⟩
  have hv := BInt.le_def.1 (valid_iff.1 hk)
  rw [valid_iff, start_of, stop_of, BInt.le_def]
  have := (start k).ge; have := (start k).le; have := (stop k).ge; have := (stop k).le
  have := d.ge; have := d.le
  simp only
  omega

example : ((Demo.iv 250 255).stop.val + (Demo.u8 3).val > 255) ∧
    InclusiveInterval.translate BInt.addWrapping (Demo.iv 250 255) (Demo.u8 7) = .ok (Demo.iv 1 6) := by decide

end Nodit
