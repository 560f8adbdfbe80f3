import Verif.RangeBounds
import Verif.Props.Intervals
/-!
# C75–C77: laws of the interval operations

C75: `intersection`, `overlaps`, `contains_interval` and `contains_point` satisfy the laws of sets.
C76: the laws of `translate` and `width`.
C77: an `Interval` used as a `RangeBounds` means the same set of points.
-/
set_option linter.unusedSectionVars false
namespace Nodit
open Spec PointType InclusiveInterval

section
variable {I K A : Type} [PointType I] [LawfulPoint I] [IntervalType I K] [IntervalType I A]

theorem intersection_eq (a : K) (b : A) : intersection a b =
    if max (start a) (start b) ≤ min (stop a) (stop b) then
      some (ofInterval ⟨max (start a) (start b), min (stop a) (stop b)⟩) else none := rfl

/-- **C75**: intersecting is commutative, associative and, on intervals that are valid, idempotent. -/
theorem C75_intersection_semilattice [LawfulInterval I K] (a b c : K) :
    intersection a b = intersection b a ∧
    (intersection a b).bind (intersection · c) = (intersection b c).bind (intersection a ·) ∧
    (Valid a → intersection a a = some (ofInterval ⟨start a, stop a⟩)) := by
  have s := LawfulInterval.start_of (K := K)
  have e := LawfulInterval.stop_of (K := K)
  refine ⟨?_, ?_, ?_⟩
  · rw [intersection_eq, intersection_eq, max_comm, min_comm]
  · simp only [intersection_eq]
    split_ifs with h1 h2 h2
    · simp only [Option.bind_some, s, e, max_assoc, min_assoc]
    · simp only [Option.bind_some, Option.bind_none, s, e]
      rw [if_neg]
      intro h
      apply h2
      exact le_trans (le_trans (max_le_max (le_max_right _ _) le_rfl) h) (min_le_min (min_le_right _ _) le_rfl)
    · simp only [Option.bind_some, Option.bind_none, s, e]
      rw [if_neg]
      intro h
      apply h1
      exact le_trans (le_trans (max_le_max le_rfl (le_max_left _ _)) h) (min_le_min le_rfl (min_le_left _ _))
    · rfl
  · intro h
    rw [intersection_eq, max_self, min_self, if_pos (valid_iff.1 h)]

/-- **C75**: `intersection` gives the greatest interval contained in both: a valid interval is contained in `a` and
in `b` iff they have an intersection and it is contained in that. -/
theorem C75_intersection_greatest [LawfulInterval I K] (a b : K) (c : A) (hc : Valid c) :
    (containsInterval a c = true ∧ containsInterval b c = true) ↔
      ∃ r, intersection a b = some r ∧ containsInterval r c = true := by
  have s := LawfulInterval.start_of (K := K)
  have e := LawfulInterval.stop_of (K := K)
  have hc := valid_iff.1 hc
  simp only [containsInterval, Bool.and_eq_true, decide_eq_true_iff, ge_iff_le, intersection_eq]
  constructor
  · rintro ⟨⟨h1, h2⟩, h3, h4⟩
    refine ⟨_, if_pos (le_trans (max_le h1 h3) (le_trans hc (le_min h2 h4))), ?_, ?_⟩
    · rw [s]; exact max_le h1 h3
    · rw [e]; exact le_min h2 h4
  · rintro ⟨r, hr, h1, h2⟩
    split_ifs at hr
    obtain rfl := Option.some.inj hr
    rw [s] at h1; rw [e] at h2
    exact ⟨⟨le_trans (le_max_left _ _) h1, le_trans h2 (min_le_left _ _)⟩,
      le_trans (le_max_right _ _) h1, le_trans h2 (min_le_right _ _)⟩

/-- **C75**: `contains_interval` is a partial order on `Interval`s (for all interval types a preorder whose
equivalence is having the same end-points), and agrees with `contains_point` on points. -/
theorem C75_contains_interval_order (a b c : K) (p : I) :
    containsInterval a a = true ∧
    (containsInterval a b = true → containsInterval b c = true → containsInterval a c = true) ∧
    (containsInterval a b = true → containsInterval b a = true → start a = start b ∧ stop a = stop b) ∧
    containsPoint a p = containsInterval a (⟨p, p⟩ : Interval I) := by
  simp only [containsInterval, containsPoint, Bool.and_eq_true, decide_eq_true_iff, ge_iff_le]
  refine ⟨⟨le_rfl, le_rfl⟩, fun h1 h2 => ⟨le_trans h1.1 h2.1, le_trans h2.2 h1.2⟩,
    fun h1 h2 => ⟨le_antisymm h1.1 h2.1, le_antisymm h2.2 h1.2⟩, rfl⟩

theorem containsPointU_eq (k : K) (p : I) : containsPointU k p = decide (start k ≤ p ∧ p ≤ stop k) := by
  rw [Bool.eq_iff_iff, containsPointU_iff, decide_eq_true_iff]

theorem overlaps_error_iff {a : K} {b : A} : (∃ x, overlaps a b = .error x) ↔
    (Mem (stop b) a ∧ stop a < start b) ∨ (Mem (stop a) b ∧ stop b < start a) := by
  unfold overlaps sortedConfig config
  simp only [bind, Except.bind, pure, Except.pure, containsPointU_eq, Mem]
  by_cases h : start a < start b
  · rw [if_pos h]
    by_cases h1 : start a ≤ start b ∧ start b ≤ stop a <;> by_cases h2 : start a ≤ stop b ∧ stop b ≤ stop a <;>
      simp only [h1, h2, decide_true, decide_false] <;> simp <;> grind
  · rw [if_neg h]
    by_cases h1 : start b ≤ start a ∧ start a ≤ stop b <;> by_cases h2 : start b ≤ stop a ∧ stop a ≤ stop b <;>
      simp only [h1, h2, decide_true, decide_false] <;> simp <;> grind

/-- **C75**: `overlaps` does not check its arguments: it panics exactly when one of the intervals ends in the other
one but starts above it (so only if it is invalid). On valid intervals it is true iff `intersection` finds something,
and a contained valid interval overlaps its container. -/
theorem C75_overlaps_agrees (a : K) (b : A) :
    ((∃ x, overlaps a b = .error x) ↔
      (Mem (stop b) a ∧ stop a < start b) ∨ (Mem (stop a) b ∧ stop b < start a)) ∧
    (Valid a → Valid b → overlaps a b = .ok (intersection a b).isSome) ∧
    (Valid b → containsInterval a b = true → overlaps a b = .ok true) := by
  have key : Valid a → Valid b → overlaps a b = .ok (intersection a b).isSome := by
    intro ha hb
    have ha := valid_iff.1 ha
    have hb := valid_iff.1 hb
    rw [overlaps_ok ha hb, intersection_eq]
    congr 1
    by_cases h : max (start a) (start b) ≤ min (stop a) (stop b)
    · rw [if_pos h]
      simp only [Option.isSome_some, decide_eq_true_iff]
      simp only [max_le_iff, le_min_iff] at h
      tauto
    · rw [if_neg h]
      simp only [Option.isSome_none, decide_eq_false_iff_not]
      simp only [max_le_iff, le_min_iff] at h
      tauto
  refine ⟨overlaps_error_iff, key, ?_⟩
  · intro hb h
    simp only [containsInterval, Bool.and_eq_true, decide_eq_true_iff, ge_iff_le] at h
    have hb' := valid_iff.1 hb
    have ha : Valid a := valid_iff.2 (le_trans h.1 (le_trans hb' h.2))
    rw [key ha hb, intersection_eq, if_pos, Option.isSome_some]
    exact le_trans (max_le h.1 le_rfl) (le_trans hb' (le_min h.2 le_rfl))

/-- **C75**: for `Interval`s, "is contained" can be tested by intersecting. -/
theorem C75_contains_iff_intersection (a b : Interval I) (hb : Valid b) :
    containsInterval a b = true ↔ intersection a b = some b := by
  have hb' := valid_iff.1 hb
  simp only [containsInterval, Bool.and_eq_true, decide_eq_true_iff, ge_iff_le, intersection_eq]
  constructor
  · rintro ⟨h1, h2⟩
    rw [max_eq_right h1, min_eq_right h2, if_pos hb']; rfl
  · intro h
    split_ifs at h
    have h := Option.some.inj h
    have h1 : max (start a) (start b) = start b := congrArg Interval.start h
    have h2 : min (stop a) (stop b) = stop b := congrArg Interval.stop h
    exact ⟨max_eq_right_iff.1 h1, min_eq_right_iff.1 h2⟩

example : (intersection (Demo.iv 3 9) (Demo.iv 5 20)).bind (intersection · (Demo.iv 0 7)) = some (Demo.iv 5 7) ∧
    containsInterval (Demo.iv 3 9) (Demo.iv 5 7) = true ∧ Valid (Demo.iv 5 7) ∧
    overlaps (Demo.iv 3 9) (Demo.iv 12 5) = .error .unreachable ∧
    overlaps (Demo.iv 3 9) (Demo.iv 7 5) = .ok true :=
  ⟨by decide, by decide, valid_iff.2 (by decide), by decide, by decide⟩

end

/-! ## C76 -/

section Arith
variable {lo hi : Int} [Fact (lo ≤ hi)] {K : Type} [IntervalType (BInt lo hi) K] [LawfulInterval (BInt lo hi) K]

theorem addChecked_ok_iff {a b c : BInt lo hi} : a.addChecked b = .ok c ↔ c.val = a.val + b.val := by
  rcases addChecked_cases a b with ⟨_, d, h, hd⟩ | ⟨h, h'⟩
  · rw [h]
    constructor
    · intro hc; cases hc; exact hd
    · intro hc; congr 1; ext; omega
  · rw [h']
    have := c.ge; have := c.le
    constructor
    · intro hc; cases hc
    · intro hc; omega

theorem translate_ok_iff {k r : K} {d : BInt lo hi} :
    translate BInt.addChecked k d = .ok r ↔
      ∃ s e, s.val = (start k).val + d.val ∧ e.val = (stop k).val + d.val ∧ r = ofInterval ⟨s, e⟩ := by
  unfold translate
  constructor
  · intro h
    cases hs : (start k).addChecked d with
    | error x => rw [hs] at h; cases h
    | ok s =>
      cases he : (stop k).addChecked d with
      | error x => rw [hs, he] at h; cases h
      | ok e =>
        rw [hs, he] at h
        cases h
        exact ⟨s, e, addChecked_ok_iff.1 hs, addChecked_ok_iff.1 he, rfl⟩
  · rintro ⟨s, e, hs, he, rfl⟩
    rw [addChecked_ok_iff.2 hs, addChecked_ok_iff.2 he]; rfl

/-- **C76** (overflow checks on): translating twice is translating once by the sum. -/
theorem C76_translate_twice {k r r' : K} {d d' dd : BInt lo hi} (hsum : d.addChecked d' = .ok dd)
    (h : translate BInt.addChecked k d = .ok r) (h' : translate BInt.addChecked r d' = .ok r') :
    translate BInt.addChecked k dd = .ok r' := by
  rw [addChecked_ok_iff] at hsum
  obtain ⟨s, e, hs, he, rfl⟩ := translate_ok_iff.1 h
  obtain ⟨s', e', hs', he', rfl⟩ := translate_ok_iff.1 h'
  rw [LawfulInterval.start_of] at hs'
  rw [LawfulInterval.stop_of] at he'
  simp only at hs' he'
  exact translate_ok_iff.2 ⟨s', e', by omega, by omega, rfl⟩

/-- **C76** (overflow checks on): translating keeps the width and the validity, and two intervals translated by the
same amount overlap, touch or contain each other exactly as before. -/
theorem C76_translate_rigid {k k' r r' : K} {d : BInt lo hi}
    (h : translate BInt.addChecked k d = .ok r) (h' : translate BInt.addChecked k' d = .ok r') :
    width BInt.subChecked r = width BInt.subChecked k ∧ (Valid r ↔ Valid k) ∧
    (Overlap r r' ↔ Overlap k k') ∧ containsInterval r r' = containsInterval k k' ∧
    (Valid k → Valid k' → (Touch r r' ↔ Touch k k')) := by
  obtain ⟨s, e, hs, he, rfl⟩ := translate_ok_iff.1 h
  obtain ⟨s', e', hs', he', rfl⟩ := translate_ok_iff.1 h'
  have a1 := LawfulInterval.start_of (K := K) ⟨s, e⟩
  have a2 := LawfulInterval.stop_of (K := K) ⟨s, e⟩
  have a3 := LawfulInterval.start_of (K := K) ⟨s', e'⟩
  have a4 := LawfulInterval.stop_of (K := K) ⟨s', e'⟩
  refine ⟨?_, ?_, ?_, ?_, ?_⟩
  · unfold width BInt.subChecked BInt.checkedSub
    rw [a1, a2]
    have : e.val - s.val = (stop k).val - (start k).val := by omega
    simp only [this]
  · rw [valid_iff, valid_iff, a1, a2, BInt.le_def, BInt.le_def]; simp only; omega
  · have key : ∀ x y : K, Overlap x y ↔ max (start x) (start y) ≤ min (stop x) (stop y) := by
      intro x y
      constructor
      · rintro ⟨p, ⟨h1, h2⟩, h3, h4⟩; exact le_trans (max_le h1 h3) (le_min h2 h4)
      · intro h
        exact ⟨max (start x) (start y), ⟨le_max_left _ _, le_trans h (min_le_left _ _)⟩,
          ⟨le_max_right _ _, le_trans h (min_le_right _ _)⟩⟩
    rw [key, key, a1, a2, a3, a4]
    simp only [max_le_iff, le_min_iff, BInt.le_def]
    omega
  · simp only [containsInterval, a1, a2, a3, a4, BInt.le_def, ge_iff_le]
    congr 1 <;> apply decide_eq_decide.2 <;> omega
  · intro hk hk'
    rw [valid_iff, BInt.le_def] at hk hk'
    have up_val : ∀ a b : BInt lo hi, up a = some b ↔ a.val + 1 = b.val := by
      intro a b
      exact ((C28_up_down_exact lo hi a).1 b).trans eq_comm
    rw [touch_iff (by rw [a1, a2, BInt.le_def]; simp only; omega) (by rw [a3, a4, BInt.le_def]; simp only; omega),
      touch_iff (BInt.le_def.2 hk) (BInt.le_def.2 hk'), up_val, up_val, up_val, up_val, a1, a2, a3, a4]
    simp only
    omega

/-- **C76** (overflow checks on): a valid interval has `width + 1` points. -/
theorem C76_width_counts_points {k : K} {w : BInt lo hi} (hk : Valid k)
    (h : width BInt.subChecked k = .ok w) :
    ∃ points : List (BInt lo hi), points.Nodup ∧ (∀ p, p ∈ points ↔ Mem p k) ∧ (points.length : Int) = w.val + 1 := by
  have hv := BInt.le_def.1 (valid_iff.1 hk)
  have hs := (start k).ge
  have he := (stop k).le
  have hw : w.val = (stop k).val - (start k).val := by
    unfold width BInt.subChecked BInt.checkedSub BInt.ofInt? at h
    split_ifs at h
    · cases h; rfl
  refine ⟨(List.range (w.val + 1).toNat).pmap
    (fun n (hn : n < (w.val + 1).toNat) => (⟨(start k).val + n, by omega, by omega⟩ : BInt lo hi))
    (fun n hn => List.mem_range.1 hn), ?_, ?_, ?_⟩
  · refine List.Nodup.pmap ?_ List.nodup_range
    intro a _ b _ hab
    have := congrArg BInt.val hab
    simp only at this
    omega
  · intro p
    rw [List.mem_pmap]
    constructor
    · rintro ⟨n, hn, rfl⟩
      have := List.mem_range.1 hn
      constructor <;> rw [BInt.le_def] <;> simp only <;> omega
    · rintro ⟨h1, h2⟩
      rw [BInt.le_def] at h1 h2
      refine ⟨(p.val - (start k).val).toNat, List.mem_range.2 (by omega), ?_⟩
      ext; simp only; omega
  · rw [List.length_pmap, List.length_range]; omega

end Arith

section Wrap
variable {lo hi : Int} [Fact (lo ≤ hi)] {K : Type} [IntervalType (BInt lo hi) K] [LawfulInterval (BInt lo hi) K]

theorem wrapInt_congr {h : lo ≤ hi} {m n : Int} (hmn : (m - n) % (hi - lo + 1) = 0) :
    BInt.wrapInt lo hi h m = BInt.wrapInt lo hi h n := by
  ext
  simp only [BInt.wrapInt]
  have : (m - lo) % (hi - lo + 1) = (n - lo) % (hi - lo + 1) := by
    apply Int.emod_eq_emod_iff_emod_sub_eq_zero.2
    rw [show m - lo - (n - lo) = m - n by omega]
    exact hmn
  omega

theorem wrapInt_val_congr (h : lo ≤ hi) (m : Int) :
    ((BInt.wrapInt lo hi h m).val - m) % (hi - lo + 1) = 0 := by
  simp only [BInt.wrapInt]
  have := Int.emod_add_mul_ediv (m - lo) (hi - lo + 1)
  apply Int.emod_eq_zero_of_dvd
  refine ⟨-((m - lo) / (hi - lo + 1)), ?_⟩
  rw [Int.mul_neg]
  omega

/-- **C76** (overflow checks off): `translate` never panics, and translating by `d` and then by `d'` is translating
by the wrapped sum `d + d'`, whether or not anything wraps on the way. -/
theorem C76_translate_twice_wrapping (k : K) (d d' : BInt lo hi) :
    ∃ r dd, translate BInt.addWrapping k d = .ok r ∧ d.addWrapping d' = .ok dd ∧
      translate BInt.addWrapping r d' = translate BInt.addWrapping k dd := by
  refine ⟨_, _, rfl, rfl, ?_⟩
  simp only [translate, BInt.addWrapping, bind, Except.bind, pure, Except.pure, LawfulInterval.start_of,
    LawfulInterval.stop_of]
  have key : ∀ (a : BInt lo hi) (h : lo ≤ hi),
      BInt.wrapInt lo hi h ((BInt.wrapInt lo hi h (a.val + d.val)).val + d'.val) =
      BInt.wrapInt lo hi h (a.val + (BInt.wrapInt lo hi h (d.val + d'.val)).val) := by
    intro a h
    apply wrapInt_congr
    have h1 := Int.dvd_of_emod_eq_zero (wrapInt_val_congr h (a.val + d.val))
    have h2 := Int.dvd_of_emod_eq_zero (wrapInt_val_congr h (d.val + d'.val))
    apply Int.emod_eq_zero_of_dvd
    have := Int.dvd_sub h1 h2
    convert this using 1
    omega
  rw [key, key]

theorem wrapInt_of_mem {h : lo ≤ hi} {n : Int} (h1 : lo ≤ n) (h2 : n ≤ hi) : (BInt.wrapInt lo hi h n).val = n := by
  simp only [BInt.wrapInt]
  rw [Int.emod_eq_of_lt (by omega) (by omega)]; omega

/-- **C76** (overflow checks off): a translation can be undone: translating by `d` and then by the (wrapped) negation
of `d` gives the interval back, even if an end-point wrapped around. -/
theorem C76_translate_undo_wrapping (k : K) (zero d nd : BInt lo hi) (hz : zero.val = 0)
    (h : zero.subWrapping d = .ok nd) :
    ∃ r, translate BInt.addWrapping k d = .ok r ∧
      translate BInt.addWrapping r nd = .ok (ofInterval ⟨start k, stop k⟩) := by
  refine ⟨_, rfl, ?_⟩
  cases h
  simp only [translate, BInt.addWrapping, bind, Except.bind, pure, Except.pure, LawfulInterval.start_of,
    LawfulInterval.stop_of]
  have hhi : lo ≤ hi := Fact.out
  have key : ∀ (a : BInt lo hi) (h : lo ≤ hi),
      BInt.wrapInt lo hi h ((BInt.wrapInt lo hi h (a.val + d.val)).val +
        (BInt.wrapInt lo hi h (zero.val - d.val)).val) = a := by
    intro a h
    have h1 := Int.dvd_of_emod_eq_zero (wrapInt_val_congr h (a.val + d.val))
    have h2 := Int.dvd_of_emod_eq_zero (wrapInt_val_congr h (zero.val - d.val))
    rw [wrapInt_congr (n := a.val)]
    · ext; exact wrapInt_of_mem a.ge a.le
    · apply Int.emod_eq_zero_of_dvd
      have := Int.dvd_add h1 h2
      convert this using 1
      omega
  rw [key, key]

/-- **C76** (overflow checks off): `width` never panics; it is the distance between the end-points when that fits
the type, and otherwise negative (so wrong): the distance minus the number of values of the type. -/
theorem C76_width_wrapping (k : K) (hk : Valid k) (h0 : lo ≤ 0) (h1 : 0 ≤ hi) :
    ∃ w, width BInt.subWrapping k = .ok w ∧
      ((stop k).val - (start k).val ≤ hi → w.val = (stop k).val - (start k).val) ∧
      (hi < (stop k).val - (start k).val → w.val = (stop k).val - (start k).val - (hi - lo + 1) ∧ w.val < 0) := by
  have hv := BInt.le_def.1 (valid_iff.1 hk)
  have := (start k).ge; have := (start k).le; have := (stop k).ge; have := (stop k).le
  refine ⟨_, rfl, fun h => wrapInt_of_mem (by omega) h, fun h => ?_⟩
  have hc : BInt.wrapInt lo hi ((stop k).ge.trans (stop k).le) ((stop k).val - (start k).val) =
      BInt.wrapInt lo hi ((stop k).ge.trans (stop k).le) ((stop k).val - (start k).val - (hi - lo + 1)) := by
    apply wrapInt_congr
    rw [show (stop k).val - (start k).val - ((stop k).val - (start k).val - (hi - lo + 1)) = hi - lo + 1 by omega]
    exact Int.emod_self
  have e : (BInt.wrapInt lo hi ((stop k).ge.trans (stop k).le) ((stop k).val - (start k).val)).val =
      (stop k).val - (start k).val - (hi - lo + 1) := by
    rw [hc, wrapInt_of_mem (by omega) (by omega)]
  exact ⟨e, by rw [e]; omega⟩

example : width (K := Interval (SInt' 8)) BInt.subWrapping ⟨⟨-128, by decide, by decide⟩, ⟨127, by decide, by decide⟩⟩ =
    .ok ⟨-1, by decide, by decide⟩ := by decide

end Wrap

example : translate BInt.addChecked (Demo.iv 4 6) (Demo.u8 8) = .ok (Demo.iv 12 14) ∧
    translate BInt.addChecked (Demo.iv 12 14) (Demo.u8 5) = .ok (Demo.iv 17 19) ∧
    (Demo.u8 8).addChecked (Demo.u8 5) = .ok (Demo.u8 13) ∧
    width BInt.subChecked (Demo.iv 12 14) = .ok (Demo.u8 2) ∧ Valid (Demo.iv 12 14) ∧
    translate BInt.addWrapping (Demo.iv 250 255) (Demo.u8 3) = .ok (Demo.iv 253 2) ∧
    translate BInt.addWrapping (Demo.iv 253 2) (Demo.u8 253) = .ok (Demo.iv 250 255) :=
  ⟨by decide, by decide, by decide, by decide, valid_iff.2 (by decide), by decide, by decide⟩

/-! ## C77 -/

section
variable {I V : Type} [PointType I] [LawfulPoint I]

/-- **C77**: `RangeBounds::contains`, `contains_point` and the points of the interval agree, and the bounds and
accessors are the interval's end-points. -/
theorem C77_range_bounds_mean_the_points (i : Interval I) (p : I) :
    (i.rangeContains p = true ↔ Mem p i) ∧ i.rangeContains p = containsPoint i p ∧
    i.startBound = .included (start i) ∧ i.endBound = .included (stop i) ∧
    i.getStart = start i ∧ i.getEnd = stop i := by
  refine ⟨?_, ?_, rfl, rfl, rfl, rfl⟩
  · simp only [Interval.rangeContains, Interval.startBound, Interval.endBound, Bound.admitsAbove, Bound.admitsBelow,
      Bool.and_eq_true, decide_eq_true_iff]
    exact Iff.rfl
  · rfl

/-- **C77**: `BTreeMap::range(interval)` on any standard map: it panics iff the interval is invalid, and otherwise
yields exactly the entries whose key is a point of the interval, in order. -/
theorem C77_select_from_btreemap (i : Interval I) (l : List (I × V)) (hl : l.Pairwise fun a b => a.1 < b.1) :
    ((∃ x, i.selectFrom l = .error x) ↔ ¬ Valid i) ∧
    ∀ r, i.selectFrom l = .ok r → r.Pairwise (fun a b => a.1 < b.1) ∧ ∀ e, e ∈ r ↔ e ∈ l ∧ Mem e.1 i := by
  have hd : l.Pairwise (fun a b => (!decide (i.start ≤ b.1)) = true → (!decide (i.start ≤ a.1)) = true) := by
    refine hl.imp ?_
    intro a b hab
    simp only [Bool.not_eq_true', decide_eq_false_iff_not, not_le]
    exact lt_trans hab
  have hsel : i.selectFrom l = if i.start > i.stop then .error () else
      .ok ((l.dropWhile fun e => !decide (i.start ≤ e.1)).takeWhile fun e => decide (e.1 ≤ i.stop)) := by
    unfold Interval.selectFrom stdRange Interval.startBound Interval.endBound
    simp only [Bound.admitsAbove, Bound.admitsBelow, decide_eq_true_iff]
  rw [hsel, valid_iff]
  refine ⟨?_, ?_⟩
  · split_ifs with h
    · exact ⟨fun _ => not_le.2 h, fun _ => ⟨_, rfl⟩⟩
    · exact ⟨fun ⟨x, hx⟩ => (by cases hx), fun h' => absurd (not_lt.1 h) h'⟩
  · intro r hr
    split_ifs at hr
    cases hr
    rw [dropWhile_eq_filter hd]
    have hf := hl.filter (fun e => !(!decide (i.start ≤ e.1)))
    rw [takeWhile_eq_filter]
    · refine ⟨hf.filter _, fun e => ?_⟩
      simp only [List.mem_filter, Bool.not_not, decide_eq_true_iff, and_assoc]
      exact Iff.rfl
    · refine hf.imp ?_
      intro a b hab
      simp only [decide_eq_true_iff]
      exact fun h => le_trans (le_of_lt hab) h

example : (Demo.iv 3 9).selectFrom [(Demo.u8 1, 'a'), (Demo.u8 3, 'b'), (Demo.u8 9, 'c'), (Demo.u8 10, 'd')] =
    .ok [(Demo.u8 3, 'b'), (Demo.u8 9, 'c')] ∧
    [(Demo.u8 1, 'a'), (Demo.u8 3, 'b'), (Demo.u8 9, 'c'), (Demo.u8 10, 'd')].Pairwise (fun a b => a.1 < b.1) := by
  decide
end

end Nodit
