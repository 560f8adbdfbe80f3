import Verif.Lemmas.Basic
/-!
# C28, C29: the point types are lawful
-/
namespace Nodit
open PointType

theorem BInt.checkedAdd_eq_some {lo hi : Int} {a b : BInt lo hi} {n : Int} :
    a.checkedAdd n = some b ↔ b.val = a.val + n := by
  unfold BInt.checkedAdd BInt.ofInt?
  have := b.ge; have := b.le
  split_ifs with h
  · rw [Option.some.injEq]
    constructor
    · rintro rfl; rfl
    · intro h'; ext; simp [h']
  · simp only [false_iff]; omega

theorem BInt.checkedAdd_eq_none {lo hi : Int} {a : BInt lo hi} {n : Int} :
    a.checkedAdd n = none ↔ a.val + n < lo ∨ hi < a.val + n := by
  unfold BInt.checkedAdd BInt.ofInt?
  split_ifs with h
  · simp only [false_iff]; omega
  · simp only [true_iff]; omega

theorem BInt.checkedSub_eq_some {lo hi : Int} {a b : BInt lo hi} {n : Int} :
    a.checkedSub n = some b ↔ b.val = a.val - n := by
  unfold BInt.checkedSub BInt.ofInt?
  have := b.ge; have := b.le
  split_ifs with h
  · rw [Option.some.injEq]
    constructor
    · rintro rfl; rfl
    · intro h'; ext; simp [h']
  · simp only [false_iff]; omega

theorem BInt.checkedSub_eq_none {lo hi : Int} {a : BInt lo hi} {n : Int} :
    a.checkedSub n = none ↔ a.val - n < lo ∨ hi < a.val - n := by
  unfold BInt.checkedSub BInt.ofInt?
  split_ifs with h
  · simp only [false_iff]; omega
  · simp only [true_iff]; omega

/-- **C28**: every primitive integer type (any range, so any width, signed or not) is a lawful point type: `up`
is the least value above and `None` only if there is none, `down` symmetrically, `MIN`/`MAX` bound all values. -/
theorem C28_primitive_integers_lawful (lo hi : Int) [Fact (lo ≤ hi)] : LawfulPoint (BInt lo hi) where
  min_le x := BInt.le_def.2 x.ge
  le_max x := BInt.le_def.2 x.le
  up_some x y h := by
    have h' := BInt.checkedAdd_eq_some.1 h
    refine ⟨BInt.lt_def.2 (by omega), fun z hz => BInt.le_def.2 ?_⟩
    have := BInt.lt_def.1 hz; omega
  up_none x h z := by
    have h' := BInt.checkedAdd_eq_none.1 h
    have := x.ge; have := z.le
    exact BInt.le_def.2 (by omega)
  down_some x y h := by
    have h' := BInt.checkedSub_eq_some.1 h
    refine ⟨BInt.lt_def.2 (by omega), fun z hz => BInt.le_def.2 ?_⟩
    have := BInt.lt_def.1 hz; omega
  down_none x h z := by
    have h' := BInt.checkedSub_eq_none.1 h
    have := x.le; have := z.ge
    exact BInt.le_def.2 (by omega)

instance {lo hi : Int} [Fact (lo ≤ hi)] : LawfulPoint (BInt lo hi) := C28_primitive_integers_lawful lo hi

/-- `up`/`down` are `±1` on the integer values and fail exactly at `MAX`/`MIN`. -/
theorem C28_up_down_exact (lo hi : Int) [Fact (lo ≤ hi)] (x : BInt lo hi) :
    (∀ y : BInt lo hi, up x = some y ↔ y.val = x.val + 1) ∧ (up x = none ↔ x = MAX) ∧
    (∀ y : BInt lo hi, down x = some y ↔ y.val = x.val - 1) ∧ (down x = none ↔ x = MIN) ∧
    (MAX : BInt lo hi).val = hi ∧ (MIN : BInt lo hi).val = lo :=
  ⟨fun _ => BInt.checkedAdd_eq_some, up_none_iff, fun _ => BInt.checkedSub_eq_some, down_none_iff, rfl, rfl⟩

/-- the unsigned and signed types are instances, e.g. `u8` has the values `0..=255` and `i8` `-128..=127` -/
example : LawfulPoint (UInt' 8) ∧ LawfulPoint (SInt' 128) ∧ LawfulPoint (UInt' 64) ∧
    (MAX : UInt' 8).val = 255 ∧ (MIN : SInt' 8).val = -128 ∧ (MAX : SInt' 8).val = 127 := by
  refine ⟨inferInstance, inferInstance, inferInstance, ?_, ?_, ?_⟩ <;> decide

section WithInfinity
variable {T : Type} [PointType T]

theorem WithInfinity.finite_le {x y : T} : WithInfinity.finite x ≤ .finite y ↔ x ≤ y := Iff.rfl
theorem WithInfinity.finite_lt {x y : T} : WithInfinity.finite x < .finite y ↔ x < y := by
  rw [lt_iff_le_not_ge, lt_iff_le_not_ge]; exact Iff.rfl
theorem WithInfinity.le_infinity {x : WithInfinity T} : x ≤ .infinity := by cases x <;> trivial
theorem WithInfinity.not_infinity_le {x : T} : ¬ WithInfinity.infinity ≤ .finite x := fun h => h

/-- **C29**: the README's `WithInfinity` of a lawful type is lawful. -/
theorem C29_withInfinity_lawful (T : Type) [PointType T] [LawfulPoint T] : LawfulPoint (WithInfinity T) where
  min_le x := by
    cases x with
    | finite x => exact WithInfinity.finite_le.2 (min_le x)
    | infinity => exact WithInfinity.le_infinity
  le_max x := WithInfinity.le_infinity
  up_some x y h := by
    cases x with
    | infinity => cases h
    | finite x =>
      change (match up x with | some y => some (WithInfinity.finite y) | none => some .infinity) = some y at h
      cases hu : up x with
      | none =>
        rw [hu] at h; cases h
        have hx := LawfulPoint.up_none x hu
        refine ⟨lt_of_le_not_ge WithInfinity.le_infinity WithInfinity.not_infinity_le, fun z hz => ?_⟩
        cases z with
        | infinity => exact le_refl _
        | finite z => exact absurd (WithInfinity.finite_lt.1 hz) (not_lt.2 (hx z))
      | some u =>
        rw [hu] at h; cases h
        obtain ⟨h1, h2⟩ := LawfulPoint.up_some x u hu
        refine ⟨WithInfinity.finite_lt.2 h1, fun z hz => ?_⟩
        cases z with
        | infinity => exact WithInfinity.le_infinity
        | finite z => exact WithInfinity.finite_le.2 (h2 z (WithInfinity.finite_lt.1 hz))
  up_none x h z := by
    cases x with
    | infinity => exact WithInfinity.le_infinity
    | finite x =>
      change (match up x with | some y => some (WithInfinity.finite y) | none => some .infinity) = none at h
      cases hu : up x <;> rw [hu] at h <;> cases h
  down_some x y h := by
    cases x with
    | infinity =>
      change some (WithInfinity.finite MAX) = some y at h
      cases h
      refine ⟨lt_of_le_not_ge WithInfinity.le_infinity WithInfinity.not_infinity_le, fun z hz => ?_⟩
      cases z with
      | infinity => exact absurd hz (lt_irrefl _)
      | finite z => exact WithInfinity.finite_le.2 (le_max z)
    | finite x =>
      change (down x).map WithInfinity.finite = some y at h
      cases hd : down x with
      | none => rw [hd] at h; cases h
      | some u =>
        rw [hd] at h; cases h
        obtain ⟨h1, h2⟩ := LawfulPoint.down_some x u hd
        refine ⟨WithInfinity.finite_lt.2 h1, fun z hz => ?_⟩
        cases z with
        | infinity => exact absurd hz (not_lt.2 WithInfinity.le_infinity)
        | finite z => exact WithInfinity.finite_le.2 (h2 z (WithInfinity.finite_lt.1 hz))
  down_none x h z := by
    cases x with
    | infinity => cases h
    | finite x =>
      change (down x).map WithInfinity.finite = none at h
      have hd : down x = none := by
        cases hd : down x with
        | none => rfl
        | some u => rw [hd] at h; cases h
      cases z with
      | infinity => exact WithInfinity.le_infinity
      | finite z => exact WithInfinity.finite_le.2 (LawfulPoint.down_none x hd z)

instance [LawfulPoint T] : LawfulPoint (WithInfinity T) := C29_withInfinity_lawful T

/-- non-vacuity: `WithInfinity<u8>`; the successor of `Finite(255)` is `Infinity` -/
example : LawfulPoint (WithInfinity (UInt' 8)) ∧
    (up (WithInfinity.finite (MAX : UInt' 8)) = some .infinity) ∧
    (down (WithInfinity.infinity : WithInfinity (UInt' 8)) = some (.finite MAX)) :=
  ⟨inferInstance, by decide, by decide⟩
end WithInfinity
end Nodit
