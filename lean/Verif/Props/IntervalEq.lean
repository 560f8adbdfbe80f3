import Verif.Equality
import Verif.Props.Intervals
import Verif.Props.Pointwise
/-!
# C102: `==` and `Hash` of `Interval`
-/
set_option linter.unusedSectionVars false
namespace Nodit
open Spec PointType
variable {I σ : Type} [PointType I] [LawfulPoint I]

/-- **C102**: an interval that contains a point is equal to another interval iff they contain the same points, in whatever way they were
written; `==` is an equivalence. -/
theorem C102_eq_iff_same_points [BEq I] [LawfulBEq I] :
    (∀ i j : Interval I, Valid i → (i.equal j = true ↔ ∀ p, Mem p i ↔ Mem p j)) ∧
    Equivalence (fun i j : Interval I => i.equal j = true) := by
  have h : ∀ i j : Interval I, i.equal j = true ↔ i = j := by
    intro i j
    cases i; cases j
    simp [Interval.equal]
  simp only [h]
  exact ⟨fun i j hi => ⟨fun e p => e ▸ Iff.rfl, interval_eq_of_mem_iff hi⟩, eq_equivalence⟩

/-- **C102**: if the points' `==` is an equivalence that respects the order, equal intervals contain the same points (of every
point equal to a contained one, too). -/
theorem C102_eq_congruence [BEq I] (hle : ∀ a b c : I, (a == b) = true → ((a ≤ c ↔ b ≤ c) ∧ (c ≤ a ↔ c ≤ b))) {i j : Interval I}
    (h : i.equal j = true) {p p' : I} (hp : (p == p') = true) : Mem p i ↔ Mem p' j := by
  simp only [Interval.equal, Bool.and_eq_true] at h
  have h1 := hle _ _ p h.1
  have h2 := hle _ _ p h.2
  have h3 := hle _ _ j.start hp
  have h4 := hle _ _ j.stop hp
  show i.start ≤ p ∧ p ≤ i.stop ↔ j.start ≤ p' ∧ p' ≤ j.stop
  rw [h1.1, h2.2, h3.2, h4.1]

/-- **C102**: equal intervals have equal hashes, if this is so for the points; and the hasher is given the ends, in order, and nothing else. -/
theorem C102_hash [BEq I] (feed : I → σ → σ) (hf : ∀ a b : I, (a == b) = true → feed a = feed b) (i j : Interval I)
    (h : i.equal j = true) (s : σ) :
    i.hash feed s = j.hash feed s ∧ i.hash (fun (x : I) l => l ++ [x]) [] = [i.start, i.stop] := by
  simp only [Interval.equal, Bool.and_eq_true] at h
  exact ⟨by simp only [Interval.hash, hf _ _ h.1, hf _ _ h.2], rfl⟩

/-- **C102**: the inclusive and exclusive ways of writing the same interval give the same interval (or panic alike). -/
theorem C102_inclusive_exclusive {s e s' e' : I} (hs : up s' = some s) (he : down e' = some e) :
    ee s' e' = ii s e ∧ ie s e' = ii s e ∧ ei s' e = ii s e ∧ ue e' = ui e ∧ eu s' = iu s ∧
    ui (MAX : I) = uu ∧ iu (MIN : I) = uu ∧ ii (MIN : I) MAX = uu := by
  refine ⟨?_, ?_, ?_, ?_, ?_, rfl, rfl, rfl⟩ <;> simp [ee, ie, ei, ue, eu, ii, ui, iu, hs, he, bind, Except.bind, unwrap, pure, Except.pure]

namespace Demo
example : up (u8 3) = some (u8 4) ∧ down (u8 5) = some (u8 4) ∧ ee (u8 3) (u8 5) = .ok (iv 4 4) ∧ ii (u8 4) (u8 4) = .ok (iv 4 4) ∧
    (iv 4 4).equal (iv 4 4) = true ∧ (iv 4 4).equal (iv 4 5) = false ∧
    (iv 4 7).hash (fun x s => s * 1000 + x.val) 0 = 4007 := by decide
end Demo
end Nodit
