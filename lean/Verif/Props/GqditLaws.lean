import Verif.Props.GqditProps
/-!
# C73: laws relating several `Gqdit` calls

`eval h` is the `Gqdit` (inner entries included) that the history `h` results in, or the panic.
-/
set_option linter.unusedSectionVars false
namespace Nodit
open Spec PointType Gqdit

variable {I K D : Type} [PointType I] [IntervalType I K] [LawfulPoint I] [LawfulInterval I K] [DecidableEq D]

theorem eval_congr {a b : GqHist I K D} (ha : ¬ a.Bad) (hb : ¬ b.Bad) (hab : ∀ p, a.idsAt p = b.idsAt p) :
    ∃ g : Gqdit K D, eval a = .ok g ∧ eval b = .ok g := by
  rcases eval_rep a with ⟨h1, -⟩ | ⟨-, g, h1, h2⟩
  · exact absurd h1 ha
  rcases eval_rep b with ⟨h3, -⟩ | ⟨-, g', h3, h4⟩
  · exact absurd h3 hb
  exact ⟨g, h1, by rw [h3, h2.eq ((funext hab : a.idsAt = b.idsAt) ▸ h4)]⟩

/-- **C73**: appending is commutative, associative and idempotent in its effect on the receiver, appending a new `Gqdit`
changes nothing, and appending to a new one gives the operand. -/
theorem C73_append_laws {a b c : GqHist I K D} (ha : ¬ a.Bad) (hb : ¬ b.Bad) (hc : ¬ c.Bad) :
    (∃ g : Gqdit K D, eval (a.append b) = .ok g ∧ eval (b.append a) = .ok g) ∧
    (∃ g : Gqdit K D, eval ((a.append b).append c) = .ok g ∧ eval (a.append (b.append c)) = .ok g) ∧
    (∃ g : Gqdit K D, eval (a.append a) = .ok g ∧ eval a = .ok g) ∧
    (∃ g : Gqdit K D, eval (a.append .new) = .ok g ∧ eval a = .ok g) ∧
    (∃ g : Gqdit K D, eval (GqHist.new.append a) = .ok g ∧ eval a = .ok g) := by
  refine ⟨eval_congr ?_ ?_ fun p => ?_, eval_congr ?_ ?_ fun p => ?_, eval_congr ?_ ?_ fun p => ?_,
    eval_congr ?_ ?_ fun p => ?_, eval_congr ?_ ?_ fun p => ?_⟩
  any_goals simp [GqHist.Bad, ha, hb, hc]
  all_goals (simp only [GqHist.idsAt]; try (ext x; simp); try tauto)

/-- **C73**: cutting the appended is appending the cut; inserting before or after an append is the same. -/
theorem C73_append_distributes {a b : GqHist I K D} (ha : ¬ a.Bad) (hb : ¬ b.Bad) (ids : Finset D) {q : Interval I}
    (hq : Valid q) {k : K} (hk : Valid k) :
    (∃ g : Gqdit K D, eval ((a.append b).cutWithIdentifiers ids q) = .ok g ∧
      eval ((a.cutWithIdentifiers ids q).append (b.cutWithIdentifiers ids q)) = .ok g) ∧
    (∃ g : Gqdit K D, eval ((a.append b).cutAllIdentifiers q) = .ok g ∧
      eval ((a.cutAllIdentifiers q).append (b.cutAllIdentifiers q)) = .ok g) ∧
    (∃ g : Gqdit K D, eval ((a.append b).insert ids k) = .ok g ∧ eval ((a.insert ids k).append b) = .ok g) ∧
    (∃ g : Gqdit K D, eval ((a.append b).insert ids k) = .ok g ∧ eval (a.append (b.insert ids k)) = .ok g) := by
  refine ⟨eval_congr ?_ ?_ fun p => ?_, eval_congr ?_ ?_ fun p => ?_, eval_congr ?_ ?_ fun p => ?_,
    eval_congr ?_ ?_ fun p => ?_⟩
  any_goals simp [GqHist.Bad, ha, hb, hq, hk]
  all_goals (simp only [GqHist.idsAt]; split_ifs <;> ext x <;> simp <;> tauto)

/-- **C73**: cutting the identifiers just inserted undoes the insert, provided no point of the interval held one of them
before. -/
theorem C73_cut_undoes_insert {h : GqHist I K D} (hb : ¬ h.Bad) {g : Gqdit K D} (hg : eval h = .ok g) (ids : Finset D)
    {k : K} {q : Interval I} (hk : Valid k) (hkq : SameInterval k q)
    (hno : ∀ p, Mem p k → ∀ s, g.identifiersAtPoint p = .ok s → ∀ d ∈ ids, d ∉ s) :
    eval ((h.insert ids k).cutWithIdentifiers ids q) = .ok g := by
  have hr := rep_of_eval hg
  have hq : Valid q := by obtain ⟨p, hp⟩ := hk; exact ⟨p, (hkq p).1 hp⟩
  obtain ⟨g', h1, h2⟩ := eval_congr (a := (h.insert ids k).cutWithIdentifiers ids q) (b := h)
    (by simp [GqHist.Bad, hb, hk, hq]) hb (fun p => by
      simp only [GqHist.idsAt]
      by_cases hp : Mem p k
      · have hp' := (hkq p).1 hp
        have := hno p hp _ (hr.identifiers p)
        ext x
        simp only [hp, hp', if_true, Finset.mem_sdiff, Finset.mem_union]
        constructor
        · tauto
        · exact fun hx => ⟨Or.inl hx, fun hxi => this x hxi hx⟩
      · have hp' : ¬ Mem p q := fun h => hp ((hkq p).2 h)
        simp [hp, hp'])
  rw [h2] at hg; cases hg; exact h1

/-- **C73**: two inserts (or two cuts) at one interval are one with the union of the identifiers; a later `cut_all_identifiers`
of it makes all of them void; a cut and an insert at intervals without a common point commute. -/
theorem C73_insert_cut_laws {h : GqHist I K D} (hb : ¬ h.Bad) (ids ids' : Finset D) {k : K} {q r : Interval I} (hk : Valid k)
    (hkq : SameInterval k q) :
    (∃ g : Gqdit K D, eval ((h.insert ids k).insert ids' k) = .ok g ∧ eval (h.insert (ids ∪ ids') k) = .ok g) ∧
    (∃ g : Gqdit K D, eval ((h.cutWithIdentifiers ids q).cutWithIdentifiers ids' q) = .ok g ∧
      eval (h.cutWithIdentifiers (ids ∪ ids') q) = .ok g) ∧
    (∃ g : Gqdit K D, eval ((h.insert ids k).cutAllIdentifiers q) = .ok g ∧ eval (h.cutAllIdentifiers q) = .ok g) ∧
    (∃ g : Gqdit K D, eval ((h.cutWithIdentifiers ids q).cutAllIdentifiers q) = .ok g ∧ eval (h.cutAllIdentifiers q) = .ok g) ∧
    (Valid r → ¬ Overlap k r → ∃ g : Gqdit K D, eval ((h.insert ids k).cutWithIdentifiers ids' r) = .ok g ∧
      eval ((h.cutWithIdentifiers ids' r).insert ids k) = .ok g) ∧
    (Valid r → ¬ Overlap k r → ∃ g : Gqdit K D, eval ((h.insert ids k).cutAllIdentifiers r) = .ok g ∧
      eval ((h.cutAllIdentifiers r).insert ids k) = .ok g) := by
  have hq : Valid q := by obtain ⟨p, hp⟩ := hk; exact ⟨p, (hkq p).1 hp⟩
  refine ⟨eval_congr ?_ ?_ fun p => ?_, eval_congr ?_ ?_ fun p => ?_, eval_congr ?_ ?_ fun p => ?_,
    eval_congr ?_ ?_ fun p => ?_, fun hr hd => ?_, fun hr hd => ?_⟩
  any_goals refine eval_congr ?_ ?_ fun p => ?_
  any_goals simp [GqHist.Bad, hb, hk, hq]
  any_goals assumption
  all_goals
    have h1 := hkq p
    have h2 : (Valid r ∧ ¬ Overlap k r) → Mem p k → ¬ Mem p r := fun c a b => c.2 ⟨p, a, b⟩
    try replace h2 := h2 ⟨hr, hd⟩
    simp only [GqHist.idsAt]
    by_cases h3 : Mem p k <;> by_cases h4 : Mem p q <;> by_cases h5 : Mem p r <;> simp only [h3, h4, h5] at h1 h2 ⊢ <;>
      first | (exfalso; simp at h1; done) | (exfalso; simp at h2; done) | (ext x; simp; try tauto)

namespace Demo
/-- the hypotheses of C73 are met by a history with several entries -/
example : ¬ (gh.insert {7} (iv 60 70)).Bad ∧ ¬ gh.Bad ∧ Valid (iv 60 70) ∧ ¬ Overlap (iv 60 70) (iv 71 80) ∧
    SameInterval (iv 60 70) (iv 60 70) := by
  refine ⟨?_, ?_, ?_, ?_, fun _ => Iff.rfl⟩
  · simp only [gh, GqHist.Bad, valid_iff]; decide
  · simp only [gh, GqHist.Bad, valid_iff]; decide
  · rw [valid_iff]; decide
  · rw [overlap_iff (by decide) (by decide)]; decide

example : eval ((gh.insert {7} (iv 10 70)).cutWithIdentifiers {7} (iv 10 70)) = .ok gq ∧
    eval (gh.insert {7} (iv 10 70)) ≠ .ok gq := by decide
end Demo

end Nodit
