import Verif.Props.Kth
/-!
# C151: the free point with a given number

A client numbers the free points of a range of a `NoditMap` in ascending order, from 0, and finds the one with a given number by walking over the gaps.
-/
set_option linter.unusedSectionVars false
namespace Nodit.Kth
open Spec PointType InclusiveInterval NoditMap

variable {I K Q V : Type} [PointType I] [IntervalType I K] [IntervalType I Q] [LawfulPoint I] [LawfulInterval I K]

/-- as `kth`, over `m.gaps_trimmed(q)`. A client, models no lines of `/repo`. -/
def kthFree (m : NoditMap K V) (q : Q) (k : Nat) : Res (Option I) := do
  let gs ← m.gapsTrimmed (I := I) q
  kth (gs.map fun g => (g, ())) k

/-- **C151**: for every map, every valid range and every number the client does not panic, and finds the point `p` iff `p` is a free point of the range and
exactly that many free points of the range are before `p`; it finds none iff the range has no more free points than that. -/
theorem C151_kth_free {m : NoditMap K V} (h : WF (I := I) m.iter) {q : Q} (hq : Valid (I := I) q) (k : Nat) :
    ∃ r : Option I, kthFree m q k = .ok r ∧
      (∀ p, r = some p ↔ (Mem p q ∧ ∀ e ∈ m.iter, ¬ Mem p e.1) ∧ {x | (Mem x q ∧ ∀ e ∈ m.iter, ¬ Mem x e.1) ∧ x < p}.encard = k) ∧
      (r = none ↔ {x : I | Mem x q ∧ ∀ e ∈ m.iter, ¬ Mem x e.1}.encard ≤ k) := by
  obtain ⟨gs, g1, g2, -, g4⟩ := C15_gaps_trimmed h q hq
  have hcov : ∀ p : I, (∃ e ∈ (⟨gs.map fun g => (g, ())⟩ : NoditMap K Unit).iter, Mem p e.1) ↔ Mem p q ∧ ∀ e ∈ m.iter, ¬ Mem p e.1 := by
    intro p
    have := g4 p
    push Not at this
    rw [← this]
    simp [NoditMap.iter]
  obtain ⟨r, r1, r2, r3⟩ := C148_kth (I := I) (m := ⟨gs.map fun g => (g, ())⟩) (by
    refine ⟨?_, ?_⟩
    · intro e he
      obtain ⟨g, hg, rfl⟩ := List.mem_map.1 he
      exact g2.1 g hg
    · simp only [NoditMap.iter]
      rw [List.pairwise_map]
      exact g2.2) k
  simp only [hcov] at r2 r3
  exact ⟨r, by simp only [kthFree, g1, bind, Except.bind]; exact r1, r2, r3⟩

end Nodit.Kth
