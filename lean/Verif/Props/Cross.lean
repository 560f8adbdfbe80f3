import Verif.Props.GqditProps
import Verif.Props.SetProps
/-!
# C85: a `Gqdit` is a family of `NoditSet`s

`Gqdit` stores for each point which identifiers are there; a user can think of it as one `NoditSet` per identifier. Here
this is made exact: the calls are replayed on `NoditSet`s with the modelled `NoditSet` methods.
-/
set_option linter.unusedSectionVars false
namespace Nodit
open Spec PointType

variable {I K Q D : Type} [PointType I] [IntervalType I K] [IntervalType I Q]
  [LawfulPoint I] [LawfulInterval I K] [DecidableEq D]

namespace Gqdit

/-- `insert_merge_touching_or_overlapping` for each of the intervals -/
def insertIntervals (s : NoditSet K) : List K → Res (NoditSet K)
  | [] => pure s
  | k :: l => do
    let s ← s.step (.insertMergeTouchingOrOverlapping k)
    insertIntervals s l

/-- The `NoditSet` for the identifier `d`: `insert` with `d` among the identifiers is
`insert_merge_touching_or_overlapping`, `cut_with_identifiers` with `d` among them and `cut_all_identifiers` are `cut`,
`append` inserts all intervals of the other set. (`NoditSet.step` runs one call.) -/
def setFor (d : D) : GqHist I K D → Res (NoditSet K)
  | .new => pure NoditSet.new
  | .insert g ids k => do
    let s ← setFor d g
    if d ∈ ids then s.step (.insertMergeTouchingOrOverlapping k) else pure s
  | .cutWithIdentifiers g ids q => do
    let s ← setFor d g
    if d ∈ ids then s.step (.cut q) else pure s
  | .cutAllIdentifiers g q => do
    let s ← setFor d g
    s.step (.cut q)
  | .append g other => do
    let s ← setFor d g
    let o ← setFor d other
    insertIntervals s o.iter

theorem set_step_ok {s : NoditSet K} (hs : Ascending s.iter) {op : SetOp I K} (hop : op.Pointwise) (hb : ¬ op.Bad) :
    ∃ s', s.step op = .ok s' ∧ Ascending s'.iter ∧ ∀ p : I, (∃ k ∈ s'.iter, Mem p k) ↔ p ∈ setStep {p | ∃ k ∈ s.iter, Mem p k} op := by
  rcases set_step_refines hs op with ⟨h, -⟩ | ⟨-, s1, o, ho, hw, -⟩
  · exact absurd h hb
  · exact ⟨s1, ho, hw, fun p => Set.ext_iff.1 (set_step_points hs hop hb ho) p⟩

theorem insertIntervals_ok (l : List K) (hl : ∀ k ∈ l, Valid k) (s : NoditSet K) (hs : Ascending s.iter) :
    ∃ s', insertIntervals s l = .ok s' ∧ Ascending s'.iter ∧
      ∀ p : I, (∃ k ∈ s'.iter, Mem p k) ↔ (∃ k ∈ s.iter, Mem p k) ∨ ∃ k ∈ l, Mem p k := by
  induction l generalizing s with
  | nil => exact ⟨s, rfl, hs, by simp⟩
  | cons k l ih =>
    have hk := hl k (by simp)
    obtain ⟨s1, h1, h2, h3⟩ := set_step_ok hs (op := SetOp.insertMergeTouchingOrOverlapping k) trivial (fun h => h hk)
    obtain ⟨s', g1, g2, g3⟩ := ih (fun k hk => hl k (by simp [hk])) s1 h2
    refine ⟨s', by simp only [insertIntervals, bind, Except.bind, h1]; exact g1, g2, fun p => ?_⟩
    rw [g3 p, h3 p]
    simp [setStep, or_assoc]

theorem setFor_ok (d : D) (h : GqHist I K D) (hb : ¬ h.Bad) :
    ∃ s, setFor d h = .ok s ∧ Ascending s.iter ∧ ∀ p : I, (∃ k ∈ s.iter, Mem p k) ↔ d ∈ h.idsAt p := by
  induction h with
  | new =>
    exact ⟨_, rfl, by simp [Ascending, NoditSet.new, NoditSet.iter, NoditMap.new, NoditMap.iter],
      by simp [NoditSet.new, NoditSet.iter, NoditMap.new, NoditMap.iter, GqHist.idsAt]⟩
  | insert g ids k ih =>
    simp only [GqHist.Bad, not_or, not_not] at hb
    obtain ⟨s, h1, h2, h3⟩ := ih hb.1
    by_cases hd : d ∈ ids
    · obtain ⟨s', g1, g2, g3⟩ := set_step_ok h2 (op := SetOp.insertMergeTouchingOrOverlapping k) trivial (fun h => h hb.2)
      refine ⟨s', by simp only [setFor, bind, Except.bind, h1, if_pos hd, g1], g2, fun p => ?_⟩
      rw [g3 p]
      have := h3 p
      simp only [setStep, Set.mem_ofPred_eq, this, GqHist.idsAt]
      split_ifs with hp <;> simp [hp, hd]
    · refine ⟨s, by simp only [setFor, bind, Except.bind, h1, if_neg hd]; rfl, h2, fun p => ?_⟩
      rw [h3 p]
      simp only [GqHist.idsAt]
      split_ifs with hp <;> simp [hd]
  | cutWithIdentifiers g ids q ih =>
    simp only [GqHist.Bad, not_or, not_not] at hb
    obtain ⟨s, h1, h2, h3⟩ := ih hb.1
    by_cases hd : d ∈ ids
    · obtain ⟨s', g1, g2, g3⟩ := set_step_ok h2 (op := (SetOp.cut q : SetOp I K)) trivial (fun h => h hb.2)
      refine ⟨s', by simp only [setFor, bind, Except.bind, h1, if_pos hd, g1], g2, fun p => ?_⟩
      rw [g3 p]
      have := h3 p
      simp only [setStep, Set.mem_ofPred_eq, this, GqHist.idsAt]
      split_ifs with hp <;> simp [hp, hd]
    · refine ⟨s, by simp only [setFor, bind, Except.bind, h1, if_neg hd]; rfl, h2, fun p => ?_⟩
      rw [h3 p]
      simp only [GqHist.idsAt]
      split_ifs with hp <;> simp [hd]
  | cutAllIdentifiers g q ih =>
    simp only [GqHist.Bad, not_or, not_not] at hb
    obtain ⟨s, h1, h2, h3⟩ := ih hb.1
    obtain ⟨s', g1, g2, g3⟩ := set_step_ok h2 (op := (SetOp.cut q : SetOp I K)) trivial (fun h => h hb.2)
    refine ⟨s', by simp only [setFor, bind, Except.bind, h1, g1], g2, fun p => ?_⟩
    rw [g3 p]
    have := h3 p
    simp only [setStep, Set.mem_ofPred_eq, this, GqHist.idsAt]
    split_ifs with hp <;> simp [hp]
  | append g o ih1 ih2 =>
    simp only [GqHist.Bad, not_or] at hb
    obtain ⟨s, h1, h2, h3⟩ := ih1 hb.1
    obtain ⟨t, k1, k2, k3⟩ := ih2 hb.2
    obtain ⟨s', g1, g2, g3⟩ := insertIntervals_ok t.iter k2.1 s h2
    refine ⟨s', by simp only [setFor, bind, Except.bind, h1, k1, g1], g2, fun p => ?_⟩
    rw [g3 p, h3 p, k3 p]
    simp [GqHist.idsAt]

end Gqdit
open Gqdit

/-- **C85**: replaying a history on one `NoditSet` for the identifier `d` neither panics nor differs from the `Gqdit`:
`identifiers_at_point(p)` holds `d` iff `contains_point(p)` of the set. -/
theorem C85_identifier_is_a_set {h : GqHist I K D} {g : Gqdit K D} (hg : eval h = .ok g) (d : D) :
    ∃ s : NoditSet K, setFor d h = .ok s ∧ Ascending s.iter ∧
      ∀ p : I, ∃ ids b, g.identifiersAtPoint p = .ok ids ∧ s.containsPoint p = .ok b ∧ (b = true ↔ d ∈ ids) := by
  rcases eval_rep h with ⟨-, he⟩ | ⟨hb, -⟩
  · rw [he] at hg; cases hg
  obtain ⟨s, h1, h2, h3⟩ := setFor_ok d h hb
  refine ⟨s, h1, h2, fun p => ?_⟩
  obtain ⟨b, e1, e2⟩ := NoditMap.spec_containsPoint (NoditSet.wf_iff.2 h2) p
  refine ⟨_, b, C30_identifiers_at_point hg p, e1, ?_⟩
  rw [e2, ← h3 p]
  exact NoditSet.covered_iff

theorem lists_unique {l l' : List K} {P : Interval I → Prop} (h : ListsIntervals l P) (h' : ListsIntervals l' P) : l = l' := by
  refine ChainK.ext (ascending_iff.1 h.1) (ascending_iff.1 h'.1) fun k => ?_
  rw [h.2, h'.2]

/-- **C85**: `gaps_no_identifier(q)` is `gaps_untrimmed(q)` of any `NoditSet` containing exactly the points that have an
identifier. -/
theorem C85_gaps_no_identifier {h : GqHist I K D} {g : Gqdit K D} (hg : eval h = .ok g) {s : NoditSet K} (hs : Ascending s.iter)
    (hp : ∀ p : I, s.containsPoint p = .ok true ↔ g.identifiersAtPoint p ≠ .ok ∅) (q : Q) :
    g.gapsNoIdentifier q = s.gapsUntrimmed q := by
  by_cases hq : Valid q
  · obtain ⟨l, h1, h2⟩ := C31_gaps_no_identifier hg hq
    obtain ⟨-, -, -, -, ⟨l', h3, h4⟩, -⟩ := C22_set_queries hs q hq MIN
    rw [h1, h3]
    have e : (fun p : I => ¬ ∃ k ∈ s.iter, Mem p k) = fun p => g.identifiersAtPoint p = .ok ∅ := by
      funext p
      obtain ⟨-, -, -, ⟨b, e1, e2⟩, -⟩ := C22_set_queries hs q hq p
      rw [← e2, eq_iff_iff, ← not_iff_not, not_not]
      refine Iff.trans ?_ (hp p)
      rw [e1]; simp
    rw [e] at h4
    exact congrArg _ (lists_unique h2 h4)
  · rw [NoditSet.gapsUntrimmed, NoditMap.panic_gapsUntrimmed hq]
    rw [Gqdit.gapsNoIdentifier, invalidIntervalPanic_err (by rwa [valid_iff] at hq)]; rfl

/-- **C85**: `gaps_with_identifier(d, q)` is `gaps_untrimmed(q)` of any `NoditSet` containing exactly the points that have
an identifier other than `d`. -/
theorem C85_gaps_with_identifier {h : GqHist I K D} {g : Gqdit K D} (hg : eval h = .ok g) (d : D) {s : NoditSet K}
    (hs : Ascending s.iter)
    (hp : ∀ p : I, s.containsPoint p = .ok true ↔ ∃ ids, g.identifiersAtPoint p = .ok ids ∧ ∃ x ∈ ids, x ≠ d) (q : Q) :
    g.gapsWithIdentifier d q = s.gapsUntrimmed q := by
  by_cases hq : Valid q
  · obtain ⟨l, h1, h2⟩ := C32_gaps_with_identifier hg d hq
    obtain ⟨-, -, -, -, ⟨l', h3, h4⟩, -⟩ := C22_set_queries hs q hq MIN
    rw [h1, h3]
    have e : (fun p : I => ¬ ∃ k ∈ s.iter, Mem p k) = fun p => ∃ ids, g.identifiersAtPoint p = .ok ids ∧ ∀ x ∈ ids, x = d := by
      funext p
      obtain ⟨-, -, -, ⟨b, e1, e2⟩, -⟩ := C22_set_queries hs q hq p
      rw [← e2, eq_iff_iff, ← not_iff_not, not_not]
      refine Iff.trans ?_ ((hp p).trans ?_)
      · rw [e1]; simp
      · rw [C30_identifiers_at_point hg p]; simp
    rw [e] at h4
    exact congrArg _ (lists_unique h2 h4)
  · rw [NoditSet.gapsUntrimmed, NoditMap.panic_gapsUntrimmed hq]
    rw [Gqdit.gapsWithIdentifier, invalidIntervalPanic_err (by rwa [valid_iff] at hq)]; rfl

/-- the set for identifier 1 of the demo history, and the set of the points with an identifier other than 1 -/
example : setFor 1 Demo.gh = .ok ⟨⟨[(Demo.iv 0 7, ()), (Demo.iv 20 29, ()), (Demo.iv 50 51, ()), (Demo.iv 53 59, ())]⟩⟩ := by
  decide

namespace Demo
/-- the points of the demo `Gqdit` with an identifier other than 1 -/
def others : NoditSet (Interval U8) := ⟨⟨[(iv 5 19, ()), (iv 50 51, ()), (iv 53 59, ())]⟩⟩
end Demo

/-- the hypotheses of `C85_gaps_with_identifier` are met by it, and what the theorem then says -/
example : Ascending Demo.others.iter ∧
    (∀ p : Demo.U8, Demo.others.containsPoint p = .ok true ↔
      ∃ ids, Demo.gq.identifiersAtPoint p = .ok ids ∧ ∃ x ∈ ids, x ≠ 1) ∧
    Demo.others.gapsUntrimmed (Demo.iv 2 52) = .ok [Demo.iv 0 4, Demo.iv 20 49, Demo.iv 52 52] := by
  refine ⟨?_, ?_, by decide⟩
  · rw [ascending_iff]; unfold ChainK; decide
  · intro p
    have e : (∃ ids, Demo.gq.identifiersAtPoint p = .ok ids ∧ ∃ x ∈ ids, x ≠ 1) ↔
        (match Demo.gq.identifiersAtPoint p with
          | .ok ids => decide (ids \ {1} ≠ ∅)
          | .error _ => false) = true := by
      cases Demo.gq.identifiersAtPoint p with
      | error _ => simp
      | ok ids =>
        simp only [Except.ok.injEq, exists_eq_left', decide_eq_true_eq, ne_eq, Finset.sdiff_eq_empty_iff_subset,
          Finset.subset_singleton_iff', not_forall]
        simp
    rw [e]
    have h := p.ge
    have h' : p.val < 256 := by have := p.le; omega
    have hp : p = Demo.u8 (Fin.mk p.val.toNat (by omega) : Fin 256).val := by
      ext; simp only [Demo.u8, BInt.wrapInt]; omega
    rw [hp]
    generalize (Fin.mk p.val.toNat (by omega) : Fin 256) = n
    revert n
    set_option maxRecDepth 10000 in decide

end Nodit
