import Verif.Props.GqditStore
import Verif.Props.GqditLaws
import Mathlib.Tactic.TFAE
/-!
# C111: the queries of a `Gqdit` agree with each other

Different calls answering the same question give the same answer, after any history of calls.
-/
set_option linter.unusedSectionVars false
namespace Nodit
open Spec PointType Gqdit

variable {I K Q Q' D : Type} [PointType I] [IntervalType I K] [IntervalType I Q] [IntervalType I Q'] [LawfulPoint I] [LawfulInterval I K]
  [DecidableEq D]

/-- `l` lists the maximal runs of `P` meeting `q`, and every point of `q` with `P` is in one -/
structure Runs (P : I → Prop) (q : Q) (l : List K) : Prop where
  lists : ListsIntervals l (fun i => MaximalRun P i ∧ Overlap i q)
  covers : ∀ p, Mem p q → P p → ∃ k ∈ l, Mem p k

namespace Runs
variable {P P' : I → Prop} {q : Q} {q' : Q'} {l l' : List K}

theorem nil_iff (h : Runs P q l) : l = [] ↔ ∀ p, Mem p q → ¬ P p := by
  constructor
  · rintro rfl p hp hP
    obtain ⟨k, hk, -⟩ := h.covers p hp hP
    simp at hk
  · intro hn
    rw [List.eq_nil_iff_forall_not_mem]
    intro k hk
    obtain ⟨i, -, hi, p, hp, hpq⟩ := (h.lists.2 k).1 hk
    exact hn p hpq (hi.2.1 p hp)

theorem single_iff (h : Runs P q l) (hq : Valid q) : (∀ p, Mem p q → P p) ↔ ∃ k, l = [k] ∧ ∀ p, Mem p q → Mem p k := by
  constructor
  · intro hP
    obtain ⟨p, hp⟩ := hq
    obtain ⟨k, hk, hpk⟩ := h.covers p hp (hP p hp)
    obtain ⟨i, rfl, hi, -⟩ := (h.lists.2 k).1 hk
    have hpi : Mem p i := mem_ofInterval.1 hpk
    have hsub : ∀ x, Mem x q → Mem x i := fun x hx => hi.2.2 ⟨start q, stop q⟩ hP ⟨p, hpi, hp⟩ x hx
    refine ⟨_, ?_, fun x hx => mem_ofInterval.2 (hsub x hx)⟩
    refine ChainK.ext (ascending_iff.1 h.lists.1) ?_ fun k => ?_
    · have : i.start ≤ i.stop := valid_iff.1 hi.1
      exact ⟨by simpa using this, by simp⟩
    · rw [List.mem_singleton]
      constructor
      · intro hk'
        obtain ⟨j, rfl, hj, y, hy, hyq⟩ := (h.lists.2 k).1 hk'
        rw [MaximalRun.unique hj hi hy (hsub y hyq)]
      · rintro rfl; exact hk
  · rintro ⟨k, rfl, hk⟩ p hp
    obtain ⟨i, rfl, hi, -⟩ := (h.lists.2 k).1 (by simp)
    exact hi.2.1 p (mem_ofInterval.1 (hk p hp))

theorem narrower (h : Runs P q l) (h' : Runs P q' l') (hsub : ∀ p : I, Mem p q → Mem p q') :
    (∀ k, k ∈ l ↔ k ∈ l' ∧ Overlap k q) ∧ l.Sublist l' := by
  classical
  have hm : ∀ k, k ∈ l ↔ k ∈ l' ∧ Overlap k q := by
    intro k
    rw [h.lists.2, h'.lists.2]
    constructor
    · rintro ⟨i, rfl, hi, p, hp, hpq⟩
      exact ⟨⟨i, rfl, hi, p, hp, hsub p hpq⟩, p, mem_ofInterval.2 hp, hpq⟩
    · rintro ⟨⟨i, rfl, hi, -⟩, p, hp, hpq⟩
      exact ⟨i, rfl, hi, p, mem_ofInterval.1 hp, hpq⟩
  refine ⟨hm, ?_⟩
  have : l = l'.filter (fun k => Overlap k q) := by
    have hc' := ascending_iff.1 h'.lists.1
    refine ChainK.ext (ascending_iff.1 h.lists.1) ⟨fun k hk => hc'.1 k (List.mem_filter.1 hk).1, hc'.2.filter _⟩ fun k => ?_
    rw [hm, List.mem_filter, decide_eq_true_eq]
  rw [this]
  exact List.filter_sublist

theorem inside (h : Runs P q l) (h' : Runs P' q l') (hP : ∀ p, P p → P' p) :
    ∀ k ∈ l, ∃ k' ∈ l', ∀ p, Mem p k → Mem p k' := by
  intro k hk
  obtain ⟨i, rfl, hi, p, hp, hpq⟩ := (h.lists.2 k).1 hk
  obtain ⟨k', hk', hpk'⟩ := h'.covers p hpq (hP p (hi.2.1 p hp))
  obtain ⟨j, rfl, hj, -⟩ := (h'.lists.2 k').1 hk'
  refine ⟨_, hk', fun x hx => mem_ofInterval.2 ?_⟩
  exact hj.2.2 i (fun y hy => hP y (hi.2.1 y hy)) ⟨p, mem_ofInterval.1 hpk', hp⟩ x (mem_ofInterval.1 hx)

theorem congr (h : Runs P q l) (h' : Runs P' q l') (hP : ∀ p, P p ↔ P' p) : l = l' := by
  have : P = P' := funext fun p => propext (hP p)
  subst this
  refine ChainK.ext (ascending_iff.1 h.lists.1) (ascending_iff.1 h'.lists.1) fun k => ?_
  rw [h.lists.2, h'.lists.2]

end Runs

theorem gapsNo_runs {g : Gqdit K D} {f : I → Finset D} (hr : Rep g f) {q : Q} (hq : Valid q) :
    ∃ l, g.gapsNoIdentifier q = .ok l ∧ Runs (fun p => f p = ∅) q l := by
  obtain ⟨l, h1, h2⟩ := hr.gapsNoIdentifier hq
  refine ⟨l, h1, h2, fun p hp he => ?_⟩
  obtain ⟨e, hem, hpe, hv⟩ := hr.entry p
  obtain ⟨i, hi⟩ := hr.keys e hem
  have hem' : ((ofInterval i : K), (∅ : Finset D)) ∈ g.inner.inner := by rw [← hi, ← he, ← hv]; exact hem
  have hmi : Mem p i := mem_ofInterval.1 (hi ▸ hpe)
  exact ⟨ofInterval i, (h2.2 _).2 ⟨i, rfl, hr.maximal hem', p, hmi, hp⟩, mem_ofInterval.2 hmi⟩

theorem gapsWith_runs {g : Gqdit K D} {f : I → Finset D} (hr : Rep g f) (d : D) {q : Q} (hq : Valid q) :
    ∃ l, g.gapsWithIdentifier d q = .ok l ∧ Runs (fun p => f p ⊆ {d}) q l := by
  obtain ⟨l, h1, h2⟩ := hr.gapsWithIdentifier d hq
  obtain ⟨l', h3, -, -, -, h4⟩ := gapsWith_weak (wf_iff_chain.1 hr.wf) d hq
  rw [h1, Except.ok.injEq] at h3; subst h3
  refine ⟨l, h1, h2, fun p hp he => ?_⟩
  obtain ⟨e, hem, hpe, hv⟩ := hr.entry p
  obtain ⟨k, hk, ha, hb⟩ := h4 e hem (validIdentifier_iff.2 (hv ▸ he)) ⟨p, hpe, hp⟩
  exact ⟨k, hk, le_trans ha hpe.1, le_trans hpe.2 hb⟩

theorem eq_self {g g' : Gqdit K D} {f f' : I → Finset D} (hr : Rep g f) (hr' : Rep g' f') : g' = g ↔ ∀ p, f' p = f p := by
  constructor
  · rintro rfl p; rw [hr.unique hr']
  · intro h
    exact hr'.eq ((funext h : f' = f) ▸ hr)

/-- **C111**: three ways to find out that a whole interval is free of identifiers agree: each of its points has none, one listed gap
contains it, and cutting all identifiers there changes nothing. -/
theorem C111_all_free {h : GqHist I K D} {g : Gqdit K D} (hg : eval h = .ok g) {q : Q} (hq : Valid q) :
    List.TFAE [
      ∀ p : I, Mem p q → g.identifiersAtPoint p = .ok ∅,
      ∃ k, g.gapsNoIdentifier q = .ok [k] ∧ ∀ p : I, Mem p q → Mem p k,
      g.cutAllIdentifiers q = .ok g] := by
  classical
  have hr := rep_of_eval hg
  obtain ⟨l, h1, h2⟩ := gapsNo_runs hr hq
  obtain ⟨g', c1, c2⟩ := hr.cutAll hq
  simp only [hr.identifiers, h1, c1, Except.ok.injEq]
  tfae_have 1 ↔ 2 := h2.single_iff hq
  tfae_have 1 ↔ 3 := by
    rw [eq_self hr c2]
    refine forall_congr' fun p => ?_
    split_ifs with hp
    · simp [hp, eq_comm]
    · simp [hp]
  tfae_finish

/-- **C111**: no gap is listed for an interval exactly if each of its points has an identifier. -/
theorem C111_nothing_free {h : GqHist I K D} {g : Gqdit K D} (hg : eval h = .ok g) {q : Q} (hq : Valid q) :
    g.gapsNoIdentifier q = .ok [] ↔ ∀ p : I, Mem p q → ∃ s d, g.identifiersAtPoint p = .ok s ∧ d ∈ s := by
  have hr := rep_of_eval hg
  obtain ⟨l, h1, h2⟩ := gapsNo_runs hr hq
  rw [h1, Except.ok.injEq, h2.nil_iff]
  refine forall₂_congr fun p _ => ?_
  rw [hr.identifiers]
  simp only [Except.ok.injEq, exists_and_left, exists_eq_left', ← ne_eq, ← Finset.nonempty_iff_ne_empty]
  rfl

/-- **C111**: the same for one identifier: the whole interval is available for `d` exactly if one listed gap contains it; no gap is
listed exactly if each point has another identifier. -/
theorem C111_available_for {h : GqHist I K D} {g : Gqdit K D} (hg : eval h = .ok g) (d : D) {q : Q} (hq : Valid q) :
    ((∀ p : I, Mem p q → ∃ s, g.identifiersAtPoint p = .ok s ∧ ∀ x ∈ s, x = d) ↔
      ∃ k, g.gapsWithIdentifier d q = .ok [k] ∧ ∀ p : I, Mem p q → Mem p k) ∧
    (g.gapsWithIdentifier d q = .ok [] ↔ ∀ p : I, Mem p q → ∃ s, g.identifiersAtPoint p = .ok s ∧ ∃ x ∈ s, x ≠ d) := by
  have hr := rep_of_eval hg
  obtain ⟨l, h1, h2⟩ := gapsWith_runs hr d hq
  have hs : ∀ p, (∃ s, g.identifiersAtPoint p = .ok s ∧ ∀ x ∈ s, x = d) ↔ h.idsAt p ⊆ {d} := fun p => by
    rw [hr.identifiers]; simp [Finset.subset_iff]
  have hs' : ∀ p, (∃ s, g.identifiersAtPoint p = .ok s ∧ ∃ x ∈ s, x ≠ d) ↔ ¬ h.idsAt p ⊆ {d} := fun p => by
    rw [hr.identifiers]; simp [Finset.subset_iff]
  simp only [h1, Except.ok.injEq, hs, hs']
  exact ⟨h2.single_iff hq, h2.nil_iff⟩

/-- **C111**: changing calls that have nothing to do change nothing, and only those: `cut_with_identifiers` exactly if none of the
identifiers is at any of the points, `insert` exactly if all of them are at all of the points. -/
theorem C111_nothing_to_do {h : GqHist I K D} {g : Gqdit K D} (hg : eval h = .ok g) (ids : Finset D) {q : Q} (hq : Valid q) {k : K} (hk : Valid k) :
    (g.cutWithIdentifiers ids q = .ok g ↔ ∀ p : I, Mem p q → ∀ s, g.identifiersAtPoint p = .ok s → ∀ d ∈ ids, d ∉ s) ∧
    (g.insert ids k = .ok g ↔ ∀ p : I, Mem p k → ∀ s, g.identifiersAtPoint p = .ok s → ∀ d ∈ ids, d ∈ s) := by
  classical
  have hr := rep_of_eval hg
  obtain ⟨g1, c1, c2⟩ := hr.cutWith hq ids
  obtain ⟨g2, i1, i2⟩ := hr.insert hk ids
  simp only [hr.identifiers, c1, i1, Except.ok.injEq, forall_eq']
  rw [eq_self hr c2, eq_self hr i2]
  constructor
  · refine forall_congr' fun p => ?_
    split_ifs with hp
    · simp only [hp, true_imp_iff, Finset.sdiff_eq_self_iff_disjoint, Finset.disjoint_right]
    · simp [hp]
  · refine forall_congr' fun p => ?_
    split_ifs with hp
    · simp only [hp, true_imp_iff, Finset.union_eq_left]; rfl
    · simp [hp]

/-- **C111**: a query of one point: `gaps_no_identifier` gives one interval if the point has no identifier and nothing otherwise,
`gaps_with_identifier` gives one if it has no other identifier and nothing otherwise; the interval contains the point. -/
theorem C111_single_point {h : GqHist I K D} {g : Gqdit K D} (hg : eval h = .ok g) (d : D) (p : I) :
    ∃ s, g.identifiersAtPoint p = .ok s ∧
      (s = ∅ → ∃ k, g.gapsNoIdentifier (⟨p, p⟩ : Interval I) = .ok [k] ∧ Mem p k) ∧
      (s ≠ ∅ → g.gapsNoIdentifier (⟨p, p⟩ : Interval I) = .ok []) ∧
      ((∀ x ∈ s, x = d) → ∃ k, g.gapsWithIdentifier d (⟨p, p⟩ : Interval I) = .ok [k] ∧ Mem p k) ∧
      ((∃ x ∈ s, x ≠ d) → g.gapsWithIdentifier d (⟨p, p⟩ : Interval I) = .ok []) := by
  have hr := rep_of_eval hg
  have hm : ∀ x : I, Mem x (⟨p, p⟩ : Interval I) ↔ x = p := fun x =>
    ⟨fun h => le_antisymm h.2 h.1, fun h => h ▸ ⟨le_refl _, le_refl _⟩⟩
  have hv : Valid (⟨p, p⟩ : Interval I) := ⟨p, (hm p).2 rfl⟩
  obtain ⟨l, h1, h2⟩ := gapsNo_runs hr hv
  obtain ⟨l', h1', h2'⟩ := gapsWith_runs hr d hv
  refine ⟨_, hr.identifiers p, fun hs => ?_, fun hs => ?_, fun hs => ?_, fun hs => ?_⟩
  · obtain ⟨k, rfl, hk⟩ := (h2.single_iff hv).1 (fun x hx => (hm x).1 hx ▸ hs)
    exact ⟨k, h1, hk p ((hm p).2 rfl)⟩
  · rw [h1, h2.nil_iff.2 (fun x hx => (hm x).1 hx ▸ hs)]
  · obtain ⟨k, rfl, hk⟩ := (h2'.single_iff hv).1 (fun x hx => (hm x).1 hx ▸ (by simpa [Finset.subset_iff] using hs))
    exact ⟨k, h1', hk p ((hm p).2 rfl)⟩
  · rw [h1', h2'.nil_iff.2 (fun x hx => (hm x).1 hx ▸ (by simpa [Finset.subset_iff] using hs))]

/-- **C111**: every gap without identifiers is inside a gap for `d`; if `d` is stored nowhere, the two queries give the same list. -/
theorem C111_no_and_with {h : GqHist I K D} {g : Gqdit K D} (hg : eval h = .ok g) (d : D) {q : Q} (hq : Valid q) :
    ∃ l l', g.gapsNoIdentifier q = .ok l ∧ g.gapsWithIdentifier d q = .ok l' ∧
      (∀ k ∈ l, ∃ k' ∈ l', ∀ p : I, Mem p k → Mem p k') ∧
      ((∀ p : I, ∀ s, g.identifiersAtPoint p = .ok s → d ∉ s) → l = l') := by
  have hr := rep_of_eval hg
  obtain ⟨l, h1, h2⟩ := gapsNo_runs hr hq
  obtain ⟨l', h1', h2'⟩ := gapsWith_runs hr d hq
  refine ⟨l, l', h1, h1', h2.inside h2' (fun p hp => by simp [hp]), fun hd => h2.congr h2' fun p => ?_⟩
  have := hd p _ (hr.identifiers p)
  rw [Finset.subset_singleton_iff]
  constructor
  · exact Or.inl
  · rintro (h | h)
    · exact h
    · rw [h] at this; simp at this

/-- **C111**: a narrower query lists exactly those gaps of the wider one that meet it, in the same order. -/
theorem C111_narrower_query {h : GqHist I K D} {g : Gqdit K D} (hg : eval h = .ok g) (d : D) {q : Q} {q' : Q'} (hq : Valid q)
    (hsub : ∀ p : I, Mem p q → Mem p q') :
    (∃ l l', g.gapsNoIdentifier q = .ok l ∧ g.gapsNoIdentifier q' = .ok l' ∧ (∀ k, k ∈ l ↔ k ∈ l' ∧ Overlap k q) ∧ l.Sublist l') ∧
    (∃ l l', g.gapsWithIdentifier d q = .ok l ∧ g.gapsWithIdentifier d q' = .ok l' ∧ (∀ k, k ∈ l ↔ k ∈ l' ∧ Overlap k q) ∧ l.Sublist l') := by
  have hr := rep_of_eval hg
  have hq' : Valid q' := hq.imp hsub
  obtain ⟨l1, a1, a2⟩ := gapsNo_runs hr hq
  obtain ⟨l1', a1', a2'⟩ := gapsNo_runs hr hq'
  obtain ⟨l2, b1, b2⟩ := gapsWith_runs hr d hq
  obtain ⟨l2', b1', b2'⟩ := gapsWith_runs hr d hq'
  exact ⟨⟨l1, l1', a1, a1', a2.narrower a2' hsub⟩, ⟨l2, l2', b1, b1', b2.narrower b2' hsub⟩⟩

/-! ### Concrete cases -/

/-- the hypotheses are met by the `Gqdit` of `Demo.gh`, with intervals that are free, taken, and both -/
example : eval Demo.gh = .ok Demo.gq ∧ Valid (Demo.iv 31 40) ∧ Valid (Demo.iv 2 12) ∧
    Demo.gq.gapsNoIdentifier (Demo.iv 31 40) = .ok [Demo.iv 30 49] ∧ Demo.gq.cutAllIdentifiers (Demo.iv 31 40) = .ok Demo.gq ∧
    Demo.gq.gapsNoIdentifier (Demo.iv 2 12) = .ok [] ∧ Demo.gq.gapsWithIdentifier 2 (Demo.iv 2 12) = .ok [Demo.iv 8 19] ∧
    Demo.gq.cutWithIdentifiers {3} (Demo.iv 2 12) = .ok Demo.gq ∧ Demo.gq.insert {1} (Demo.iv 21 23) = .ok Demo.gq :=
  ⟨Demo.gh_eval, valid_iff.2 (by decide), valid_iff.2 (by decide), by decide, by decide, by decide, by decide, by decide, by decide⟩
end Nodit
