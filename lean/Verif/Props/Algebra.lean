import Verif.Props.FromIter
import Verif.Props.Canonical
/-!
# C54 - C58: laws relating several calls

How calls of `NoditMap` combine: cuts are idempotent and commute, overwrites of disjoint intervals commute, a strict
insert is undone by a removal, a removal is undone by strict inserts, gaps can be filled, a map can be rebuilt from its
entries.
-/
set_option linter.unusedSectionVars false
namespace Nodit
open Spec PointType NoditMap

variable {I K A B Q Q' V : Type} [PointType I] [IntervalType I K] [IntervalType I A] [IntervalType I B] [IntervalType I Q]
  [IntervalType I Q'] [LawfulPoint I] [LawfulInterval I K]

omit [LawfulInterval I K] in
theorem NoditMap.ext_entries {m m' : NoditMap K V} (h : WF m.iter) (h' : WF m'.iter) (hm : ∀ e, e ∈ m.iter ↔ e ∈ m'.iter) :
    m = m' := by
  have := (wf_iff_chain.1 h).ext (wf_iff_chain.1 h') hm
  cases m; cases m'; simp only [iter] at this; rw [this]

omit [LawfulInterval I K] in
/-- the maximal runs of what is left of an interval without the points of another one -/
theorem maximalRun_diff {k : K} {q : B} (hk : Valid k) (hq : Valid q) {i : Interval I} :
    MaximalRun (fun p => Mem p k ∧ ¬ Mem p q) i ↔
      Describes i (fun p => Mem p k ∧ ∀ x, Mem x q → p < x) ∨ Describes i (fun p => Mem p k ∧ ∀ x, Mem x q → x < p) := by
  have hq' := valid_iff.1 hq
  have below : ∀ j : Interval I, (∀ p, Mem p j → Mem p k ∧ ¬ Mem p q) → ∀ x, Mem x j → (∀ z, Mem z q → x < z) →
      ∀ y, Mem y j → ∀ z, Mem z q → y < z := by
    intro j hj x hx hxq y hy
    rw [forall_mem_lt hq'] at hxq ⊢
    by_contra hc
    exact (hj (start q) ⟨le_trans hx.1 hxq.le, le_trans (not_lt.1 hc) hy.2⟩).2 ⟨le_refl _, hq'⟩
  have above : ∀ j : Interval I, (∀ p, Mem p j → Mem p k ∧ ¬ Mem p q) → ∀ x, Mem x j → (∀ z, Mem z q → z < x) →
      ∀ y, Mem y j → ∀ z, Mem z q → z < y := by
    intro j hj x hx hxq y hy
    rw [forall_mem_gt hq'] at hxq ⊢
    by_contra hc
    exact (hj (stop q) ⟨le_trans hy.1 (not_lt.1 hc), le_trans hxq.le hx.2⟩).2 ⟨hq', le_refl _⟩
  have notq : ∀ x, ((∀ z, Mem z q → x < z) ∨ ∀ z, Mem z q → z < x) ↔ ¬ Mem x q := by
    intro x
    rw [forall_mem_lt hq', forall_mem_gt hq']
    simp only [Mem, not_and_or, not_le]
  constructor
  · rintro ⟨hv, hi, hmax⟩
    obtain ⟨x, hx⟩ := id hv
    rcases (notq x).2 (hi x hx).2 with hl | hl
    · left
      obtain ⟨j, -, hj⟩ := exists_part_below hk hq (hi x hx).1 hl
      refine ⟨hv, fun p => ⟨fun hp => ⟨(hi p hp).1, below i hi x hx hl p hp⟩, fun hp => ?_⟩⟩
      refine hmax j (fun p hp => ⟨((hj p).1 hp).1, (notq p).1 (Or.inl ((hj p).1 hp).2)⟩) ⟨x, hx, (hj x).2 ⟨(hi x hx).1, hl⟩⟩ p ((hj p).2 hp)
    · right
      obtain ⟨j, -, hj⟩ := exists_part_above hk hq (hi x hx).1 hl
      refine ⟨hv, fun p => ⟨fun hp => ⟨(hi p hp).1, above i hi x hx hl p hp⟩, fun hp => ?_⟩⟩
      refine hmax j (fun p hp => ⟨((hj p).1 hp).1, (notq p).1 (Or.inr ((hj p).1 hp).2)⟩) ⟨x, hx, (hj x).2 ⟨(hi x hx).1, hl⟩⟩ p ((hj p).2 hp)
  · rintro (⟨hv, hi⟩ | ⟨hv, hi⟩)
    · refine ⟨hv, fun p hp => ⟨((hi p).1 hp).1, (notq p).1 (Or.inl ((hi p).1 hp).2)⟩, ?_⟩
      rintro j hj ⟨x, hx, hxj⟩ p hp
      exact (hi p).2 ⟨(hj p hp).1, below j hj x hxj ((hi x).1 hx).2 p hp⟩
    · refine ⟨hv, fun p hp => ⟨((hi p).1 hp).1, (notq p).1 (Or.inr ((hi p).1 hp).2)⟩, ?_⟩
      rintro j hj ⟨x, hx, hxj⟩ p hp
      exact (hi p).2 ⟨(hj p hp).1, above j hj x hxj ((hi x).1 hx).2 p hp⟩

omit [LawfulInterval I K] in
theorem maximalRun_diff_exists {k : K} {q : B} (hk : Valid k) (hq : Valid q) {p : I} (hp : Mem p k) (hpq : ¬ Mem p q) :
    ∃ i : Interval I, MaximalRun (fun p => Mem p k ∧ ¬ Mem p q) i ∧ Mem p i := by
  have hq' := valid_iff.1 hq
  have : p < start q ∨ stop q < p := by
    simp only [Mem, not_and_or, not_le] at hpq; exact hpq
  rcases this with h | h
  · obtain ⟨i, hi⟩ := exists_part_below hk hq hp ((forall_mem_lt hq' p).2 h)
    exact ⟨i, (maximalRun_diff hk hq).2 (Or.inl hi), (hi.2 p).2 ⟨hp, (forall_mem_lt hq' p).2 h⟩⟩
  · obtain ⟨i, hi⟩ := exists_part_above hk hq hp ((forall_mem_gt hq' p).2 h)
    exact ⟨i, (maximalRun_diff hk hq).2 (Or.inr hi), (hi.2 p).2 ⟨hp, (forall_mem_gt hq' p).2 h⟩⟩

omit [LawfulInterval I K] in
/-- the maximal runs within a maximal run -/
theorem maximalRun_within {P R : I → Prop} {i j : Interval I} (hj : MaximalRun P j) :
    MaximalRun (fun p => Mem p j ∧ R p) i ↔ MaximalRun (fun p => P p ∧ R p) i ∧ Overlap i j := by
  constructor
  · rintro ⟨⟨x, hx⟩, hi, hmax⟩
    refine ⟨⟨⟨x, hx⟩, fun p hp => ⟨hj.2.1 p (hi p hp).1, (hi p hp).2⟩, fun j' hj' ho p hp => ?_⟩, x, hx, (hi x hx).1⟩
    obtain ⟨y, hy, hyj⟩ := id ho
    refine hmax j' (fun z hz => ⟨?_, (hj' z hz).2⟩) ho p hp
    exact hj.2.2 j' (fun z hz => (hj' z hz).1) ⟨y, (hi y hy).1, hyj⟩ z hz
  · rintro ⟨⟨hv, hi, hmax⟩, x, hx, hxj⟩
    have hsub := hj.2.2 i (fun p hp => (hi p hp).1) ⟨x, hxj, hx⟩
    exact ⟨hv, fun p hp => ⟨hsub p hp, (hi p hp).2⟩, fun j' hj' ho p hp =>
      hmax j' (fun z hz => ⟨hj.2.1 z (hj' z hz).1, (hj' z hz).2⟩) ho p hp⟩

omit [LawfulInterval I K] in
theorem MaximalRun.congr {P R : I → Prop} (h : ∀ p, P p ↔ R p) {i : Interval I} : MaximalRun P i ↔ MaximalRun R i := by
  have : P = R := funext fun p => propext (h p)
  rw [this]

omit [LawfulInterval I K] in
/-- an interval is its only maximal run -/
theorem maximalRun_self {k : A} (hk : Valid k) {i : Interval I} :
    MaximalRun (fun p => Mem p k) i ↔ i = ⟨start k, stop k⟩ := by
  have hk' := valid_iff.1 hk
  have hself : MaximalRun (fun p => Mem p k) (⟨start k, stop k⟩ : Interval I) :=
    ⟨⟨start k, le_refl _, hk'⟩, fun p hp => hp, fun j hj _ p hp => hj p hp⟩
  constructor
  · intro h
    obtain ⟨x, hx⟩ := id h.1
    exact MaximalRun.unique h hself hx (h.2.1 x hx)
  · rintro rfl; exact hself

/-- what is left of an entry after cutting `q`: itself if it has no point in `q`, else the maximal runs of its points
outside `q` -/
theorem mem_cut_iff {m m' : NoditMap K V} {out : List (K × V)} (h : WF m.iter) {q : Q} (hq : Valid q)
    (hc : m.cut q = .ok (m', out)) (e : K × V) :
    e ∈ m'.iter ↔ ∃ f ∈ m.iter, (¬ Overlap f.1 q ∧ e = f) ∨
      (Overlap f.1 q ∧ ∃ i : Interval I, e = (ofInterval i, f.2) ∧ MaximalRun (fun p => Mem p f.1 ∧ ¬ Mem p q) i) := by
  obtain ⟨m'', out', h1, -, -, -, h5⟩ := C08_cut_exact h q hq
  rw [hc] at h1; cases h1
  rw [h5]
  constructor
  · rintro (⟨he, ho⟩ | ⟨f, hf, ho, i, he, hd⟩)
    · exact ⟨e, he, Or.inl ⟨ho, rfl⟩⟩
    · exact ⟨f, hf, Or.inr ⟨ho, i, he, (maximalRun_diff (h.1 f hf) hq).2 hd⟩⟩
  · rintro ⟨f, hf, ⟨ho, rfl⟩ | ⟨ho, i, he, hd⟩⟩
    · exact Or.inl ⟨hf, ho⟩
    · exact Or.inr ⟨f, hf, ho, i, he, (maximalRun_diff (h.1 f hf) hq).1 hd⟩

theorem cut_wf {m m' : NoditMap K V} {out : List (K × V)} (h : WF m.iter) {q : Q} (hq : Valid q)
    (hc : m.cut q = .ok (m', out)) : WF m'.iter := by
  obtain ⟨m'', out', h1, h2, -⟩ := C08_cut_exact h q hq
  rw [hc] at h1; cases h1; exact h2

omit [LawfulInterval I K] in
theorem cut_valid {m m' : NoditMap K V} {out : List (K × V)} {q : Q} (hc : m.cut q = .ok (m', out)) : Valid q := by
  by_contra hq; rw [panic_cut hq] at hc; cases hc

/-- what is left of an entry after two cuts: itself if it has no point in `q₁` and none in `q₂`, else the maximal runs
of its points outside both -/
theorem mem_cut_cut_iff {m m₁ m₂ : NoditMap K V} {out₁ out₂ : List (K × V)} (h : WF m.iter) {q₁ : Q} {q₂ : Q'}
    (hc₁ : m.cut q₁ = .ok (m₁, out₁)) (hc₂ : m₁.cut q₂ = .ok (m₂, out₂)) (e : K × V) :
    e ∈ m₂.iter ↔ ∃ f ∈ m.iter, (¬ Overlap f.1 q₁ ∧ ¬ Overlap f.1 q₂ ∧ e = f) ∨
      ((Overlap f.1 q₁ ∨ Overlap f.1 q₂) ∧ ∃ i : Interval I, e = (ofInterval i, f.2) ∧
        MaximalRun (fun p => Mem p f.1 ∧ ¬ Mem p q₁ ∧ ¬ Mem p q₂) i) := by
  have hq₁ := cut_valid hc₁
  have hq₂ := cut_valid hc₂
  have h1 := cut_wf h hq₁ hc₁
  rw [mem_cut_iff h1 hq₂ hc₂]
  simp only [mem_cut_iff h hq₁ hc₁]
  have eqOf : ∀ i : Interval I, ∀ p, Mem p (ofInterval i : K) ↔ Mem p i := fun i p => mem_ofInterval
  constructor
  · rintro ⟨g, ⟨f, hf, ⟨ho, rfl⟩ | ⟨ho, j, rfl, hj⟩⟩, ⟨ho', rfl⟩ | ⟨ho', i, rfl, hi⟩⟩
    · exact ⟨_, hf, Or.inl ⟨ho, ho', rfl⟩⟩
    · refine ⟨_, hf, Or.inr ⟨Or.inr ho', i, rfl, (MaximalRun.congr fun p => ?_).1 hi⟩⟩
      exact ⟨fun hp => ⟨hp.1, fun hq => ho ⟨p, hp.1, hq⟩, hp.2⟩, fun hp => ⟨hp.1, hp.2.2⟩⟩
    · refine ⟨f, hf, Or.inr ⟨Or.inl ho, j, rfl, (MaximalRun.congr fun p => and_assoc).1 ?_⟩⟩
      refine ((maximalRun_within hj (R := fun p => ¬ Mem p q₂)).1 ?_).1
      refine (MaximalRun.congr fun p => ?_).1 ((maximalRun_self hj.1).2 rfl)
      exact ⟨fun hp => ⟨hp, fun hq => ho' ⟨p, (eqOf j p).2 hp, hq⟩⟩, fun hp => hp.1⟩
    · refine ⟨f, hf, Or.inr ⟨Or.inl ho, i, rfl, (MaximalRun.congr fun p => and_assoc).1 ?_⟩⟩
      refine ((maximalRun_within hj (R := fun p => ¬ Mem p q₂)).1 ?_).1
      exact (MaximalRun.congr fun p => by simp only [eqOf]).1 hi
  · rintro ⟨f, hf, ⟨ho, ho', rfl⟩ | ⟨ho, i, rfl, hi⟩⟩
    · exact ⟨e, ⟨e, hf, Or.inl ⟨ho, rfl⟩⟩, Or.inl ⟨ho', rfl⟩⟩
    · by_cases ho₁ : Overlap f.1 q₁
      · obtain ⟨x, hx⟩ := id hi.1
        obtain ⟨j, hj, hxj⟩ := maximalRun_diff_exists (h.1 f hf) hq₁ (hi.2.1 x hx).1 (hi.2.1 x hx).2.1
        have hij : MaximalRun (fun p => Mem p j ∧ ¬ Mem p q₂) i := by
          refine (maximalRun_within hj (R := fun p => ¬ Mem p q₂)).2 ⟨(MaximalRun.congr fun p => and_assoc).2 hi, x, hx, hxj⟩
        refine ⟨(ofInterval j, f.2), ⟨f, hf, Or.inr ⟨ho₁, j, rfl, hj⟩⟩, ?_⟩
        by_cases ho₂ : Overlap (ofInterval j : K) q₂
        · exact Or.inr ⟨ho₂, i, rfl, (MaximalRun.congr fun p => by simp only [eqOf]).1 hij⟩
        · refine Or.inl ⟨ho₂, ?_⟩
          have : MaximalRun (fun p => Mem p j) i := (MaximalRun.congr fun p =>
            ⟨fun hp => hp.1, fun hp => ⟨hp, fun hq => ho₂ ⟨p, (eqOf j p).2 hp, hq⟩⟩⟩).1 hij
          rw [(maximalRun_self hj.1).1 this]; rfl
      · have ho₂ := ho.resolve_left ho₁
        refine ⟨f, ⟨f, hf, Or.inl ⟨ho₁, rfl⟩⟩, Or.inr ⟨ho₂, i, rfl, (MaximalRun.congr fun p => ?_).1 hi⟩⟩
        exact ⟨fun hp => ⟨hp.1, hp.2.2⟩, fun hp => ⟨hp.1, fun hq => ho₁ ⟨p, hp.1, hq⟩, hp.2⟩⟩

/-- **C54**: a second cut of (a part of) what was cut finds nothing and changes nothing. -/
theorem C54_cut_idempotent {m m' : NoditMap K V} {out : List (K × V)} (h : WF m.iter) {q : Q} {q' : Q'}
    (hc : m.cut q = .ok (m', out)) (hq' : Valid q') (hsub : ∀ p, Mem p q' → Mem p q) :
    m'.cut q' = .ok (m', []) ∧ m'.overlapping q' = .ok [] ∧ m'.overlaps q' = .ok false := by
  have hq := cut_valid hc
  have h' := cut_wf h hq hc
  have hno : ∀ e ∈ m'.iter, ¬ Overlap e.1 q' := by
    rintro e he ⟨p, hpe, hpq⟩
    have := (C08_cut_pointwise h q hq hc p).1 (hsub p hpq)
    rw [getAtPoint_eq h' he hpe] at this; cases this
  refine ⟨?_, ?_, ?_⟩
  · obtain ⟨m'', o, h1, h2, h3, h4, h5⟩ := C08_cut_exact h' q' hq'
    have : o = [] := by
      rw [List.eq_nil_iff_forall_not_mem]
      intro e he
      obtain ⟨f, hf, i, -, hd⟩ := (h4 e).1 he
      obtain ⟨x, hx⟩ := hd.1
      exact hno f hf ⟨x, (hd.2 x).1 hx⟩
    subst this
    have : m'' = m' := NoditMap.ext_entries h2 h' fun e => by
      rw [h5]
      exact ⟨fun hx => hx.elim (·.1) fun ⟨f, hf, ho, _⟩ => absurd ho (hno f hf), fun hx => Or.inl ⟨hx, hno e hx⟩⟩
    rw [h1, this]
  · obtain ⟨o, h1, -, h3⟩ := (C05_overlapping_exact h' q' hq').1
    have : o = [] := by
      rw [List.eq_nil_iff_forall_not_mem]
      exact fun e he => hno e ((h3 e).1 he).1 ((h3 e).1 he).2
    rw [h1, this]
  · obtain ⟨b, h1, h2⟩ := (C05_overlapping_exact h' q' hq').2
    cases b
    · exact h1
    · obtain ⟨e, he, ho⟩ := h2.1 rfl; exact absurd ho (hno e he)

/-- **C55**: cuts commute: the remaining map does not depend on their order. -/
theorem C55_cuts_commute {m m₁ m₂ m₁₂ m₂₁ : NoditMap K V} {o₁ o₂ o₁₂ o₂₁ : List (K × V)} (h : WF m.iter) {q₁ : Q} {q₂ : Q'}
    (h₁ : m.cut q₁ = .ok (m₁, o₁)) (h₁₂ : m₁.cut q₂ = .ok (m₁₂, o₁₂))
    (h₂ : m.cut q₂ = .ok (m₂, o₂)) (h₂₁ : m₂.cut q₁ = .ok (m₂₁, o₂₁)) : m₁₂ = m₂₁ := by
  have w1 := cut_wf (cut_wf h (cut_valid h₁) h₁) (cut_valid h₁₂) h₁₂
  have w2 := cut_wf (cut_wf h (cut_valid h₂) h₂) (cut_valid h₂₁) h₂₁
  refine NoditMap.ext_entries w1 w2 fun e => ?_
  rw [mem_cut_cut_iff h h₁ h₁₂, mem_cut_cut_iff h h₂ h₂₁]
  refine exists_congr fun f => and_congr_right fun _ => or_congr ?_ (and_congr or_comm (exists_congr fun i => and_congr_right fun _ =>
    MaximalRun.congr fun p => and_congr_right fun _ => and_comm))
  tauto

/-- **C55**: cutting two intervals one after the other leaves the same as cutting the interval they make up together. -/
theorem C55_cut_union {m m₁ m₁₂ m₃ : NoditMap K V} {o₁ o₁₂ o₃ : List (K × V)} (h : WF m.iter) {q₁ : Q} {q₂ : Q'} {q : A}
    (hq : ∀ p, Mem p q ↔ Mem p q₁ ∨ Mem p q₂)
    (h₁ : m.cut q₁ = .ok (m₁, o₁)) (h₁₂ : m₁.cut q₂ = .ok (m₁₂, o₁₂)) (h₃ : m.cut q = .ok (m₃, o₃)) : m₁₂ = m₃ := by
  have w1 := cut_wf (cut_wf h (cut_valid h₁) h₁) (cut_valid h₁₂) h₁₂
  refine NoditMap.ext_entries w1 (cut_wf h (cut_valid h₃) h₃) fun e => ?_
  rw [mem_cut_cut_iff h h₁ h₁₂, mem_cut_iff h (cut_valid h₃) h₃]
  have ho : ∀ f : K, Overlap f q ↔ Overlap f q₁ ∨ Overlap f q₂ := by
    intro f
    constructor
    · rintro ⟨p, hp, hpq⟩
      rcases (hq p).1 hpq with h | h
      · exact Or.inl ⟨p, hp, h⟩
      · exact Or.inr ⟨p, hp, h⟩
    · rintro (⟨p, hp, h⟩ | ⟨p, hp, h⟩)
      · exact ⟨p, hp, (hq p).2 (Or.inl h)⟩
      · exact ⟨p, hp, (hq p).2 (Or.inr h)⟩
  refine exists_congr fun f => and_congr_right fun _ => or_congr ?_ (and_congr (ho f.1).symm (exists_congr fun i => and_congr_right fun _ =>
    MaximalRun.congr fun p => and_congr_right fun _ => ?_))
  · rw [ho]; tauto
  · rw [hq]; tauto

/-- cuts of `Demo.m` at `4..=10` and `12..=17` -/
example : ∃ m₁ m₁₂ o₁ o₂, Demo.m.cut (Demo.iv 4 10) = .ok (m₁, o₁) ∧ m₁.cut (Demo.iv 12 17) = .ok (m₁₂, o₂) ∧
    m₁₂.iter = [(Demo.iv 0 1, 7), (Demo.iv 3 3, 7), (Demo.iv 11 11, 8), (Demo.iv 18 20, 8), (Demo.iv 250 255, 1)] :=
  ⟨_, _, _, _, rfl, rfl, by decide⟩

/-! ## Overwriting inserts -/

omit [LawfulInterval I K] in
theorem insertOverwrite_valid {m m' : NoditMap K V} {out : List (K × V)} {k : K} {v : V}
    (hc : m.insertOverwrite k v = .ok (m', out)) : Valid k := by
  by_contra hq; rw [panic_insertOverwrite hq] at hc; cases hc

theorem mem_insertOverwrite {m m' : NoditMap K V} {out : List (K × V)} (h : WF m.iter) {k : K} {v : V}
    (hc : m.insertOverwrite k v = .ok (m', out)) :
    ∃ mc, m.cut k = .ok (mc, out) ∧ WF mc.iter ∧ WF m'.iter ∧ ∀ e, e ∈ m'.iter ↔ e ∈ mc.iter ∨ e = (k, v) := by
  have hk := insertOverwrite_valid hc
  obtain ⟨mc, m'', out', h1, h2, -, h4, h5, -⟩ := C09_insert_overwrite h k hk v
  rw [hc] at h2; cases h2
  exact ⟨mc, h1, cut_wf h hk h1, h4, h5⟩

/-- what `insert_overwrite(k₁, v₁)` and then `insert_overwrite(k₂, v₂)` leave, for intervals without a common point -/
theorem mem_overwrite_overwrite {m m₁ m₁₂ : NoditMap K V} {o₁ o₁₂ : List (K × V)} (h : WF m.iter) {k₁ k₂ : K} {v₁ v₂ : V}
    (hd : ¬ Overlap k₁ k₂) (h₁ : m.insertOverwrite k₁ v₁ = .ok (m₁, o₁)) (h₁₂ : m₁.insertOverwrite k₂ v₂ = .ok (m₁₂, o₁₂)) :
    WF m₁₂.iter ∧ ∃ c₁ c₁₂ p₁ p₁₂, m.cut k₁ = .ok (c₁, p₁) ∧ c₁.cut k₂ = .ok (c₁₂, p₁₂) ∧
      ∀ e, e ∈ m₁₂.iter ↔ e ∈ c₁₂.iter ∨ e = (k₁, v₁) ∨ e = (k₂, v₂) := by
  have hk₁ := insertOverwrite_valid h₁
  have hk₂ := insertOverwrite_valid h₁₂
  obtain ⟨c₁, a1, a2, a3, a4⟩ := mem_insertOverwrite h h₁
  obtain ⟨c, b1, b2, b3, b4⟩ := mem_insertOverwrite a3 h₁₂
  obtain ⟨c₁₂, p₁₂, d1, -⟩ := C08_cut_exact a2 k₂ hk₂
  refine ⟨b3, c₁, c₁₂, _, p₁₂, a1, d1, fun e => ?_⟩
  rw [b4, mem_cut_iff a3 hk₂ b1, mem_cut_iff a2 hk₂ d1]
  constructor
  · rintro (⟨f, hf, hx⟩ | rfl)
    · rcases (a4 f).1 hf with hf | rfl
      · exact Or.inl ⟨f, hf, hx⟩
      · rcases hx with ⟨-, rfl⟩ | ⟨ho, -⟩
        · exact Or.inr (Or.inl rfl)
        · exact absurd ho hd
    · exact Or.inr (Or.inr rfl)
  · rintro (⟨f, hf, hx⟩ | rfl | rfl)
    · exact Or.inl ⟨f, (a4 f).2 (Or.inl hf), hx⟩
    · exact Or.inl ⟨_, (a4 _).2 (Or.inr rfl), Or.inl ⟨hd, rfl⟩⟩
    · exact Or.inr rfl

/-- **C56**: overwriting inserts of intervals without a common point commute. -/
theorem C56_disjoint_overwrites_commute {m m₁ m₂ m₁₂ m₂₁ : NoditMap K V} {o₁ o₂ o₁₂ o₂₁ : List (K × V)} (h : WF m.iter)
    {k₁ k₂ : K} {v₁ v₂ : V} (hd : ¬ Overlap k₁ k₂)
    (h₁ : m.insertOverwrite k₁ v₁ = .ok (m₁, o₁)) (h₁₂ : m₁.insertOverwrite k₂ v₂ = .ok (m₁₂, o₁₂))
    (h₂ : m.insertOverwrite k₂ v₂ = .ok (m₂, o₂)) (h₂₁ : m₂.insertOverwrite k₁ v₁ = .ok (m₂₁, o₂₁)) : m₁₂ = m₂₁ := by
  obtain ⟨w1, c₁, c₁₂, _, _, a1, a2, a3⟩ := mem_overwrite_overwrite h hd h₁ h₁₂
  obtain ⟨w2, c₂, c₂₁, _, _, b1, b2, b3⟩ := mem_overwrite_overwrite h (fun ho => hd (overlap_comm.1 ho)) h₂ h₂₁
  have := C55_cuts_commute h a1 a2 b1 b2
  subst this
  refine NoditMap.ext_entries w1 w2 fun e => ?_
  rw [a3, b3]; tauto

/-- **C56**: an overwriting insert hides earlier ones of intervals inside it: the map is as if only the last had been
made. In particular overwriting twice with the same interval and value is the same as once. -/
theorem C56_overwrite_absorbs {m m₁ m₁₂ m₂ : NoditMap K V} {o₁ o₁₂ o₂ : List (K × V)} (h : WF m.iter)
    {k₁ k₂ : K} {v₁ v₂ : V} (hsub : ∀ p, Mem p k₁ → Mem p k₂)
    (h₁ : m.insertOverwrite k₁ v₁ = .ok (m₁, o₁)) (h₁₂ : m₁.insertOverwrite k₂ v₂ = .ok (m₁₂, o₁₂))
    (h₂ : m.insertOverwrite k₂ v₂ = .ok (m₂, o₂)) : m₁₂ = m₂ := by
  have hk₂ := insertOverwrite_valid h₁₂
  obtain ⟨c₁, a1, a2, a3, a4⟩ := mem_insertOverwrite h h₁
  obtain ⟨c₁₂, b1, b2, b3, b4⟩ := mem_insertOverwrite a3 h₁₂
  obtain ⟨c₂, d1, d2, d3, d4⟩ := mem_insertOverwrite h h₂
  obtain ⟨c, p, e1, -⟩ := C08_cut_exact a2 k₂ hk₂
  have hcc := C55_cut_union h (q := k₂) (fun p => ⟨Or.inr, fun hp => hp.elim (hsub p) id⟩) a1 e1 d1
  subst hcc
  refine NoditMap.ext_entries b3 d3 fun e => ?_
  rw [b4, d4, mem_cut_iff a3 hk₂ b1, mem_cut_iff a2 hk₂ e1]
  refine or_congr ⟨?_, ?_⟩ Iff.rfl
  · rintro ⟨f, hf, hx⟩
    rcases (a4 f).1 hf with hf | rfl
    · exact ⟨f, hf, hx⟩
    · exfalso
      have hk₁ := insertOverwrite_valid h₁
      rcases hx with ⟨hn, -⟩ | ⟨-, i, -, hi⟩
      · obtain ⟨x, hx⟩ := hk₁; exact hn ⟨x, hx, hsub x hx⟩
      · obtain ⟨x, hx⟩ := hi.1; exact (hi.2.1 x hx).2 (hsub x (hi.2.1 x hx).1)
  · rintro ⟨f, hf, hx⟩; exact ⟨f, (a4 f).2 (Or.inl hf), hx⟩

example : ∃ m₁ m₁₂ m₂ m₂₁ o₁ o₂ o₃ o₄, Demo.m.insertOverwrite (Demo.iv 4 10) 5 = .ok (m₁, o₁) ∧
    m₁.insertOverwrite (Demo.iv 11 17) 6 = .ok (m₁₂, o₂) ∧ Demo.m.insertOverwrite (Demo.iv 11 17) 6 = .ok (m₂, o₃) ∧
    m₂.insertOverwrite (Demo.iv 4 10) 5 = .ok (m₂₁, o₄) ∧ ¬ Overlap (Demo.iv 4 10) (Demo.iv 11 17) ∧
    m₂₁.iter = [(Demo.iv 0 1, 7), (Demo.iv 3 3, 7), (Demo.iv 4 10, 5), (Demo.iv 11 17, 6), (Demo.iv 18 20, 8), (Demo.iv 250 255, 1)] :=
  ⟨_, _, _, _, _, _, _, _, rfl, rfl, rfl, rfl, by rw [overlap_iff (by decide) (by decide)]; decide, by decide⟩

/-! ## Undoing -/

/-- **C57**: a successful `insert_strict(k, v)` is undone by `remove_overlapping(k)`, and by `cut(k)`; the first returns
the inserted entry, the second the same with the key rebuilt from its end points. -/
theorem C57_remove_undoes_insert {m m' : NoditMap K V} (h : WF m.iter) {k : K} {v : V}
    (hi : m.insertStrict k v = .ok (m', .ok ())) :
    m'.removeOverlapping k = .ok (m, [(k, v)]) ∧ m'.cut k = .ok (m, [(ofInterval ⟨start k, stop k⟩, v)]) := by
  have hk : Valid k := by by_contra hq; rw [panic_insertStrict hq] at hi; cases hi
  obtain ⟨m'', r, h1, h2, h3, h4⟩ := C06_insert_strict h k hk v
  rw [hi] at h1; cases h1
  have hno : ∀ e ∈ m.iter, ¬ Overlap e.1 k := by
    intro e he ho
    have := (h3 ⟨e, he, ho⟩).1; cases this
  obtain ⟨-, hmem, -⟩ := h4 hno
  have hkk : Overlap k k := by obtain ⟨x, hx⟩ := hk; exact ⟨x, hx, hx⟩
  constructor
  · obtain ⟨m₂, out, e1, e2, e3, e4, e5⟩ := C07_remove_overlapping h2 k hk
    have hm : m₂ = m := NoditMap.ext_entries e2 h fun e => by
      rw [e5, hmem]
      constructor
      · rintro ⟨he | rfl, ho⟩
        · exact he
        · exact absurd hkk ho
      · intro he; exact ⟨Or.inl he, hno e he⟩
    have ho : out = [(k, v)] := by
      refine (wf_iff_chain.1 e3).ext (wf_iff_chain.1 ⟨by simpa using hk, by simp⟩) fun e => ?_
      rw [e4, hmem, List.mem_singleton]
      constructor
      · rintro ⟨he | rfl, ho⟩
        · exact absurd ho (hno e he)
        · rfl
      · rintro rfl; exact ⟨Or.inr rfl, hkk⟩
    rw [e1, hm, ho]
  · obtain ⟨m₂, out, e1, e2, e3, e4, e5⟩ := C08_cut_exact h2 k hk
    have hm : m₂ = m := NoditMap.ext_entries e2 h fun e => by
      rw [mem_cut_iff h2 hk e1]
      constructor
      · rintro ⟨f, hf, ⟨ho, rfl⟩ | ⟨ho, i, rfl, hi⟩⟩
        · rcases (hmem e).1 hf with he | rfl
          · exact he
          · exact absurd hkk ho
        · rcases (hmem f).1 hf with he | rfl
          · exact absurd ho (hno f he)
          · obtain ⟨x, hx⟩ := hi.1; exact absurd (hi.2.1 x hx).1 (hi.2.1 x hx).2
      · intro he; exact ⟨e, (hmem e).2 (Or.inl he), Or.inl ⟨hno e he, rfl⟩⟩
    have hd : ∀ i : Interval I, Describes i (fun p => Mem p k ∧ Mem p k) ↔ i = ⟨start k, stop k⟩ := by
      intro i
      refine describes_of (valid_iff.1 hk) ?_
      intro x; simp [Mem, start, stop]
    have ho : out = [(ofInterval ⟨start k, stop k⟩, v)] := by
      refine (wf_iff_chain.1 e3).ext (wf_iff_chain.1 ⟨?_, by simp⟩) fun e => ?_
      · simp only [List.mem_singleton, forall_eq]
        obtain ⟨x, hx⟩ := hk
        exact ⟨x, mem_ofInterval.2 hx⟩
      · rw [e4, List.mem_singleton]
        constructor
        · rintro ⟨f, hf, i, rfl, hi⟩
          rcases (hmem f).1 hf with he | rfl
          · obtain ⟨x, hx⟩ := hi.1; exact absurd ⟨x, (hi.2 x).1 hx⟩ (hno f he)
          · rw [(hd i).1 hi]
        · rintro rfl; exact ⟨(k, v), (hmem _).2 (Or.inr rfl), _, rfl, (hd _).2 rfl⟩
    rw [e1, hm, ho]

omit [LawfulInterval I K] in
/-- **C57**: what `remove_overlapping(q)` removed can be put back with `insert_strict`, in any order, which restores
the map. -/
theorem C57_reinsert_undoes_remove {m m' : NoditMap K V} {out : List (K × V)} (h : WF m.iter) {q : Q}
    (hr : m.removeOverlapping q = .ok (m', out)) {l : List (K × V)} (hp : l.Perm out) :
    m'.fromIterStrictFrom l = .ok (.ok m) := by
  have hq : Valid q := by by_contra hq; rw [panic_removeOverlapping hq] at hr; cases hr
  obtain ⟨m'', out', h1, h2, h3, h4, h5⟩ := C07_remove_overlapping h q hq
  rw [hr] at h1; cases h1
  have hdis : ∀ e ∈ m.iter, ∀ d ∈ m.iter, e ≠ d → ¬ Overlap e.1 d.1 := by
    rintro e he d hd hne ⟨p, h1, h2⟩
    exact hne ((C03_point_lookup h p).2.2.2 e he d hd h1 h2)
  have hpw : out.Pairwise (fun a b => ¬ Overlap a.1 b.1) := by
    refine List.Pairwise.imp ?_ h3.2
    rintro a b hab ⟨p, h1, h2⟩
    exact lt_irrefl _ (hab p p h1 h2)
  have hpl : l.Pairwise (fun a b => ¬ Overlap a.1 b.1) :=
    (hp.pairwise_iff (fun h h' => h (overlap_comm.1 h'))).2 hpw
  obtain ⟨m₂, e1, e2, e3, -⟩ := fromIterStrictFrom_append h2 (pre := l) (fun e he => h3.1 e (hp.mem_iff.1 he)) hpl
    (fun e he d hd => by
      have he' := (h4 e).1 (hp.mem_iff.1 he)
      have hd' := (h5 d).1 hd
      refine hdis d hd'.1 e he'.1 ?_
      rintro rfl; exact hd'.2 he'.2) []
  rw [List.append_nil] at e1
  rw [e1]
  have : m₂ = m := NoditMap.ext_entries e2 h fun e => by
    rw [e3, h5, hp.mem_iff, h4]; tauto
  rw [this]; rfl

omit [LawfulInterval I K] in
/-- **C58**: rebuilding a map from its entries, in any order, gives the same map. -/
theorem C58_rebuild {m : NoditMap K V} (h : WF m.iter) {l : List (K × V)} (hp : l.Perm m.intoIter) :
    fromIterStrict l = .ok (.ok m) := by
  have hp' : l.Perm m.iter := hp
  have hpw : m.iter.Pairwise (fun a b => ¬ Overlap a.1 b.1) := by
    refine List.Pairwise.imp ?_ h.2
    rintro a b hab ⟨p, h1, h2⟩
    exact lt_irrefl _ (hab p p h1 h2)
  obtain ⟨m', h1, -, h2, h3, -⟩ := C17_from_iter_strict_disjoint (fun e he => h.1 e (hp'.mem_iff.1 he))
    ((hp'.pairwise_iff (fun h h' => h (overlap_comm.1 h'))).2 hpw)
  rw [h1, NoditMap.ext_entries h2 h fun e => by rw [h3, hp'.mem_iff]]

example : fromIterStrict Demo.m.intoIter.reverse = .ok (.ok Demo.m) := C58_rebuild (C01_invariant Demo.ops) (List.reverse_perm _)

/-- `Demo.m` with a strict insert, and with the entries at `4..=10` removed -/
example : (∃ m', Demo.m.insertStrict (Demo.iv 5 9) 5 = .ok (m', .ok ())) ∧
    ∃ m' out, Demo.m.removeOverlapping (Demo.iv 4 10) = .ok (m', out) ∧ out.length = 2 := ⟨⟨_, rfl⟩, _, _, rfl, by decide⟩

/-! ## Gaps -/

/-- **C59**: the gaps in `q`, trimmed or not, can all be filled with `insert_strict`, in any order and with any values;
then all of `q` is covered, there is no gap in `q` left, and the former entries are still there. -/
theorem C59_fill_gaps {m : NoditMap K V} (h : WF m.iter) {q : Q} (hq : Valid q) {gaps : List K}
    (hg : m.gapsTrimmed q = .ok gaps ∨ m.gapsUntrimmed q = .ok gaps) {l : List (K × V)} (hp : (l.map Prod.fst).Perm gaps) :
    ∃ m', m.fromIterStrictFrom l = .ok (.ok m') ∧ (∀ e, e ∈ m'.iter ↔ e ∈ m.iter ∨ e ∈ l) ∧
      m'.containsInterval q = .ok true ∧ m'.gapsTrimmed q = .ok [] ∧ m'.gapsUntrimmed q = .ok [] := by
  have key : Ascending gaps ∧ (∀ k ∈ gaps, ∀ e ∈ m.iter, ¬ Overlap e.1 k) ∧
      ∀ p, Mem p q → (¬ ∃ e ∈ m.iter, Mem p e.1) → ∃ k ∈ gaps, Mem p k := by
    rcases hg with hg | hg
    · obtain ⟨out, h1, h2, h3, h4⟩ := C15_gaps_trimmed h q hq
      rw [hg] at h1; cases h1
      refine ⟨h2, ?_, fun p hp hn => (h4 p).2 ⟨hp, hn⟩⟩
      rintro k hk e he ⟨p, hpe, hpk⟩
      exact ((h4 p).1 ⟨k, hk, hpk⟩).2 ⟨e, he, hpe⟩
    · obtain ⟨out, h1, h2, h3⟩ := C14_gaps_untrimmed h q hq
      rw [hg] at h1; cases h1
      refine ⟨h2, ?_, fun p hp hn => ?_⟩
      · rintro k hk e he ⟨p, hpe, hpk⟩
        obtain ⟨i, rfl, hi, -⟩ := (h3 k).1 hk
        exact hi.2.1 p (mem_ofInterval.1 hpk) ⟨e, he, hpe⟩
      · obtain ⟨g, -, hpg, h5, h6⟩ := C04_failed_lookup_returns_maximal_gap h p (fun e he hpe => hn ⟨e, he, hpe⟩)
        refine ⟨ofInterval g, (h3 _).2 ⟨g, rfl, ⟨⟨p, hpg⟩, fun x hx ⟨e, he, hxe⟩ => h5 x hx e he hxe, ?_⟩, p, hpg, hp⟩,
          mem_ofInterval.2 hpg⟩
        rintro j hj ⟨x, hx, hxj⟩ y hy
        -- the union of `g` and `j` is a run around `p`
        have hu : ∀ z, Mem z (⟨min g.start j.start, max g.stop j.stop⟩ : Interval I) → Mem z g ∨ Mem z j := by
          rintro z ⟨hz1, hz2⟩
          simp only [Mem, start, stop] at *
          rcases min_choice g.start j.start with hm | hm <;> rcases max_choice g.stop j.stop with hm' | hm' <;>
            rw [hm] at hz1 <;> rw [hm'] at hz2
          · exact Or.inl ⟨hz1, hz2⟩
          · rcases le_total z g.stop with hc | hc
            · exact Or.inl ⟨hz1, hc⟩
            · exact Or.inr ⟨by order, hz2⟩
          · rcases le_total g.start z with hc | hc
            · exact Or.inl ⟨hc, hz2⟩
            · exact Or.inr ⟨hz1, by order⟩
          · exact Or.inr ⟨hz1, hz2⟩
        refine h6 ⟨min g.start j.start, max g.stop j.stop⟩ ⟨le_trans (min_le_left _ _) hpg.1, le_trans hpg.2 (le_max_left _ _)⟩ ?_ y
          ⟨le_trans (min_le_right _ _) hy.1, le_trans hy.2 (le_max_right _ _)⟩
        intro z hz e he hze
        rcases hu z hz with hz | hz
        · exact h5 z hz e he hze
        · exact hj z hz ⟨e, he, hze⟩
  obtain ⟨hasc, hno, hcov⟩ := key
  have hmem : ∀ k, k ∈ gaps ↔ ∃ e ∈ l, e.1 = k := fun k => by rw [← hp.mem_iff, List.mem_map]
  have hpw : gaps.Pairwise (fun a b => ¬ Overlap a b) := by
    refine List.Pairwise.imp ?_ hasc.2
    rintro a b hab ⟨p, h1, h2⟩
    exact lt_irrefl _ (hab p p h1 h2)
  have hpl : l.Pairwise (fun a b => ¬ Overlap a.1 b.1) :=
    List.pairwise_map.1 ((hp.pairwise_iff (fun h h' => h (overlap_comm.1 h'))).2 hpw)
  obtain ⟨m', e1, e2, e3, -⟩ := fromIterStrictFrom_append h (pre := l) (fun e he => hasc.1 _ ((hmem _).2 ⟨e, he, rfl⟩)) hpl
    (fun e he d hd => hno _ ((hmem _).2 ⟨e, he, rfl⟩) d hd) []
  rw [List.append_nil] at e1
  have hall : ∀ p, Mem p q → ∃ e ∈ m'.iter, Mem p e.1 := by
    intro p hpq
    by_cases hc : ∃ e ∈ m.iter, Mem p e.1
    · obtain ⟨e, he, hpe⟩ := hc; exact ⟨e, (e3 e).2 (Or.inl he), hpe⟩
    · obtain ⟨k, hk, hpk⟩ := hcov p hpq hc
      obtain ⟨e, he, rfl⟩ := (hmem k).1 hk
      exact ⟨e, (e3 e).2 (Or.inr he), hpk⟩
  refine ⟨m', by rw [e1]; rfl, e3, ?_, ?_, ?_⟩
  · obtain ⟨b, h1, h2⟩ := C16_contains_interval e2 q hq
    rw [h1, h2.2 hall]
  · obtain ⟨out, h1, h2, -, h4⟩ := C15_gaps_trimmed e2 q hq
    rw [h1]
    cases out with
    | nil => rfl
    | cons k out =>
      obtain ⟨x, hx⟩ := h2.1 k (by simp)
      have := (h4 x).1 ⟨k, by simp, hx⟩
      exact absurd (hall x this.1) this.2
  · obtain ⟨out, h1, h2, h3⟩ := C14_gaps_untrimmed e2 q hq
    rw [h1]
    cases out with
    | nil => rfl
    | cons k out =>
      obtain ⟨i, -, hi, x, hxi, hxq⟩ := (h3 k).1 (by simp)
      exact absurd (hall x hxq) (hi.2.1 x hxi)

example : Demo.m.gapsTrimmed (Demo.iv 2 100) = .ok [Demo.iv 2 2, Demo.iv 5 9, Demo.iv 21 100] ∧
    ∃ m', Demo.m.fromIterStrictFrom [(Demo.iv 21 100, 1), (Demo.iv 2 2, 2), (Demo.iv 5 9, 3)] = .ok (.ok m') ∧ m'.len = 9 :=
  ⟨by decide, _, rfl, by decide⟩

/-! ## Only the points of a query matter -/

/-- **C61**: the result of a call depends on the points of the query interval only, not on its type or representation. -/
theorem C61_query_points_only {m : NoditMap K V} (h : WF m.iter) {q : Q} {q' : Q'} (hqq : ∀ p, Mem p q ↔ Mem p q') (f : K → V → V) :
    m.overlaps q = m.overlaps q' ∧ m.overlapping q = m.overlapping q' ∧ m.overlappingMut q f = m.overlappingMut q' f ∧
    m.removeOverlapping q = m.removeOverlapping q' ∧ m.cut q = m.cut q' ∧ m.gapsUntrimmed q = m.gapsUntrimmed q' ∧
    m.gapsTrimmed q = m.gapsTrimmed q' ∧ m.containsInterval q = m.containsInterval q' := by
  have hv : Valid q ↔ Valid q' := exists_congr hqq
  have hmem : (fun p => Mem p q) = fun p => Mem p q' := funext fun p => propext (hqq p)
  have hov : ∀ {A : Type} [IntervalType I A] (a : A), Overlap a q ↔ Overlap a q' := fun a =>
    exists_congr fun p => and_congr_right fun _ => hqq p
  by_cases hq : Valid q
  · have hq' := hv.1 hq
    refine ⟨?_, ?_, ?_, ?_, ?_, ?_, ?_, ?_⟩
    · obtain ⟨b, h1, h2⟩ := spec_overlaps h hq
      obtain ⟨b', h1', h2'⟩ := spec_overlaps h hq'
      rw [h1, h1', bool_unique h2 (h2'.trans (exists_congr fun e => and_congr_right fun _ => (hov e.1).symm))]
    · obtain ⟨b, h1, h2⟩ := spec_overlapping h hq
      obtain ⟨b', h1', h2'⟩ := spec_overlapping h hq'
      simp only [hov] at h2
      rw [h1, h1', Lists.unique h2 h2']
    · obtain ⟨m1, h1, h2, -, h3⟩ := spec_overlappingMut h hq f
      obtain ⟨m2, h1', h2', -, h3'⟩ := spec_overlappingMut h hq' f
      simp only [hov] at h3
      rw [h1, h1', NoditMap.ext_entries h2 h2' fun e => by
        have := Set.ext_iff.1 (h3.trans h3'.symm) e; exact this]
    · obtain ⟨m1, o1, h1, h2, h3, h4⟩ := spec_removeOverlapping h hq
      obtain ⟨m2, o2, h1', h2', h3', h4'⟩ := spec_removeOverlapping h hq'
      simp only [hov] at h3 h4
      rw [h1, h1', Lists.unique h4 h4', NoditMap.ext_entries h2 h2' fun e => by
        have := Set.ext_iff.1 (h3.trans h3'.symm) e; exact this]
    · obtain ⟨m1, o1, h1, h2, h3, h4⟩ := spec_cut h hq
      obtain ⟨m2, o2, h1', h2', h3', h4'⟩ := spec_cut h hq'
      simp only [CutRemaining, CutReturned, hov, hqq] at h3 h4
      rw [h1, h1', Lists.unique h4 h4', NoditMap.ext_entries h2 h2' fun e => by
        have := Set.ext_iff.1 (h3.trans h3'.symm) e; exact this]
    · obtain ⟨o1, h1, h2⟩ := spec_gapsUntrimmed h hq
      obtain ⟨o2, h1', h2'⟩ := spec_gapsUntrimmed h hq'
      simp only [hov] at h2
      rw [h1, h1', ListsIntervals.unique h2 h2']
    · obtain ⟨o1, h1, h2⟩ := spec_gapsTrimmed h hq
      obtain ⟨o2, h1', h2'⟩ := spec_gapsTrimmed h hq'
      simp only [hqq] at h2
      rw [h1, h1', ListsIntervals.unique h2 h2']
    · obtain ⟨b, h1, h2⟩ := spec_containsInterval h hq
      obtain ⟨b', h1', h2'⟩ := spec_containsInterval h hq'
      simp only [hqq] at h2
      rw [h1, h1', bool_unique h2 h2']
  · have hq' : ¬ Valid q' := fun hc => hq (hv.2 hc)
    simp [panic_overlaps hq, panic_overlapping hq, panic_overlappingMut hq, panic_removeOverlapping hq,
      panic_cut hq, panic_gapsUntrimmed hq, panic_gapsTrimmed hq, panic_containsInterval hq, panic_overlaps hq', panic_overlapping hq', panic_overlappingMut hq', panic_removeOverlapping hq',
      panic_cut hq', panic_gapsUntrimmed hq', panic_gapsTrimmed hq', panic_containsInterval hq']

/-! ## Complements of sets -/

/-- **C60**: the gaps of a set over all points (`gaps_untrimmed(uu())`) make up a set that contains exactly the other
points; its own gaps are the maximal runs of points of the first set. -/
theorem C60_complement {s : NoditSet K} (h : Ascending s.iter) :
    ∃ (full : Interval I) (gaps : List K) (c : NoditSet K) (gaps' : List K), uu = .ok full ∧
      s.gapsUntrimmed full = .ok gaps ∧ NoditSet.fromIterStrict gaps = .ok (.ok c) ∧ c.iter = gaps ∧
      (∀ p, c.containsPoint p = .ok true ↔ s.containsPoint p = .ok false) ∧
      c.gapsUntrimmed full = .ok gaps' ∧ Ascending gaps' ∧
      ∀ k, k ∈ gaps' ↔ ∃ i : Interval I, k = ofInterval i ∧ MaximalRun (fun p => ∃ d ∈ s.iter, Mem p d) i := by
  have hf : ∀ p : I, Mem p (⟨MIN, MAX⟩ : Interval I) := fun p => ⟨LawfulPoint.min_le p, LawfulPoint.le_max p⟩
  have hfv : Valid (⟨MIN, MAX⟩ : Interval I) := ⟨MIN, hf _⟩
  have hfull : (uu : Res (Interval I)) = .ok ⟨MIN, MAX⟩ := by
    have : ¬ (MAX : I) < MIN := not_lt.2 (LawfulPoint.min_le _)
    simp [uu, mkChecked, invalidIntervalPanic, InclusiveInterval.isValid, start, stop, LawfulPoint.min_le, bind, Except.bind, pure, Except.pure]
  obtain ⟨-, -, hg, -, ⟨gaps, g1, g2, g3⟩, -, -⟩ := C22_set_queries h (⟨MIN, MAX⟩ : Interval I) hfv (MIN : I)
  have hpw : gaps.Pairwise (fun a b => ¬ Overlap a b) := by
    refine List.Pairwise.imp ?_ g2.2
    rintro a b hab ⟨p, h1, h2⟩
    exact lt_irrefl _ (hab p p h1 h2)
  obtain ⟨c, c1, -, c2, c3, -⟩ := (C22_set_from_iter g2.1).1 hpw
  have hci : c.iter = gaps := (ascending_iff.1 c2).ext (ascending_iff.1 g2) c3
  have hcov : ∀ p, (∃ k ∈ c.iter, Mem p k) ↔ ¬ ∃ d ∈ s.iter, Mem p d := by
    intro p
    rw [hci]
    constructor
    · rintro ⟨k, hk, hp⟩
      obtain ⟨i, rfl, hi, -⟩ := (g3 k).1 hk
      exact hi.2.1 p (mem_ofInterval.1 hp)
    · intro hn
      obtain ⟨-, -, ⟨r, r1, r2, r3⟩, -⟩ := C22_set_queries h (⟨MIN, MAX⟩ : Interval I) hfv p
      cases r with
      | ok k => exact absurd ⟨k, (r2 k).1 rfl⟩ hn
      | error g =>
        obtain ⟨i, rfl, hi, hp⟩ := r3 g rfl
        exact ⟨_, (g3 _).2 ⟨i, rfl, hi, p, hp, hf p⟩, mem_ofInterval.2 hp⟩
  obtain ⟨-, -, -, -, ⟨gaps', k1, k2, k3⟩, -, -⟩ := C22_set_queries c2 (⟨MIN, MAX⟩ : Interval I) hfv (MIN : I)
  refine ⟨_, gaps, c, gaps', hfull, g1, c1, hci, fun p => ?_, k1, k2, fun k => ?_⟩
  · obtain ⟨-, -, -, ⟨b, b1, b2⟩, -⟩ := C22_set_queries c2 (⟨MIN, MAX⟩ : Interval I) hfv p
    obtain ⟨-, -, -, ⟨b', b1', b2'⟩, -⟩ := C22_set_queries h (⟨MIN, MAX⟩ : Interval I) hfv p
    rw [b1, b1']
    rw [hcov] at b2
    simp only [Except.ok.injEq]
    rw [b2, ← b2', Bool.not_eq_true]
  · rw [k3]
    refine exists_congr fun i => and_congr_right fun _ => ?_
    have : (fun p => ¬ ∃ k ∈ c.iter, Mem p k) = fun p => ∃ d ∈ s.iter, Mem p d := by
      funext p; rw [hcov, not_not]
    rw [this]
    exact ⟨fun hh => hh.1, fun hh => ⟨hh, by obtain ⟨x, hx⟩ := hh.1; exact ⟨x, hx, hf x⟩⟩⟩

omit [LawfulInterval I K] in
/-- **C60**: for a set built by merging inserts, the gaps of the complement are the intervals of the set. -/
theorem C60_complement_of_complement (ops : List (SetOp I (Interval I))) (hops : ∀ op ∈ ops, op.Coalescing) :
    ∃ (full : Interval I) (gaps : List (Interval I)) (c : NoditSet (Interval I)), uu = .ok full ∧
      ((NoditSet.new : NoditSet (Interval I)).run ops).gapsUntrimmed full = .ok gaps ∧
      NoditSet.fromIterStrict gaps = .ok (.ok c) ∧
      c.gapsUntrimmed full = .ok ((NoditSet.new : NoditSet (Interval I)).run ops).iter := by
  have hA := (C22_set_invariant (K := Interval I) ops).1
  obtain ⟨full, gaps, c, gaps', h1, h2, h3, -, -, h4, h5, h6⟩ := C60_complement hA
  refine ⟨full, gaps, c, h1, h2, h3, ?_⟩
  rw [h4, (ascending_iff.1 h5).ext (ascending_iff.1 hA) fun k => ?_]
  rw [h6]
  have h7 := C52_set_intervals_are_maximal_runs ops hops k
  constructor
  · rintro ⟨i, hki, hi⟩
    have hki : k = i := hki
    subst hki
    obtain ⟨d, hd, hs, ht⟩ := h7.1 hi
    have : d = k := by cases d; cases k; simp only [start, stop] at hs ht; rw [hs, ht]
    rw [this] at hd; exact hd
  · intro hk
    exact ⟨k, rfl, h7.2 ⟨k, hk, rfl, rfl⟩⟩

example : (NoditSet.new.run Demo.csops).gapsUntrimmed (Demo.iv 0 255) = .ok [Demo.iv 4 5, Demo.iv 13 255] ∧
    ∃ c, NoditSet.fromIterStrict [Demo.iv 4 5, Demo.iv 13 255] = .ok (.ok c) ∧
      c.gapsUntrimmed (Demo.iv 0 255) = .ok [Demo.iv 0 3, Demo.iv 6 12] := ⟨by decide, _, rfl, by decide⟩

end Nodit
