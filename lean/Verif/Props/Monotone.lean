import Verif.Props.Algebra
import Verif.Props.Pointwise
import Verif.Props.Intervals
import Verif.Props.SetHistory
import Verif.Props.GqditLaws
import Verif.Props.GqditClients
import Verif.Props.AgreementZosdit
import Verif.Props.Demo
/-!
# C115: a container with more in it

Two containers, one of which has everything the other has: how their answers compare, and what stays so when both are used in the
same way.
-/
set_option linter.unusedSectionVars false
namespace Nodit
open Spec PointType

namespace Spec
variable {I K V : Type} [PointType I] [IntervalType I K]

/-- The calls whose effect is not stopped or widened by what is already there: all but the inserts that refuse overlaps and the inserts
that merge. A specification, models no lines of `/repo`. -/
def Op.Unhindered : Op I K V → Prop
  | .insertStrict _ _ | .insertMergeTouching _ _ | .insertMergeTouchingIfValuesEqual _ _ | .insertMergeOverlapping _ _
  | .insertMergeTouchingOrOverlapping _ _ => False
  | _ => True

/-- every interval listed lies in an interval listed by the other.
A specification, models no lines of `/repo`. -/
def Finer (l' l : List K) : Prop := ∀ k' ∈ l', ∃ k ∈ l, ∀ p : I, Mem p k' → Mem p k

/-- How the result `o` of a call on a map compares with the result `o'` of the same call on a map with more entries: entries are listed in
the same order, with others between them; what was found is found; the number of entries is not smaller; gaps are parts of gaps; the first
entry does not begin later and the last one does not end earlier. A specification, models no lines of `/repo`. -/
def Op.FewerThan (op : Op I K V) (o o' : Out K V) : Prop :=
  match op, o, o' with
  | .cut _, .entries l, .entries l' | .insertOverwrite _ _, .entries l, .entries l' | .removeOverlapping _, .entries l, .entries l'
  | .overlapping _, .entries l, .entries l' | .iter, .entries l, .entries l' => l.Sublist l'
  | .overlaps _, .bool b, .bool b' | .containsInterval _, .bool b, .bool b' | .containsPoint _, .bool b, .bool b' => b = true → b' = true
  | .isEmpty, .bool b, .bool b' => b' = true → b = true
  | .len, .nat n, .nat n' => n ≤ n'
  | .getAtPoint _, .optValue r, .optValue r' | .getAtPointMut _ _, .optValue r, .optValue r' => ∀ v, r = some v → r' = some v
  | .getKeyValueAtPoint _, .lookup r, .lookup r' =>
    (∀ e, r = .ok e → r' = .ok e) ∧ (∀ g', r' = .error g' → ∃ g, r = .error g ∧ ∀ p : I, Mem p g' → Mem p g)
  | .gapsUntrimmed _, .keys l, .keys l' | .gapsTrimmed _, .keys l, .keys l' => Finer (I := I) l' l
  | .overlappingMut _ _, .unit, .unit | .iterMut _, .unit, .unit => True
  | .firstKeyValue, .optEntry r, .optEntry r' => ∀ e, r = some e → ∃ e', r' = some e' ∧ ∃ p' : I, Mem p' e'.1 ∧ ∀ p, Mem p e.1 → p' ≤ p
  | .lastKeyValue, .optEntry r, .optEntry r' => ∀ e, r = some e → ∃ e', r' = some e' ∧ ∃ p' : I, Mem p' e'.1 ∧ ∀ p, Mem p e.1 → p ≤ p'
  | _, _, _ => False

/-- The inserts of a `NoditSet` that always succeed, and `cut`. A specification, models no lines of `/repo`. -/
def SetOp.Unhindered : SetOp I K → Prop
  | .insertMergeOverlapping _ | .insertMergeTouchingOrOverlapping _ | .insertOverwrite _ | .cut _ => True
  | _ => False
end Spec

section
variable {I K Q V : Type} [PointType I] [IntervalType I K] [IntervalType I Q] [LawfulPoint I] [LawfulInterval I K]

omit [LawfulInterval I K] in
theorem wf_sublist {l l' : List (K × V)} (h : WF l) (h' : WF l') (hs : ∀ e ∈ l, e ∈ l') : l.Sublist l' := by
  classical
  have hc := wf_iff_chain.1 h
  have hc' := wf_iff_chain.1 h'
  have : l = l'.filter (fun e => e ∈ l) := hc.ext (hc'.filter _) fun e => by
    simp only [List.mem_filter, decide_eq_true_eq]
    exact ⟨fun he => ⟨hs e he, he⟩, fun he => he.2⟩
  rw [this]; exact List.filter_sublist

theorem gap_at {m : NoditMap K V} (h : WF m.iter) {p : I} (hp : ¬ Covered m.entrySet p) :
    ∃ i : Interval I, MaximalRun (fun p => ¬ Covered m.entrySet p) i ∧ Mem p i := by
  obtain ⟨r, -, h1, h2⟩ := NoditMap.spec_getKeyValueAtPoint h p
  cases r with
  | ok e => exact absurd ⟨e, (h1 e).1 rfl⟩ hp
  | error g => obtain ⟨i, -, h3, h4⟩ := h2 g rfl; exact ⟨i, h3, h4⟩

/-- a gap of the map that covers more lies in a gap of the other -/
theorem gap_within {m : NoditMap K V} (h : WF m.iter) {S' : Set (K × V)} (hs : ∀ p : I, Covered m.entrySet p → Covered S' p)
    {g' : Interval I} (hg : MaximalRun (fun p => ¬ Covered S' p) g') :
    ∃ g : Interval I, MaximalRun (fun p => ¬ Covered m.entrySet p) g ∧ ∀ p, Mem p g' → Mem p g := by
  obtain ⟨⟨p, hp⟩, h1, -⟩ := hg
  obtain ⟨g, h3, h4⟩ := gap_at h (p := p) fun hc => h1 p hp (hs p hc)
  exact ⟨g, h3, h3.2.2 g' (fun x hx hc => h1 x hx (hs x hc)) ⟨p, h4, hp⟩⟩

theorem cutRemaining_mono {A : Type} [IntervalType I A] {S S' : Set (K × V)} (hs : S ⊆ S') (q : A) : CutRemaining S q ⊆ CutRemaining S' q := by
  rintro e (⟨h1, h2⟩ | ⟨f, h1, h2⟩)
  · exact Or.inl ⟨hs h1, h2⟩
  · exact Or.inr ⟨f, hs h1, h2⟩

theorem cutReturned_mono {A : Type} [IntervalType I A] {S S' : Set (K × V)} (hs : S ⊆ S') (q : A) : CutReturned S q ⊆ CutReturned S' q := by
  rintro e ⟨f, h1, h2⟩
  exact ⟨f, hs h1, h2⟩

theorem lists_sublist {l l' : List (K × V)} {S S' : Set (K × V)} (h : Lists l S) (h' : Lists l' S') (hs : S ⊆ S') : l.Sublist l' :=
  wf_sublist h.1 h'.1 fun e he => (h'.2 e).2 (hs ((h.2 e).1 he))

theorem finer_untrimmed {m : NoditMap K V} (h : WF m.iter) {S' : Set (K × V)} (hs : ∀ p : I, Covered m.entrySet p → Covered S' p) {q : Q}
    {l l' : List K} (hl : ListsIntervals l (fun i => MaximalRun (fun p => ¬ Covered m.entrySet p) i ∧ Overlap i q))
    (hl' : ListsIntervals l' (fun i => MaximalRun (fun p => ¬ Covered S' p) i ∧ Overlap i q)) : Finer (I := I) l' l := by
  intro k' hk'
  obtain ⟨i', rfl, h1, p, hp, hpq⟩ := (hl'.2 k').1 hk'
  obtain ⟨g, hg, hgs⟩ := gap_within h hs h1
  exact ⟨ofInterval g, (hl.2 _).2 ⟨g, rfl, hg, p, hgs p hp, hpq⟩, fun x hx => mem_ofInterval.2 (hgs x (mem_ofInterval.1 hx))⟩

theorem finer_trimmed {m : NoditMap K V} (h : WF m.iter) {S' : Set (K × V)} (hs : ∀ p : I, Covered m.entrySet p → Covered S' p) {q : Q}
    {l l' : List K} (hl : ListsIntervals l (fun i => ∃ g, MaximalRun (fun p => ¬ Covered m.entrySet p) g ∧ Describes i (fun p => Mem p g ∧ Mem p q)))
    (hl' : ListsIntervals l' (fun i => ∃ g, MaximalRun (fun p => ¬ Covered S' p) g ∧ Describes i (fun p => Mem p g ∧ Mem p q))) :
    Finer (I := I) l' l := by
  intro k' hk'
  obtain ⟨i', rfl, g', h1, hv, hd⟩ := (hl'.2 k').1 hk'
  obtain ⟨g, hg, hgs⟩ := gap_within h hs h1
  obtain ⟨p, hp⟩ := hv
  have hp' := (hd p).1 hp
  obtain ⟨c1, c2⟩ := C24_intersection_exact (K := Interval I) g q
  cases hr : InclusiveInterval.intersection g q with
  | none => exact absurd ⟨p, hgs p hp'.1, hp'.2⟩ (c2.1 hr)
  | some r =>
    obtain ⟨d1, d2⟩ := c1 r hr
    refine ⟨ofInterval r, (hl.2 _).2 ⟨r, rfl, g, hg, d1, d2⟩, fun x hx => mem_ofInterval.2 ?_⟩
    have := (hd x).1 (mem_ofInterval.1 hx)
    exact (d2 x).2 ⟨hgs x this.1, this.2⟩

/-- **C115**: `m'` holds every value `m` holds. Then `m'` overlaps, contains and covers whatever `m` does, refuses whatever `m` refuses, and its
gaps are parts of the gaps of `m`. -/
theorem C115_map_questions {m m' : NoditMap K V} (h : WF m.iter) (h' : WF m'.iter)
    (hs : ∀ (p : I) v, m.getAtPoint p = .ok (some v) → ∃ v', m'.getAtPoint p = .ok (some v')) {q : Q} (hq : Valid q) {k : K} (hk : Valid k) (v : V) :
    (m.overlaps q = .ok true → m'.overlaps q = .ok true) ∧
    (m.containsInterval q = .ok true → m'.containsInterval q = .ok true) ∧
    (∀ p : I, m.containsPoint p = .ok true → m'.containsPoint p = .ok true) ∧
    (m.insertStrict k v = .ok (m, .error ⟨v⟩) → m'.insertStrict k v = .ok (m', .error ⟨v⟩)) ∧
    (∃ l l', m.gapsUntrimmed q = .ok l ∧ m'.gapsUntrimmed q = .ok l' ∧ Finer (I := I) l' l) ∧
    (∃ l l', m.gapsTrimmed q = .ok l ∧ m'.gapsTrimmed q = .ok l' ∧ Finer (I := I) l' l) := by
  have hcov : ∀ p : I, Covered m.entrySet p → Covered m'.entrySet p := by
    rintro p ⟨e, he, hp⟩
    obtain ⟨r, h1, h2⟩ := NoditMap.spec_getAtPoint h p
    obtain ⟨r', h3, h4⟩ := NoditMap.spec_getAtPoint h' p
    obtain ⟨v', hv'⟩ := hs p e.2 (by rw [h1, (h2 e.2).2 ⟨e, he, hp, rfl⟩])
    rw [h3] at hv'
    obtain ⟨e', he', hp', -⟩ := (h4 v').1 (by cases hv'; rfl)
    exact ⟨e', he', hp'⟩
  have hov : ∀ {A : Type} [IntervalType I A] (a : A), (∃ e ∈ m.entrySet, Overlap e.1 a) → ∃ e ∈ m'.entrySet, Overlap e.1 a := by
    rintro A _ a ⟨e, he, p, hp, hpa⟩
    obtain ⟨e', he', hp'⟩ := hcov p ⟨e, he, hp⟩
    exact ⟨e', he', p, hp', hpa⟩
  refine ⟨?_, ?_, fun p => ?_, ?_, ?_, ?_⟩
  · obtain ⟨b, h1, h2⟩ := NoditMap.spec_overlaps h hq
    obtain ⟨b', h3, h4⟩ := NoditMap.spec_overlaps h' hq
    rw [h1, h3]
    intro hb; cases hb
    rw [h4.2 (hov q (h2.1 rfl))]
  · obtain ⟨b, h1, h2⟩ := NoditMap.spec_containsInterval h hq
    obtain ⟨b', h3, h4⟩ := NoditMap.spec_containsInterval h' hq
    rw [h1, h3]
    intro hb; cases hb
    rw [h4.2 fun p hp => hcov p (h2.1 rfl p hp)]
  · obtain ⟨b, h1, h2⟩ := NoditMap.spec_containsPoint h p
    obtain ⟨b', h3, h4⟩ := NoditMap.spec_containsPoint h' p
    rw [h1, h3]
    intro hb; cases hb
    rw [h4.2 (hcov p (h2.1 rfl))]
  · obtain ⟨m1, r, h1, -, h2, h3⟩ := NoditMap.spec_insertStrict h hk v
    obtain ⟨m1', r', h1', -, h2', h3'⟩ := NoditMap.spec_insertStrict h' hk v
    rw [h1, h1']
    intro hb
    by_cases hc : ∃ e ∈ m.entrySet, Overlap e.1 k
    · obtain ⟨rfl, rfl⟩ := h2' (hov k hc); rfl
    · obtain ⟨-, rfl⟩ := h3 hc; cases hb
  · obtain ⟨l, h1, h2⟩ := NoditMap.spec_gapsUntrimmed h hq
    obtain ⟨l', h3, h4⟩ := NoditMap.spec_gapsUntrimmed h' hq
    exact ⟨l, l', h1, h3, finer_untrimmed h hcov h2 h4⟩
  · obtain ⟨l, h1, h2⟩ := NoditMap.spec_gapsTrimmed h hq
    obtain ⟨l', h3, h4⟩ := NoditMap.spec_gapsTrimmed h' hq
    exact ⟨l, l', h1, h3, finer_trimmed h hcov h2 h4⟩

theorem step_mono [BEq V] {m m' : NoditMap K V} (h : WF m.iter) (h' : WF m'.iter) (hs : m.entrySet ⊆ m'.entrySet) {op : Op I K V}
    (hop : op.Unhindered) {S₁ S₁' : Set (K × V)} {o o' : Out K V} (h1 : SpecOp m.entrySet op S₁ o) (h2 : SpecOp m'.entrySet op S₁' o') :
    S₁ ⊆ S₁' ∧ op.FewerThan o o' := by
  have hcov : ∀ p : I, Covered m.entrySet p → Covered m'.entrySet p := fun p ⟨e, he, hp⟩ => ⟨e, hs he, hp⟩
  have htwo : ∀ {p : I} {d e : K × V}, d ∈ m'.entrySet → e ∈ m'.entrySet → Mem p d.1 → Mem p e.1 → d = e := by
    intro p d e hd he hpd hpe
    obtain ⟨r, -, h3, -⟩ := NoditMap.spec_getKeyValueAtPoint h' p
    have := ((h3 d).2 ⟨hd, hpd⟩).symm.trans ((h3 e).2 ⟨he, hpe⟩)
    cases this; rfl
  cases op with
  | insertStrict | insertMergeTouching | insertMergeTouchingIfValuesEqual | insertMergeOverlapping | insertMergeTouchingOrOverlapping => exact hop.elim
  | insertOverwrite k v =>
    obtain ⟨l, hl, rfl, rfl⟩ := h1; obtain ⟨l', hl', rfl, rfl⟩ := h2
    exact ⟨Set.union_subset_union (cutRemaining_mono hs k) (Set.Subset.refl _), lists_sublist hl hl' (cutReturned_mono hs k)⟩
  | cut q =>
    obtain ⟨l, hl, rfl, rfl⟩ := h1; obtain ⟨l', hl', rfl, rfl⟩ := h2
    exact ⟨cutRemaining_mono hs q, lists_sublist hl hl' (cutReturned_mono hs q)⟩
  | removeOverlapping q =>
    obtain ⟨l, hl, rfl, rfl⟩ := h1; obtain ⟨l', hl', rfl, rfl⟩ := h2
    exact ⟨fun e he => ⟨hs he.1, he.2⟩, lists_sublist hl hl' fun e he => ⟨hs he.1, he.2⟩⟩
  | overlapping q =>
    obtain ⟨l, hl, rfl, rfl⟩ := h1; obtain ⟨l', hl', rfl, rfl⟩ := h2
    exact ⟨hs, lists_sublist hl hl' fun e he => ⟨hs he.1, he.2⟩⟩
  | iter =>
    obtain ⟨l, hl, rfl, rfl⟩ := h1; obtain ⟨l', hl', rfl, rfl⟩ := h2
    exact ⟨hs, lists_sublist hl hl' hs⟩
  | len =>
    obtain ⟨l, hl, rfl, rfl⟩ := h1; obtain ⟨l', hl', rfl, rfl⟩ := h2
    exact ⟨hs, (lists_sublist hl hl' hs).length_le⟩
  | overlaps q =>
    obtain ⟨b, hb, rfl, rfl⟩ := h1; obtain ⟨b', hb', rfl, rfl⟩ := h2
    exact ⟨hs, fun hc => hb'.2 (by obtain ⟨e, he, ho⟩ := hb.1 hc; exact ⟨e, hs he, ho⟩)⟩
  | containsInterval q =>
    obtain ⟨b, hb, rfl, rfl⟩ := h1; obtain ⟨b', hb', rfl, rfl⟩ := h2
    exact ⟨hs, fun hc => hb'.2 fun p hp => hcov p (hb.1 hc p hp)⟩
  | containsPoint p =>
    obtain ⟨b, hb, rfl, rfl⟩ := h1; obtain ⟨b', hb', rfl, rfl⟩ := h2
    exact ⟨hs, fun hc => hb'.2 (hcov p (hb.1 hc))⟩
  | isEmpty =>
    obtain ⟨b, hb, rfl, rfl⟩ := h1; obtain ⟨b', hb', rfl, rfl⟩ := h2
    exact ⟨hs, fun hc => hb.2 fun e he => hb'.1 hc e (hs he)⟩
  | gapsUntrimmed q =>
    obtain ⟨l, hl, rfl, rfl⟩ := h1; obtain ⟨l', hl', rfl, rfl⟩ := h2
    exact ⟨hs, finer_untrimmed h hcov hl hl'⟩
  | gapsTrimmed q =>
    obtain ⟨l, hl, rfl, rfl⟩ := h1; obtain ⟨l', hl', rfl, rfl⟩ := h2
    exact ⟨hs, finer_trimmed h hcov hl hl'⟩
  | overlappingMut q f =>
    obtain ⟨rfl, rfl⟩ := h1; obtain ⟨rfl, rfl⟩ := h2
    exact ⟨fun e ⟨d, hd, hc⟩ => ⟨d, hs hd, hc⟩, trivial⟩
  | iterMut f =>
    obtain ⟨rfl, rfl⟩ := h1; obtain ⟨rfl, rfl⟩ := h2
    exact ⟨fun e ⟨d, hd, hc⟩ => ⟨d, hs hd, hc⟩, trivial⟩
  | getAtPoint p =>
    obtain ⟨r, hr, rfl, rfl⟩ := h1; obtain ⟨r', hr', rfl, rfl⟩ := h2
    exact ⟨hs, fun v hv => (hr' v).2 (by obtain ⟨e, he, hc⟩ := (hr v).1 hv; exact ⟨e, hs he, hc⟩)⟩
  | getAtPointMut p f =>
    obtain ⟨r, hr, rfl, rfl⟩ := h1; obtain ⟨r', hr', rfl, rfl⟩ := h2
    exact ⟨fun e ⟨d, hd, hc⟩ => ⟨d, hs hd, hc⟩,
      fun v hv => (hr' v).2 (by obtain ⟨e, he, hc⟩ := (hr v).1 hv; exact ⟨e, hs he, hc⟩)⟩
  | getKeyValueAtPoint p =>
    obtain ⟨r, hr, hg, rfl, rfl⟩ := h1; obtain ⟨r', hr', hg', rfl, rfl⟩ := h2
    refine ⟨hs, fun e he => (hr' e).2 ⟨hs ((hr e).1 he).1, ((hr e).1 he).2⟩, fun g' hgg => ?_⟩
    obtain ⟨i', rfl, hi', hp'⟩ := hg' g' hgg
    cases r with
    | ok e => have := (hr' e).2 ⟨hs ((hr e).1 rfl).1, ((hr e).1 rfl).2⟩; rw [hgg] at this; cases this
    | error g =>
      obtain ⟨i, rfl, hi, hp⟩ := hg g rfl
      obtain ⟨j, hj, hjs⟩ := gap_within h hcov hi'
      cases MaximalRun.unique hi hj hp (hjs p hp')
      exact ⟨_, rfl, fun x hx => mem_ofInterval.2 (hjs x (mem_ofInterval.1 hx))⟩
  | firstKeyValue =>
    obtain ⟨r, hr, rfl, rfl⟩ := h1; obtain ⟨r', hr', rfl, rfl⟩ := h2
    refine ⟨hs, fun e he => ?_⟩
    have he' := hs ((hr e).1 he).1
    have hf := NoditMap.spec_first h'
    have : r' = m'.firstKeyValue := option_unique hr' hf
    cases hq : m'.firstKeyValue with
    | none =>
      exfalso
      have : m'.iter = [] := by
        have h0 := hq
        unfold NoditMap.firstKeyValue at h0
        simpa [NoditMap.iter] using h0
      rw [NoditMap.entrySet, this] at he'
      exact absurd he' (by simp)
    | some e'' =>
      refine ⟨e'', this.trans hq, ?_⟩
      obtain ⟨m1, m2⟩ := (hf e'').1 hq
      obtain ⟨p'', hp''⟩ : Valid e''.1 := h'.1 e'' m1
      by_cases hne : e = e''
      · subst hne
        exact ⟨start e.1, ⟨le_refl _, valid_iff.1 ⟨p'', hp''⟩⟩, fun p hp => hp.1⟩
      · exact ⟨p'', hp'', fun p hp => le_of_lt (m2 e he' hne p'' p hp'' hp)⟩
  | lastKeyValue =>
    obtain ⟨r, hr, rfl, rfl⟩ := h1; obtain ⟨r', hr', rfl, rfl⟩ := h2
    refine ⟨hs, fun e he => ?_⟩
    have he' := hs ((hr e).1 he).1
    have hf := NoditMap.spec_last h'
    have : r' = m'.lastKeyValue := option_unique hr' hf
    cases hq : m'.lastKeyValue with
    | none =>
      exfalso
      have : m'.iter = [] := by
        have h0 := hq
        unfold NoditMap.lastKeyValue at h0
        simpa [NoditMap.iter] using h0
      rw [NoditMap.entrySet, this] at he'
      exact absurd he' (by simp)
    | some e'' =>
      refine ⟨e'', this.trans hq, ?_⟩
      obtain ⟨m1, m2⟩ := (hf e'').1 hq
      obtain ⟨p'', hp''⟩ : Valid e''.1 := h'.1 e'' m1
      by_cases hne : e = e''
      · subst hne
        exact ⟨stop e.1, ⟨valid_iff.1 ⟨p'', hp''⟩, le_refl _⟩, fun p hp => hp.2⟩
      · exact ⟨p'', hp'', fun p hp => le_of_lt (m2 e he' hne p p'' hp hp'')⟩

/-- **C115**: two maps, the entries of the first all in the second, used in the same way with any calls but the refusing and the merging inserts: the
entries of the first stay all in the second, both panic at the same calls, and the results compare as `Op.FewerThan` says. -/
theorem C115_map_history [BEq V] {m m' : NoditMap K V} (h : WF m.iter) (h' : WF m'.iter) (hs : m.iter.Sublist m'.iter) (ops : List (Op I K V))
    (hops : ∀ op ∈ ops, op.Unhindered) :
    (m.run ops).1.iter.Sublist (m'.run ops).1.iter ∧ (m.run ops).2.length = ops.length ∧ (m'.run ops).2.length = ops.length ∧
    ∀ (i : Nat) op o o', ops[i]? = some op → (m.run ops).2[i]? = some o → (m'.run ops).2[i]? = some o' →
      (∃ p, o = .error p ∧ o' = .error p) ∨ ∃ a a', o = .ok a ∧ o' = .ok a' ∧ op.FewerThan a a' := by
  induction ops generalizing m m' with
  | nil => exact ⟨hs, rfl, rfl, fun i op o o' h => by simp at h⟩
  | cons op ops ih =>
    have hops' : ∀ op ∈ ops, op.Unhindered := fun o ho => hops o (by simp [ho])
    rcases NoditMap.step_refines h op with ⟨hb, e1⟩ | ⟨hb, m1, o1, e1, w1, s1⟩ <;>
      rcases NoditMap.step_refines h' op with ⟨hb', e2⟩ | ⟨hb', m2, o2, e2, w2, s2⟩
    · simp only [NoditMap.run, e1, e2]
      obtain ⟨i1, i2, i3, i4⟩ := ih h h' hs hops'
      refine ⟨i1, by simp [i2], by simp [i3], fun i op' o o' ho h1 h2 => ?_⟩
      cases i with
      | zero => simp at ho h1 h2; subst h1; subst h2; exact Or.inl ⟨_, rfl, rfl⟩
      | succ i => exact i4 i op' o o' (by simpa using ho) (by simpa using h1) (by simpa using h2)
    · exact absurd hb hb'
    · exact absurd hb' hb
    · obtain ⟨t1, t2⟩ := step_mono h h' (fun e he => hs.subset he) (hops op (by simp)) s1 s2
      simp only [NoditMap.run, e1, e2]
      obtain ⟨i1, i2, i3, i4⟩ := ih w1 w2 (wf_sublist w1 w2 fun e he => t1 he) hops'
      refine ⟨i1, by simp [i2], by simp [i3], fun i op' o o' ho h1 h2 => ?_⟩
      cases i with
      | zero => simp at ho h1 h2; subst h1; subst h2; subst ho; exact Or.inr ⟨_, _, rfl, rfl, t2⟩
      | succ i => exact i4 i op' o o' (by simpa using ho) (by simpa using h1) (by simpa using h2)

/-- **C115**: an `insert_strict` the fuller map accepts, the other accepts too, and its entries are still all in the fuller one. -/
theorem C115_map_strict_insert {m m' : NoditMap K V} (h : WF m.iter) (h' : WF m'.iter) (hs : m.iter.Sublist m'.iter) {k : K} {v : V}
    {m₁' : NoditMap K V} (hi : m'.insertStrict k v = .ok (m₁', .ok ())) :
    ∃ m₁, m.insertStrict k v = .ok (m₁, .ok ()) ∧ m₁.iter.Sublist m₁'.iter := by
  have hk : Valid k := by
    by_contra hk
    rw [NoditMap.panic_insertStrict hk] at hi; cases hi
  obtain ⟨m1, r, h1, w1, h2, h3⟩ := NoditMap.spec_insertStrict h hk v
  obtain ⟨m1', r', h1', w1', h2', h3'⟩ := NoditMap.spec_insertStrict h' hk v
  rw [h1'] at hi; cases hi
  have hn' : ¬ ∃ e ∈ m'.entrySet, Overlap e.1 k := fun hc => by cases (h2' hc).2
  have hn : ¬ ∃ e ∈ m.entrySet, Overlap e.1 k := fun ⟨e, he, ho⟩ => hn' ⟨e, hs.subset he, ho⟩
  obtain ⟨e1, rfl⟩ := h3 hn
  refine ⟨m1, h1, wf_sublist w1 w1' fun e he => ?_⟩
  have he' : e ∈ m1.entrySet := he
  rw [e1] at he'
  show e ∈ m₁'.entrySet
  rw [(h3' hn').1]
  exact he'.imp (fun h => hs.subset h) id
end

section
variable {I K : Type} [PointType I] [IntervalType I K] [LawfulPoint I] [LawfulInterval I K]

/-- **C115**: two sets, every point of the first in the second, used in the same way (with inserts that always succeed, and cuts; valid
arguments or not): every point of the first stays in the second. -/
theorem C115_set_history {s s' : NoditSet K} (h : Ascending s.iter) (h' : Ascending s'.iter)
    (hs : ∀ p : I, s.containsPoint p = .ok true → s'.containsPoint p = .ok true) (ops : List (SetOp I K)) (hops : ∀ op ∈ ops, op.Unhindered) (p : I) :
    (s.run ops).containsPoint p = .ok true → (s'.run ops).containsPoint p = .ok true := by
  have hcp : ∀ {s : NoditSet K}, Ascending s.iter → ∀ p : I, s.containsPoint p = .ok true ↔ p ∈ points s := by
    intro s h p
    obtain ⟨b, h1, h2⟩ := (C22_set_queries h (⟨p, p⟩ : Interval I) ⟨p, le_refl _, le_refl _⟩ p).2.2.2.1
    rw [h1]
    constructor
    · intro hb; cases hb; exact h2.1 rfl
    · intro hp; rw [h2.2 hp]
  induction ops generalizing s s' with
  | nil => exact hs p
  | cons op ops ih =>
    have hops' : ∀ op ∈ ops, op.Unhindered := fun o ho => hops o (by simp [ho])
    have hop := hops op (by simp)
    have hpw : op.Pointwise := by cases op <;> trivial
    rcases set_step_refines h op with ⟨hb, e1⟩ | ⟨hb, s1, o1, e1, w1, -⟩ <;>
      rcases set_step_refines h' op with ⟨hb', e2⟩ | ⟨hb', s2, o2, e2, w2, -⟩
    · simp only [NoditSet.run, e1, e2]
      exact ih h h' hs hops'
    · exact absurd hb hb'
    · exact absurd hb' hb
    · simp only [NoditSet.run, e1, e2]
      refine ih w1 w2 (fun x hx => ?_) hops'
      have hs' : ∀ x : I, x ∈ points s → x ∈ points s' := fun x hx => (hcp h' x).1 (hs x ((hcp h x).2 hx))
      rw [hcp w1, set_step_points h hpw hb e1] at hx
      rw [hcp w2, set_step_points h' hpw hb e2]
      cases op with
      | insertStrict | insertMergeTouching | removeOverlapping => exact hop.elim
      | insertMergeOverlapping | insertMergeTouchingOrOverlapping | insertOverwrite => exact hx.imp (hs' x) id
      | cut => exact ⟨hs' x hx.1, hx.2⟩
end

section
variable {I K D Q : Type} [PointType I] [IntervalType I K] [IntervalType I Q] [LawfulPoint I] [LawfulInterval I K] [DecidableEq D]
open Gqdit

theorem bad_calls (h : GqHist I K D) (ops : List (GqOp I K D)) : (h.calls ops).Bad ↔ h.Bad ∨ (GqHist.calls .new ops : GqHist I K D).Bad := by
  induction ops using List.reverseRecOn with
  | nil => simp [GqHist.calls, GqHist.Bad]
  | append_singleton ops op ih =>
    have e : ∀ h : GqHist I K D, h.calls (ops ++ [op]) = (h.calls ops).call op := fun h => by simp [GqHist.calls]
    rw [e, e]
    cases op <;> (simp only [GqHist.call, GqHist.Bad, ih]; tauto)

theorem idsAt_calls_mono {h h' : GqHist I K D} (hs : ∀ p, h.idsAt p ⊆ h'.idsAt p) (ops : List (GqOp I K D)) (p : I) :
    (h.calls ops).idsAt p ⊆ (h'.calls ops).idsAt p := by
  induction ops generalizing h h' with
  | nil => exact hs p
  | cons op ops ih =>
    refine ih (h := h.call op) (h' := h'.call op) fun x => ?_
    cases op <;> simp only [GqHist.call, GqHist.idsAt] <;> split_ifs
    · intro d hd; simp only [Finset.mem_union] at hd ⊢; exact hd.imp (fun hd => hs x hd) id
    · exact hs x
    · intro d hd; simp only [Finset.mem_sdiff] at hd ⊢; exact ⟨hs x hd.1, hd.2⟩
    · exact hs x
    · exact Finset.Subset.refl _
    · exact hs x

/-- **C115**: two `Gqdit`s, at every point the identifiers of the first among those of the second, used in the same way: they panic alike, and
the identifiers of the first stay among those of the second; so also after appending a third to both. -/
theorem C115_gqdit_history {h h' a : GqHist I K D} {g g' t : Gqdit K D} (hg : eval h = .ok g) (hg' : eval h' = .ok g') (ha : eval a = .ok t)
    (hs : ∀ p ids ids', g.identifiersAtPoint p = .ok ids → g'.identifiersAtPoint p = .ok ids' → ids ⊆ ids') (ops : List (GqOp I K D)) :
    ((∃ e, eval (h.calls ops) = (.error e : Res (Gqdit K D))) ↔ ∃ e, eval (h'.calls ops) = (.error e : Res (Gqdit K D))) ∧
    (∀ r r' : Gqdit K D, eval (h.calls ops) = .ok r → eval (h'.calls ops) = .ok r' →
      ∀ p, ∃ ids ids', r.identifiersAtPoint p = .ok ids ∧ r'.identifiersAtPoint p = .ok ids' ∧ ids ⊆ ids') ∧
    (∃ r r' : Gqdit K D, eval (h.append a) = .ok r ∧ eval (h'.append a) = .ok r' ∧
      ∀ p, ∃ ids ids', r.identifiersAtPoint p = .ok ids ∧ r'.identifiersAtPoint p = .ok ids' ∧ ids ⊆ ids') := by
  have hs' : ∀ p, h.idsAt p ⊆ h'.idsAt p := fun p => hs p _ _ (C30_identifiers_at_point hg p) (C30_identifiers_at_point hg' p)
  have hb : ∀ {x : GqHist I K D} {g : Gqdit K D}, eval x = .ok g → ¬ x.Bad := fun {x g} e hb => by
    rcases eval_rep x with ⟨-, h1⟩ | ⟨h1, -⟩
    · rw [h1] at e; cases e
    · exact h1 hb
  have hp : ∀ x : GqHist I K D, (∃ e, eval x = (.error e : Res (Gqdit K D))) ↔ x.Bad := fun x => by
    rcases eval_rep x with ⟨h0, h1⟩ | ⟨h0, r, h1, -⟩
    · exact iff_of_true ⟨_, h1⟩ h0
    · exact iff_of_false (fun ⟨e, he⟩ => by rw [h1] at he; cases he) h0
  refine ⟨?_, fun r r' hr hr' p => ⟨_, _, C30_identifiers_at_point hr p, C30_identifiers_at_point hr' p, idsAt_calls_mono hs' ops p⟩, ?_⟩
  · rw [hp, hp, bad_calls, bad_calls h']
    simp [hb hg, hb hg']
  · rcases eval_rep (h.append a) with ⟨h0, -⟩ | ⟨-, r, h1, -⟩
    · exact (h0.elim (hb hg) (hb ha)).elim
    rcases eval_rep (h'.append a) with ⟨h0, -⟩ | ⟨-, r', h2, -⟩
    · exact (h0.elim (hb hg') (hb ha)).elim
    exact ⟨r, r', h1, h2, fun p => ⟨_, _, C30_identifiers_at_point h1 p, C30_identifiers_at_point h2 p,
      fun d hd => by simp only [GqHist.idsAt, Finset.mem_union] at hd ⊢; exact hd.imp (fun hd => hs' p hd) id⟩⟩

/-- **C115**: every gap the fuller `Gqdit` reports lies in a gap the other reports. -/
theorem C115_gqdit_gaps {h h' : GqHist I K D} {g g' : Gqdit K D} (hg : eval h = .ok g) (hg' : eval h' = .ok g')
    (hs : ∀ p ids ids', g.identifiersAtPoint p = .ok ids → g'.identifiersAtPoint p = .ok ids' → ids ⊆ ids') (d : D) {q : Q} (hq : Valid q) :
    (∃ l l', g.gapsNoIdentifier q = .ok l ∧ g'.gapsNoIdentifier q = .ok l' ∧ Finer (I := I) l' l) ∧
    (∃ l l', g.gapsWithIdentifier d q = .ok l ∧ g'.gapsWithIdentifier d q = .ok l' ∧ Finer (I := I) l' l) := by
  have hs' : ∀ p, h.idsAt p ⊆ h'.idsAt p := fun p => hs p _ _ (C30_identifiers_at_point hg p) (C30_identifiers_at_point hg' p)
  have key : ∀ {P P' : I → Prop} {l l' : List K}, (∀ p, P' p → P p) →
      ListsIntervals l (fun i => MaximalRun P i ∧ Overlap i q) → ListsIntervals l' (fun i => MaximalRun P' i ∧ Overlap i q) →
      (∀ p, Mem p q → P p → ∃ k ∈ l, Mem p k) → Finer (I := I) l' l := by
    intro P P' l l' hP hl hl' hex k' hk'
    obtain ⟨i', rfl, hi', p, hp, hpq⟩ := (hl'.2 k').1 hk'
    obtain ⟨k, hk, hpk⟩ := hex p hpq (hP p (hi'.2.1 p hp))
    obtain ⟨i, rfl, hi, -⟩ := (hl.2 k).1 hk
    exact ⟨_, hk, fun x hx => mem_ofInterval.2 (hi.2.2 i' (fun y hy => hP y (hi'.2.1 y hy)) ⟨p, mem_ofInterval.1 hpk, hp⟩ x (mem_ofInterval.1 hx))⟩
  obtain ⟨l1, l2, h1, h2, h3, h4⟩ := gaps_points hg d hq
  constructor
  · obtain ⟨l, e1, e2⟩ := C31_gaps_no_identifier hg hq
    obtain ⟨l', e3, e4⟩ := C31_gaps_no_identifier hg' hq
    rw [h1] at e1; cases e1
    refine ⟨l1, l', h1, e3, key (fun p hp => ?_) e2 e4 fun p hp hpp => (h3 p hp).2 ?_⟩
    · rw [C30_identifiers_at_point hg', Except.ok.injEq] at hp
      rw [C30_identifiers_at_point hg, Except.ok.injEq]
      exact Finset.subset_empty.1 (hp ▸ hs' p)
    · rwa [C30_identifiers_at_point hg, Except.ok.injEq] at hpp
  · obtain ⟨l, e1, e2⟩ := C32_gaps_with_identifier hg d hq
    obtain ⟨l', e3, e4⟩ := C32_gaps_with_identifier hg' d hq
    rw [h2] at e1; cases e1
    refine ⟨l2, l', h2, e3, key (fun p hp => ?_) e2 e4 fun p hp hpp => (h4 p hp).2 ?_⟩
    · obtain ⟨ids, e5, e6⟩ := hp
      rw [C30_identifiers_at_point hg'] at e5; cases e5
      exact ⟨_, C30_identifiers_at_point hg p, fun x hx => e6 x (hs' p hx)⟩
    · obtain ⟨ids, e5, e6⟩ := hpp
      rw [C30_identifiers_at_point hg] at e5; cases e5
      exact e6
end

section
variable {I K V Q : Type} [PointType I] [IntervalType I K] [IntervalType I Q] [LawfulPoint I] [LawfulInterval I K]
open ZosditMap

/-- **C115**: two `ZosditMap`s, the entries of the first all in the second, in order: what `overlapping` lists for the first is listed for the
second, in order; what has zero overlap with the second has zero overlap with the first; an `insert_strict_back` the first refuses,
the second refuses. -/
theorem C115_zosdit (ops ops' : List (ZOp I K V)) (hs : (after ops).iter.Sublist (after ops').iter) {q : Q} (hq : Valid q) {k : K} (hk : Valid k)
    (v : V) (pick pick' : Nat) :
    (∃ l l', (after ops).overlapping q = .ok l ∧ (after ops').overlapping q = .ok l' ∧ l.Sublist l') ∧
    ((after ops').isZeroOverlap q = .ok true → (after ops).isZeroOverlap q = .ok true) ∧
    ((after ops).insertStrictBack k v pick = .ok (after ops, .error ⟨v⟩) → (after ops').insertStrictBack k v pick' = .ok (after ops', .error ⟨v⟩)) := by
  have hz : ∀ {A : Type} [IntervalType I A] {a : A}, Valid a → (after ops').isZeroOverlap a = .ok true → (after ops).isZeroOverlap a = .ok true := by
    intro A _ a ha
    obtain ⟨b, h1, h2⟩ := C38_is_zero_overlap ops ha
    obtain ⟨b', h3, h4⟩ := C38_is_zero_overlap ops' ha
    rw [h1, h3]
    intro hb; cases hb
    rw [h2.2 fun e he => h4.1 rfl e (hs.subset he)]
  refine ⟨⟨_, _, C44_overlapping ops hq, C44_overlapping ops' hq, hs.filter _⟩, hz hq, fun h => ?_⟩
  rw [← (C110_zero_overlap_foretells_insert ops hk v pick).2] at h
  rw [← (C110_zero_overlap_foretells_insert ops' hk v pick').2]
  obtain ⟨b', h3, -⟩ := C38_is_zero_overlap ops' hk
  cases b' with
  | false => exact h3
  | true => rw [hz hk h3] at h; cases h
end

/-- **C115**, why the refusing and the merging inserts are left out: in a map with more entries a strict insert may be refused, and a merging insert may
replace an entry the smaller map keeps. -/
theorem C115_hindered_inserts_differ :
    ∃ m m' : NoditMap (Interval Demo.U8) Nat, m.iter.Sublist m'.iter ∧
      (∃ m₁ m₁', m.insertStrict (Demo.iv 5 7) 2 = .ok (m₁, .ok ()) ∧ m'.insertStrict (Demo.iv 5 7) 2 = .ok (m₁', .error ⟨2⟩) ∧
        ¬ m₁.iter.Sublist m₁'.iter) ∧
      (∃ m₁ m₁', m.insertMergeTouching (Demo.iv 20 29) 2 = .ok (m₁, .ok (Demo.iv 20 29)) ∧
        m'.insertMergeTouching (Demo.iv 20 29) 2 = .ok (m₁', .ok (Demo.iv 20 34)) ∧ ¬ m₁.iter.Sublist m₁'.iter) := by
  refine ⟨⟨[(Demo.iv 0 3, 0)]⟩, ⟨[(Demo.iv 0 3, 0), (Demo.iv 6 9, 1), (Demo.iv 30 34, 1)]⟩, by decide, ⟨_, _, rfl, rfl, ?_⟩, ⟨_, _, rfl, rfl, ?_⟩⟩ <;> decide

namespace Demo
/-- a map with the entries of `m` and one more -/
def more : NoditMap (Interval U8) Nat := (NoditMap.new.run (ops ++ [.insertStrict (iv 100 110) 5])).1
theorem more_wf : WF more.iter := C01_invariant _
theorem more_sublist : m.iter.Sublist more.iter := by decide
example : m ≠ more ∧ more.iter.length = m.iter.length + 1 := by decide
example := C115_map_history (I := U8) (C01_invariant ops) more_wf more_sublist [.cut (iv 4 105), .insertOverwrite (iv 12 103) 7, .iter]
  (by simp [Op.Unhindered])
example := C115_map_strict_insert (C01_invariant ops) more_wf more_sublist (k := iv 90 99) (v := 3) rfl
example := C115_map_questions (m := m) (q := iv 4 105) (k := iv 90 101) (C01_invariant ops) more_wf (fun p v hv => by
  obtain ⟨r, h1, h2⟩ := NoditMap.spec_getAtPoint (m := m) (C01_invariant ops) p
  obtain ⟨r', h3, h4⟩ := NoditMap.spec_getAtPoint more_wf p
  rw [hv] at h1; cases h1
  obtain ⟨e, he, hp⟩ := (h2 v).1 rfl
  exact ⟨v, by rw [h3, (h4 v).2 ⟨e, more_sublist.subset he, hp⟩]⟩) (valid_iff.2 (by decide)) (valid_iff.2 (by decide)) 3
end Demo
end Nodit
