import Verif.Props.Pointwise
import Verif.Props.FromIter
/-!
# C22: `NoditSet`
-/
set_option linter.unusedSectionVars false
namespace Nodit
open Spec PointType

variable {I K Q V : Type} [PointType I] [IntervalType I K] [IntervalType I Q]
  [LawfulPoint I] [LawfulInterval I K]

namespace NoditSet

omit [LawfulInterval I K] in
theorem mem_fst {l : List (K × Unit)} {k : K} : k ∈ l.map Prod.fst ↔ (k, ()) ∈ l := by
  rw [List.mem_map]
  exact ⟨fun ⟨⟨_, ⟨⟩⟩, he, hk⟩ => by cases hk; exact he, fun he => ⟨_, he, rfl⟩⟩

omit [LawfulInterval I K] in
theorem mem_iter {s : NoditSet K} {k : K} : k ∈ s.iter ↔ (k, ()) ∈ s.inner.iter := by
  exact mem_fst

omit [LawfulInterval I K] in
theorem exists_unit {l : List (K × Unit)} {P : K → Prop} : (∃ e ∈ l, P e.1) ↔ ∃ k ∈ l.map Prod.fst, P k := by
  simp

omit [LawfulPoint I] [LawfulInterval I K] in
theorem wf_iff {l : List (K × Unit)} : WF l ↔ Ascending (l.map Prod.fst) := by
  unfold WF Ascending
  rw [List.pairwise_map]
  simp

omit [LawfulPoint I] [LawfulInterval I K] in
theorem covered_iff {s : NoditSet K} {p : I} : (∃ e ∈ s.inner.iter, Mem p e.1) ↔ ∃ k ∈ s.iter, Mem p k :=
  exists_unit (P := fun k => Mem p k)

end NoditSet
open NoditSet

/-- **C22**: the queries of a set whose intervals are valid, ascending and disjoint. -/
theorem C22_set_queries {s : NoditSet K} (h : Ascending s.iter) (q : Q) (hq : Valid q) (p : I) :
    (∃ b, s.overlaps q = .ok b ∧ (b = true ↔ ∃ k ∈ s.iter, Overlap k q)) ∧
    (∃ out, s.overlapping q = .ok out ∧ Ascending out ∧ ∀ k, k ∈ out ↔ k ∈ s.iter ∧ Overlap k q) ∧
    (∃ r, s.getAtPoint p = .ok r ∧ (∀ k, r = .ok k ↔ k ∈ s.iter ∧ Mem p k) ∧
      ∀ g, r = .error g → ∃ i : Interval I, g = ofInterval i ∧
        MaximalRun (fun p => ¬ ∃ k ∈ s.iter, Mem p k) i ∧ Mem p i) ∧
    (∃ b, s.containsPoint p = .ok b ∧ (b = true ↔ ∃ k ∈ s.iter, Mem p k)) ∧
    (∃ out, s.gapsUntrimmed q = .ok out ∧ Ascending out ∧ ∀ k, k ∈ out ↔ ∃ i : Interval I, k = ofInterval i ∧
      MaximalRun (fun p => ¬ ∃ k ∈ s.iter, Mem p k) i ∧ Overlap i q) ∧
    (∃ out, s.gapsTrimmed q = .ok out ∧ Ascending out ∧ ∀ k, k ∈ out ↔ ∃ i : Interval I, k = ofInterval i ∧
      ∃ g, MaximalRun (fun p => ¬ ∃ k ∈ s.iter, Mem p k) g ∧ Describes i (fun p => Mem p g ∧ Mem p q)) ∧
    (∃ b, s.containsInterval q = .ok b ∧ (b = true ↔ ∀ p, Mem p q → ∃ k ∈ s.iter, Mem p k)) := by
  have hw := wf_iff.2 h
  simp only [← covered_iff]
  refine ⟨?_, ?_, ?_, ?_, C14_gaps_untrimmed hw q hq, ?_, C16_contains_interval hw q hq⟩
  · obtain ⟨b, h1, h2⟩ := (C05_overlapping_exact hw q hq).2
    exact ⟨b, h1, h2.trans (exists_unit (P := fun k => Overlap k q))⟩
  · obtain ⟨out, h1, h2, h3⟩ := (C05_overlapping_exact hw q hq).1
    refine ⟨out.map Prod.fst, by unfold NoditSet.overlapping; rw [h1]; rfl, wf_iff.1 h2, fun k => ?_⟩
    rw [mem_fst, h3, mem_iter]
  · obtain ⟨r, h1, h2, h3⟩ := NoditMap.spec_getKeyValueAtPoint hw p
    refine ⟨r.map Prod.fst, by unfold NoditSet.getAtPoint; rw [h1]; rfl, fun k => ?_, fun g hg => ?_⟩
    · cases r with
      | ok e =>
        have h2 := h2 (k, ())
        rw [mem_iter]
        refine Iff.trans ?_ h2
        obtain ⟨e, ⟨⟩⟩ := e
        simp [Except.map]
      | error g =>
        have h2 := h2 (k, ())
        rw [mem_iter]
        refine Iff.trans ?_ h2
        simp [Except.map]
    · cases r with
      | ok e => cases hg
      | error g' => cases hg; exact h3 _ rfl
  · exact (C03_point_lookup hw p).2.2.1
  · obtain ⟨out, h1, h2, h3, -⟩ := C15_gaps_trimmed hw q hq
    exact ⟨out, h1, h2, h3⟩

/-- **C22**: the updates of a set, interval by interval. -/
theorem C22_set_updates {s : NoditSet K} (h : Ascending s.iter) (k : K) (hk : Valid k) (q : Q) (hq : Valid q) :
    (∃ s' r, s.insertStrict k = .ok (s', r) ∧
      ((∃ d ∈ s.iter, Overlap d k) → r = .error ⟨()⟩ ∧ s' = s) ∧
      ((∀ d ∈ s.iter, ¬ Overlap d k) → r = .ok () ∧ ∀ d, d ∈ s'.iter ↔ d ∈ s.iter ∨ d = k)) ∧
    (∃ s' r, s.insertMergeTouching k = .ok (s', r) ∧
      ((∃ d ∈ s.iter, Overlap d k) → r = .error ⟨()⟩ ∧ s' = s) ∧
      ((∀ d ∈ s.iter, ¬ Overlap d k) → ∃ k', r = .ok k' ∧
        (∀ p, Mem p k' ↔ Mem p k ∨ ∃ d ∈ s.iter, Touch d k ∧ Mem p d) ∧
        ∀ d, d ∈ s'.iter ↔ (d ∈ s.iter ∧ ¬ Touch d k) ∨ d = k')) ∧
    (∃ s' k', s.insertMergeOverlapping k = .ok (s', k') ∧
      (∀ p, Mem p k' ↔ Mem p k ∨ ∃ d ∈ s.iter, Overlap d k ∧ Mem p d) ∧
      ∀ d, d ∈ s'.iter ↔ (d ∈ s.iter ∧ ¬ Overlap d k) ∨ d = k') ∧
    (∃ s' k', s.insertMergeTouchingOrOverlapping k = .ok (s', k') ∧
      (∀ p, Mem p k' ↔ Mem p k ∨ ∃ d ∈ s.iter, (Touch d k ∨ Overlap d k) ∧ Mem p d) ∧
      ∀ d, d ∈ s'.iter ↔ (d ∈ s.iter ∧ ¬ (Touch d k ∨ Overlap d k)) ∨ d = k') ∧
    (∃ sc s' out, s.cut k = .ok (sc, out) ∧ s.insertOverwrite k = .ok (s', out) ∧
      ∀ d, d ∈ s'.iter ↔ d ∈ sc.iter ∨ d = k) ∧
    (∃ s' out, s.removeOverlapping q = .ok (s', out) ∧ Ascending out ∧
      (∀ d, d ∈ out ↔ d ∈ s.iter ∧ Overlap d q) ∧ (∀ d, d ∈ s'.iter ↔ d ∈ s.iter ∧ ¬ Overlap d q)) ∧
    (∃ s' out, s.cut q = .ok (s', out) ∧ Ascending out ∧
      (∀ d, d ∈ out ↔ ∃ f ∈ s.iter, ∃ i : Interval I, d = ofInterval i ∧ Describes i (fun p => Mem p f ∧ Mem p q)) ∧
      (∀ d, d ∈ s'.iter ↔ (d ∈ s.iter ∧ ¬ Overlap d q) ∨
        ∃ f ∈ s.iter, Overlap f q ∧ ∃ i : Interval I, d = ofInterval i ∧
          (Describes i (fun p => Mem p f ∧ ∀ x, Mem x q → p < x) ∨
           Describes i (fun p => Mem p f ∧ ∀ x, Mem x q → x < p)))) := by
  have hw := wf_iff.2 h
  refine ⟨?_, ?_, ?_, ?_, ?_, ?_, ?_⟩
  · obtain ⟨m', r, h1, h2, h3, h4⟩ := C06_insert_strict hw k hk ()
    refine ⟨⟨m'⟩, r, by unfold NoditSet.insertStrict; rw [h1]; rfl, fun hc => ?_, fun hc => ?_⟩
    · obtain ⟨rfl, rfl⟩ := h3 (exists_unit.2 hc); exact ⟨rfl, rfl⟩
    · obtain ⟨rfl, h5, -⟩ := h4 (fun e he => hc e.1 (mem_iter.2 he))
      exact ⟨rfl, fun d => by rw [mem_iter, mem_iter, h5]; simp⟩
  · obtain ⟨m', r, h1, h2, h3, h4⟩ := C10_insert_merge_touching hw k hk ()
    refine ⟨⟨m'⟩, r, by unfold NoditSet.insertMergeTouching; rw [h1]; rfl, fun hc => ?_, fun hc => ?_⟩
    · obtain ⟨rfl, rfl⟩ := h3 (exists_unit.2 hc); exact ⟨rfl, rfl⟩
    · obtain ⟨k', rfl, h5, -, h6⟩ := h4 (fun e he => hc e.1 (mem_iter.2 he))
      refine ⟨k', rfl, fun p => ?_, fun d => ?_⟩
      · rw [h5, exists_unit (P := fun d => Touch d k ∧ Mem p d)]; rfl
      · rw [mem_iter, mem_iter, h6]; simp
  · obtain ⟨m', k', h1, -, h2, -, h3⟩ := C12_insert_merge_overlapping hw k hk ()
    refine ⟨⟨m'⟩, k', by unfold NoditSet.insertMergeOverlapping; rw [h1]; rfl, fun p => ?_, fun d => ?_⟩
    · rw [h2, exists_unit (P := fun d => Overlap d k ∧ Mem p d)]; rfl
    · rw [mem_iter, mem_iter, h3]; simp
  · obtain ⟨m', k', h1, -, h2, -, h3⟩ := C13_insert_merge_touching_or_overlapping hw k hk ()
    refine ⟨⟨m'⟩, k', by unfold NoditSet.insertMergeTouchingOrOverlapping; rw [h1]; rfl, fun p => ?_, fun d => ?_⟩
    · rw [h2, exists_unit (P := fun d => (Touch d k ∨ Overlap d k) ∧ Mem p d)]; rfl
    · rw [mem_iter, mem_iter, h3]; simp
  · obtain ⟨mc, m', out, h1, h2, -, -, h3, -⟩ := C09_insert_overwrite hw k hk ()
    refine ⟨⟨mc⟩, ⟨m'⟩, out.map Prod.fst, by unfold NoditSet.cut; rw [h1]; rfl,
      by unfold NoditSet.insertOverwrite; rw [h2]; rfl, fun d => ?_⟩
    rw [mem_iter, mem_iter, h3]; simp
  · obtain ⟨m', out, h1, h2, h3, h4, h5⟩ := C07_remove_overlapping hw q hq
    refine ⟨⟨m'⟩, out.map Prod.fst, by unfold NoditSet.removeOverlapping; rw [h1]; rfl, wf_iff.1 h3, fun d => ?_, fun d => ?_⟩
    · rw [mem_fst, mem_iter, h4]
    · rw [mem_iter, mem_iter, h5]
  · obtain ⟨m', out, h1, h2, h3, h4, h5⟩ := C08_cut_exact hw q hq
    refine ⟨⟨m'⟩, out.map Prod.fst, by unfold NoditSet.cut; rw [h1]; rfl, wf_iff.1 h3, fun d => ?_, fun d => ?_⟩
    · rw [mem_fst, h4]
      refine Iff.trans ?_ (exists_unit (P := fun f => ∃ i : Interval I, d = ofInterval i ∧ Describes i (fun p => Mem p f ∧ Mem p q)))
      simp
    · rw [mem_iter, mem_iter, h5]
      refine or_congr Iff.rfl ?_
      refine Iff.trans ?_ (exists_unit (P := fun f => Overlap f q ∧ ∃ i : Interval I, d = ofInterval i ∧
          (Describes i (fun p => Mem p f ∧ ∀ x, Mem x q → p < x) ∨
           Describes i (fun p => Mem p f ∧ ∀ x, Mem x q → x < p))))
      simp

/-- **C22**: which interval a merging insert stores and returns, for interval types that carry more than their ends: the one
given if nothing is merged at or beyond its ends, otherwise one built by `From<Interval>`. -/
theorem C22_set_merged_keys {s : NoditSet K} (h : Ascending s.iter) (k : K) (hk : Valid k) :
    (∀ s' k', s.insertMergeTouching k = .ok (s', .ok k') →
      ((∀ d ∈ s.iter, ¬ Touch d k) → k' = k) ∧ ((∃ d ∈ s.iter, Touch d k) → ∃ i, k' = ofInterval i)) ∧
    (∀ s' k', s.insertMergeOverlapping k = .ok (s', k') →
      ((∀ d ∈ s.iter, Overlap d k → StrictlyInside d k) → k' = k) ∧
      ((∃ d ∈ s.iter, Overlap d k ∧ ¬ StrictlyInside d k) → ∃ i, k' = ofInterval i)) ∧
    (∀ s' k', s.insertMergeTouchingOrOverlapping k = .ok (s', k') →
      ((∀ d ∈ s.iter, Touch d k ∨ Overlap d k → StrictlyInside d k) → k' = k) ∧
      ((∃ d ∈ s.iter, (Touch d k ∨ Overlap d k) ∧ ¬ StrictlyInside d k) → ∃ i, k' = ofInterval i)) := by
  have hw := wf_iff.2 h
  have hti : ∀ d ∈ s.iter, Touch d k → ¬ StrictlyInside d k := by
    rintro d hd ht ⟨⟨p, hp, hpd⟩, x, hx, hxd⟩
    obtain ⟨y, hy⟩ := h.1 d hd
    refine ht.1 ⟨y, hy, ?_⟩
    exact ⟨le_trans hp.1 (hpd y hy).le, le_trans (hxd y hy).le hx.2⟩
  refine ⟨fun s' k' he => ?_, fun s' k' he => ?_, fun s' k' he => ?_⟩
  · obtain ⟨m', r, h1, h2, h3, h4⟩ := C10_insert_merge_touching hw k hk ()
    unfold NoditSet.insertMergeTouching at he
    rw [h1] at he; cases he
    by_cases hc : ∃ d ∈ s.iter, Overlap d k
    · have := (h3 (exists_unit.2 hc)).1; cases this
    · obtain ⟨k'', hk'', -, h5, -⟩ := h4 (fun e he ho => hc ⟨e.1, mem_iter.2 he, ho⟩)
      cases hk''
      refine ⟨fun hn => h5.2.1 ?_, fun ⟨d, hd, ht⟩ => h5.2.2 ⟨(d, ()), ⟨mem_iter.1 hd, ht⟩, hti d hd ht⟩⟩
      rintro e ⟨he, ht⟩
      exact absurd ht (hn e.1 (mem_iter.2 he))
  · obtain ⟨m', k'', h1, -, -, h5, -⟩ := C12_insert_merge_overlapping hw k hk ()
    unfold NoditSet.insertMergeOverlapping at he
    rw [h1] at he; cases he
    exact ⟨fun hn => h5.2.1 fun e he => hn e.1 (mem_iter.2 he.1) he.2,
      fun ⟨d, hd, ho, hs⟩ => h5.2.2 ⟨(d, ()), ⟨mem_iter.1 hd, ho⟩, hs⟩⟩
  · obtain ⟨m', k'', h1, -, -, h5, -⟩ := C13_insert_merge_touching_or_overlapping hw k hk ()
    unfold NoditSet.insertMergeTouchingOrOverlapping at he
    rw [h1] at he; cases he
    exact ⟨fun hn => h5.2.1 fun e he => hn e.1 (mem_iter.2 he.1) he.2,
      fun ⟨d, hd, ho, hs⟩ => h5.2.2 ⟨(d, ()), ⟨mem_iter.1 hd, ho⟩, hs⟩⟩

omit [LawfulInterval I K] in
/-- **C22**: `len`, `is_empty`, `first`, `last` and `into_iter` agree with `iter`. -/
theorem C22_set_len_first_last {s : NoditSet K} (h : Ascending s.iter) :
    s.len = s.iter.length ∧ (s.isEmpty = true ↔ s.iter = []) ∧ s.intoIter = s.iter ∧
    (∀ k, s.first = some k ↔ k ∈ s.iter ∧ ∀ d ∈ s.iter, d ≠ k → Before k d) ∧
    (∀ k, s.last = some k ↔ k ∈ s.iter ∧ ∀ d ∈ s.iter, d ≠ k → Before d k) := by
  obtain ⟨h1, h2, h3, h4, h5, h6, -⟩ := C18_len_first_last (wf_iff.2 h)
  refine ⟨?_, ?_, ?_, fun k => ?_, fun k => ?_⟩
  · unfold NoditSet.len NoditSet.iter; rw [h1, List.length_map]
  · unfold NoditSet.isEmpty NoditSet.iter; rw [h2, List.map_eq_nil_iff]
  · unfold NoditSet.intoIter NoditSet.iter; rw [h3]
  · rw [mem_iter]
    refine Iff.trans ?_ ((h5 (k, ())).trans ?_)
    · unfold NoditSet.first
      rw [Option.map_eq_some_iff]
      exact ⟨fun ⟨⟨_, ⟨⟩⟩, he, hk⟩ => by cases hk; exact he, fun he => ⟨_, he, rfl⟩⟩
    · refine and_congr_right fun _ => ⟨fun hh d hd hne => ?_, fun hh d hd hne => ?_⟩
      · exact hh (d, ()) (mem_iter.1 hd) (fun heq => hne (congrArg Prod.fst heq))
      · exact hh d.1 (mem_iter.2 hd) (fun heq => hne (Prod.ext heq rfl))
  · rw [mem_iter]
    refine Iff.trans ?_ ((h6 (k, ())).trans ?_)
    · unfold NoditSet.last
      rw [Option.map_eq_some_iff]
      exact ⟨fun ⟨⟨_, ⟨⟩⟩, he, hk⟩ => by cases hk; exact he, fun he => ⟨_, he, rfl⟩⟩
    · refine and_congr_right fun _ => ⟨fun hh d hd hne => ?_, fun hh d hd hne => ?_⟩
      · exact hh (d, ()) (mem_iter.1 hd) (fun heq => hne (congrArg Prod.fst heq))
      · exact hh d.1 (mem_iter.2 hd) (fun heq => hne (Prod.ext heq rfl))

/-- the map call a set call is made of -/
def setToMap : SetOp I K → Op I K Unit
  | .insertStrict k => .insertStrict k ()
  | .insertMergeTouching k => .insertMergeTouching k ()
  | .insertMergeOverlapping k => .insertMergeOverlapping k ()
  | .insertMergeTouchingOrOverlapping k => .insertMergeTouchingOrOverlapping k ()
  | .insertOverwrite k => .insertOverwrite k ()
  | .cut q => .cut q
  | .removeOverlapping q => .removeOverlapping q

omit [LawfulInterval I K] in
theorem bad_setToMap (op : SetOp I K) : (setToMap op).Bad ↔ op.Bad := by cases op <;> rfl

omit [LawfulInterval I K] in
theorem set_step_eq (s : NoditSet K) (op : SetOp I K) :
    s.step op = (s.inner.step (setToMap op)).map (fun r => ⟨r.1⟩) := by
  cases op <;> simp only [NoditSet.step, NoditMap.step, setToMap, NoditSet.insertStrict, NoditSet.insertMergeTouching,
    NoditSet.insertMergeOverlapping, NoditSet.insertMergeTouchingOrOverlapping, NoditSet.insertOverwrite,
    NoditSet.cut, NoditSet.removeOverlapping, bind, Except.bind, pure, Except.pure, Except.map]
  · cases s.inner.insertStrict _ () <;> rfl
  · cases s.inner.insertMergeTouching _ () <;> rfl
  · cases s.inner.insertMergeOverlapping _ () <;> rfl
  · cases s.inner.insertMergeTouchingOrOverlapping _ () <;> rfl
  · cases s.inner.insertOverwrite _ () <;> rfl
  · rename_i q; cases s.inner.cut q <;> rfl
  · rename_i q; cases s.inner.removeOverlapping q <;> rfl

theorem set_step_refines {s : NoditSet K} (h : Ascending s.iter) (op : SetOp I K) :
    (op.Bad ∧ s.step op = .error .invalidInterval) ∨
    (¬ op.Bad ∧ ∃ s' o, s.step op = .ok s' ∧ Ascending s'.iter ∧
      SpecOp s.inner.entrySet (setToMap op) s'.inner.entrySet o) := by
  rcases NoditMap.step_refines (wf_iff.2 h) (setToMap op) with ⟨hb, he⟩ | ⟨hb, m', o, ho, hw, hs⟩
  · exact Or.inl ⟨(bad_setToMap op).1 hb, by rw [set_step_eq, he]; rfl⟩
  · exact Or.inr ⟨mt (bad_setToMap op).2 hb, ⟨m'⟩, o, by rw [set_step_eq, ho]; rfl, wf_iff.1 hw, hs⟩

/-- **C22**: after any history of calls, valid arguments or not, the set's intervals are valid, ascending and
disjoint; a changing call panics iff its argument is invalid. -/
theorem C22_set_invariant (ops : List (SetOp I K)) :
    Ascending ((new : NoditSet K).run ops).iter ∧
    ∀ op : SetOp I K, (∃ p, ((new : NoditSet K).run ops).step op = .error p) ↔ op.Bad := by
  have key : ∀ (s : NoditSet K), Ascending s.iter → Ascending (s.run ops).iter := by
    intro s hs
    induction ops generalizing s with
    | nil => exact hs
    | cons op ops ih =>
      rcases set_step_refines hs op with ⟨-, he⟩ | ⟨-, s', o, ho, hw, -⟩
      · simp only [run, he]; exact ih s hs
      · simp only [run, ho]; exact ih s' hw
  have hA := key new (by simp [Ascending, new, NoditSet.iter, NoditMap.new, NoditMap.iter])
  refine ⟨hA, fun op => ?_⟩
  rcases set_step_refines hA op with ⟨hb, he⟩ | ⟨hb, s', o, ho, -⟩
  · simp [he, hb]
  · simp [ho, hb]

/-- the points of a set -/
def points (s : NoditSet K) : Set I := {p | ∃ k ∈ s.iter, Mem p k}

omit [LawfulInterval I K] in
theorem setStep_bad {C : Set I} {op : SetOp I K} (hb : op.Bad) : setStep C op = C := by
  have key : ∀ {Q : Type} [IntervalType I Q] {q : Q} (p : I), ¬ Valid q → ¬ Mem p q := fun p h hp => h ⟨p, hp⟩
  cases op with
  | insertStrict k | insertMergeTouching k =>
    simp only [setStep]; rw [if_neg (fun ⟨p, hp⟩ => key _ hb hp.2)]; ext p; simp [key p hb]
  | insertMergeOverlapping k | insertMergeTouchingOrOverlapping k | insertOverwrite k | cut q =>
    simp only [setStep]; ext p; simp [key p hb]
  | removeOverlapping q => rfl

theorem set_step_points {s : NoditSet K} (h : Ascending s.iter) {op : SetOp I K} (hop : op.Pointwise) (hb : ¬ op.Bad)
    {s' : NoditSet K} (hs : s.step op = .ok s') : points s' = setStep (points s) op := by
  have ex : ∀ k : K, (∃ p ∈ points s, Mem p k) ↔ ∃ d ∈ s.iter, Overlap d k := by
    intro k; constructor
    · rintro ⟨p, ⟨d, hd, hp⟩, hpk⟩; exact ⟨d, hd, p, hp, hpk⟩
    · rintro ⟨d, hd, p, hp, hpk⟩; exact ⟨p, ⟨d, hd, hp⟩, hpk⟩
  have absorb : ∀ {k k' : K} {R : K → Prop} {s' : NoditSet K},
      (∀ p, Mem p k' ↔ Mem p k ∨ ∃ d ∈ s.iter, R d ∧ Mem p d) →
      (∀ d, d ∈ s'.iter ↔ (d ∈ s.iter ∧ ¬ R d) ∨ d = k') → points s' = {p | p ∈ points s ∨ Mem p k} := by
    intro k k' R s' h1 h2
    ext p
    constructor
    · rintro ⟨d, hd, hp⟩
      rcases (h2 d).1 hd with ⟨hd, -⟩ | rfl
      · exact Or.inl ⟨d, hd, hp⟩
      · rcases (h1 p).1 hp with hp | ⟨d, hd, -, hp⟩
        · exact Or.inr hp
        · exact Or.inl ⟨d, hd, hp⟩
    · rintro (⟨d, hd, hp⟩ | hp)
      · by_cases hr : R d
        · exact ⟨k', (h2 _).2 (Or.inr rfl), (h1 p).2 (Or.inr ⟨d, hd, hr, hp⟩)⟩
        · exact ⟨d, (h2 d).2 (Or.inl ⟨hd, hr⟩), hp⟩
      · exact ⟨k', (h2 _).2 (Or.inr rfl), (h1 p).2 (Or.inl hp)⟩
  have cutp : ∀ {Q : Type} [IntervalType I Q] {q : Q} {s' : NoditSet K} {out : List K}, Valid q → s.cut q = .ok (s', out) →
      points s' = {p | p ∈ points s ∧ ¬ Mem p q} := by
    intro Q _ q s' out hq hc
    obtain ⟨m', out', h1, h2, -⟩ := C08_cut_exact (wf_iff.2 h) q hq
    have hc' : s' = ⟨m'⟩ := by
      unfold NoditSet.cut at hc; rw [h1] at hc; cases hc; rfl
    subst hc'
    ext p
    have h3 := C08_cut_pointwise (wf_iff.2 h) q hq h1 p
    have hcov : ∀ {m : NoditMap K Unit}, WF m.iter → (p ∈ points ⟨m⟩ ↔ m.getAtPoint p = .ok (some ())) := by
      intro m hm
      obtain ⟨r, e1, e2⟩ := NoditMap.spec_getAtPoint hm p
      rw [e1]
      constructor
      · rintro ⟨k, hk, hp⟩; rw [(e2 ()).2 ⟨(k, ()), mem_fst.1 hk, hp, rfl⟩]
      · intro hr; cases hr
        obtain ⟨e, he, hp, -⟩ := (e2 ()).1 rfl
        exact ⟨e.1, mem_fst.2 he, hp⟩
    rw [hcov h2]
    show _ ↔ p ∈ points s ∧ _
    have hs : p ∈ points s ↔ _ := hcov (m := s.inner) (wf_iff.2 h)
    rw [hs]
    by_cases hp : Mem p q
    · rw [h3.1 hp]; simp [hp]
    · rw [h3.2.1 hp]; simp [hp]
  cases op with
  | removeOverlapping q => exact hop.elim
  | insertStrict k =>
    obtain ⟨s1, r, e1, e2, e3⟩ := (C22_set_updates h k (not_not.1 hb) k (not_not.1 hb)).1
    have : s1 = s' := by simp only [NoditSet.step, e1] at hs; cases hs; rfl
    subst this
    simp only [setStep]
    split_ifs with hc
    · rw [(e2 ((ex k).1 hc)).2]
    · obtain ⟨-, e4⟩ := e3 (fun d hd ho => hc ((ex k).2 ⟨d, hd, ho⟩))
      refine absorb (R := fun _ => False) (k' := k) (fun p => by simp) (fun d => by rw [e4]; simp)
  | insertMergeTouching k =>
    obtain ⟨s1, r, e1, e2, e3⟩ := (C22_set_updates h k (not_not.1 hb) k (not_not.1 hb)).2.1
    have : s1 = s' := by simp only [NoditSet.step, e1] at hs; cases hs; rfl
    subst this
    simp only [setStep]
    split_ifs with hc
    · rw [(e2 ((ex k).1 hc)).2]
    · obtain ⟨k', -, e4, e5⟩ := e3 (fun d hd ho => hc ((ex k).2 ⟨d, hd, ho⟩))
      exact absorb e4 e5
  | insertMergeOverlapping k =>
    obtain ⟨s1, k', e1, e2, e3⟩ := (C22_set_updates h k (not_not.1 hb) k (not_not.1 hb)).2.2.1
    have : s1 = s' := by simp only [NoditSet.step, e1] at hs; cases hs; rfl
    subst this
    exact absorb e2 e3
  | insertMergeTouchingOrOverlapping k =>
    obtain ⟨s1, k', e1, e2, e3⟩ := (C22_set_updates h k (not_not.1 hb) k (not_not.1 hb)).2.2.2.1
    have : s1 = s' := by simp only [NoditSet.step, e1] at hs; cases hs; rfl
    subst this
    exact absorb e2 e3
  | insertOverwrite k =>
    obtain ⟨sc, s1, out, e1, e2, e3⟩ := (C22_set_updates h k (not_not.1 hb) k (not_not.1 hb)).2.2.2.2.1
    have : s1 = s' := by simp only [NoditSet.step, e2] at hs; cases hs; rfl
    subst this
    have hc := cutp (not_not.1 hb) e1
    ext p
    have hcp : p ∈ points sc ↔ p ∈ points s ∧ ¬ Mem p k := by rw [hc]; rfl
    simp only [setStep]
    show _ ↔ p ∈ points s ∨ Mem p k
    constructor
    · rintro ⟨d, hd, hp⟩
      rcases (e3 d).1 hd with hd | rfl
      · exact Or.inl (hcp.1 ⟨d, hd, hp⟩).1
      · exact Or.inr hp
    · intro hh
      by_cases hp : Mem p k
      · exact ⟨k, (e3 k).2 (Or.inr rfl), hp⟩
      · obtain ⟨d, hd, hpd⟩ := hcp.2 ⟨hh.resolve_right hp, hp⟩
        exact ⟨d, (e3 d).2 (Or.inl hd), hpd⟩
  | cut q =>
    obtain ⟨s1, out, e1, -⟩ := (C22_set_updates h (ofInterval q : K)
      (by obtain ⟨p, hp⟩ := not_not.1 hb; exact ⟨p, mem_ofInterval.2 hp⟩) q (not_not.1 hb)).2.2.2.2.2.2
    have : s1 = s' := by simp only [NoditSet.step, e1] at hs; cases hs; rfl
    subst this
    exact cutp (not_not.1 hb) e1

/-- **C22**: after any history of inserts and cuts (valid arguments or not), `contains_point` is membership in a
reference set of points. -/
theorem C22_set_refines_point_set (ops : List (SetOp I K)) (hops : ∀ op ∈ ops, op.Pointwise) (p : I) :
    ∃ b, ((new : NoditSet K).run ops).containsPoint p = .ok b ∧
      (b = true ↔ p ∈ ops.foldl setStep (∅ : Set I)) := by
  have key : ∀ (s : NoditSet K), Ascending s.iter → points (s.run ops) = ops.foldl setStep (points s) := by
    intro s hs
    induction ops generalizing s with
    | nil => rfl
    | cons op ops ih =>
      have hops' : ∀ op ∈ ops, op.Pointwise := fun o ho => hops o (by simp [ho])
      rcases set_step_refines hs op with ⟨hb, he⟩ | ⟨hb, s', o, ho, hw, -⟩
      · simp only [run, he, List.foldl_cons, setStep_bad hb]; exact ih hops' s hs
      · simp only [run, ho, List.foldl_cons]
        rw [ih hops' s' hw, set_step_points hs (hops op (by simp)) hb ho]
  have hA := (C22_set_invariant (I := I) ops (K := K)).1
  obtain ⟨b, h1, h2⟩ := (C03_point_lookup (wf_iff.2 hA) p).2.2.1
  refine ⟨b, h1, h2.trans ?_⟩
  rw [covered_iff]
  have h3 := key new (by simp [Ascending, new, NoditSet.iter, NoditMap.new, NoditMap.iter])
  have h4 : points (new : NoditSet K) = (∅ : Set I) := by
    ext x; simp [points, new, NoditSet.iter, NoditMap.new, NoditMap.iter]
  rw [h4] at h3
  exact Set.ext_iff.1 h3 p

omit [LawfulInterval I K] in
theorem fromIterStrictFrom_inner (s : NoditSet K) (l : List K) : s.fromIterStrictFrom l =
      (s.inner.fromIterStrictFrom (l.map (fun k => (k, ())))).map (fun r => r.map NoditSet.mk) := by
  induction l generalizing s with
  | nil => rfl
  | cons k l ih =>
    simp only [NoditSet.fromIterStrictFrom, NoditMap.fromIterStrictFrom, NoditSet.insertStrict, List.map_cons,
      bind, Except.bind, pure, Except.pure]
    cases s.inner.insertStrict k () with
    | error p => rfl
    | ok r =>
      obtain ⟨m, r⟩ := r
      cases r with
      | error e => rfl
      | ok u => exact ih _

omit [LawfulInterval I K] in
/-- **C22**: building a set from valid intervals, given as an iterator or as a slice, succeeds iff they are pairwise disjoint, with
exactly these. -/
theorem C22_set_from_iter {l : List K} (hv : ∀ k ∈ l, Valid k) :
    (l.Pairwise (fun a b => ¬ Overlap a b) → ∃ s, fromIterStrict l = .ok (.ok s) ∧ fromSliceStrict l = .ok (.ok s) ∧
      Ascending s.iter ∧ (∀ k, k ∈ s.iter ↔ k ∈ l) ∧ s.len = l.length) ∧
    (¬ l.Pairwise (fun a b => ¬ Overlap a b) →
      fromIterStrict l = .ok (.error ⟨()⟩) ∧ fromSliceStrict l = .ok (.error ⟨()⟩)) := by
  have hv' : ∀ e ∈ l.map (fun k => (k, ())), Valid e.1 := by simpa using hv
  have hp : (l.map (fun k => (k, ()))).Pairwise (fun a b => ¬ Overlap a.1 b.1) ↔ l.Pairwise (fun a b => ¬ Overlap a b) :=
    List.pairwise_map
  constructor
  · intro hd
    obtain ⟨m, h1, -, h2, h3, h4⟩ := C17_from_iter_strict_disjoint hv' (hp.2 hd)
    have h5 : fromIterStrict l = .ok (.ok ⟨m⟩) := by
      unfold fromIterStrict; rw [fromIterStrictFrom_inner]; unfold NoditMap.fromIterStrict at h1; rw [new, h1]; rfl
    refine ⟨⟨m⟩, h5, h5, wf_iff.1 h2, fun k => ?_, ?_⟩
    · rw [mem_iter, h3]; simp
    · show m.len = _; rw [h4]; simp
  · intro hd
    obtain ⟨pre, a, post, he, h1, h2⟩ := exists_first_offender (mt hp.1 hd)
    have hpre : ∀ e ∈ pre, Valid e.1 := fun e h => hv' e (by rw [he]; simp [h])
    have := (C17_from_iter_strict_first_offender (k := a.1) (v := a.2) (post := post) hpre h1).1
      (hv' a (by rw [he]; simp)) h2
    have h5 : fromIterStrict l = .ok (.error ⟨()⟩) := by
      unfold fromIterStrict; rw [fromIterStrictFrom_inner, he]; unfold NoditMap.fromIterStrict at this; rw [new, this]; rfl
    exact ⟨h5, h5⟩

omit [LawfulInterval I K] in
/-- **C22**: with a first offending interval the result is the error if it overlaps an earlier one, and the panic if it is invalid;
later ones play no role. -/
theorem C22_set_from_iter_first_offender {pre post : List K} {k : K}
    (hv : ∀ k ∈ pre, Valid k) (hd : pre.Pairwise (fun a b => ¬ Overlap a b)) :
    (Valid k → (∃ e ∈ pre, Overlap e k) → fromIterStrict (pre ++ k :: post) = .ok (.error ⟨()⟩) ∧
      fromSliceStrict (pre ++ k :: post) = .ok (.error ⟨()⟩)) ∧
    (¬ Valid k → fromIterStrict (pre ++ k :: post) = .error .invalidInterval ∧
      fromSliceStrict (pre ++ k :: post) = .error .invalidInterval) := by
  obtain ⟨h1, h2⟩ := C17_from_iter_strict_first_offender (pre := pre.map (fun k => (k, ()))) (k := k) (v := ())
    (post := post.map (fun k => (k, ()))) (by simpa using hv) (List.pairwise_map.2 hd)
  have h3 : fromIterStrict (pre ++ k :: post) = (NoditMap.fromIterStrict
      (pre.map (fun k => (k, ())) ++ (k, ()) :: post.map (fun k => (k, ())))).map (fun r => r.map NoditSet.mk) := by
    unfold fromIterStrict NoditMap.fromIterStrict; rw [fromIterStrictFrom_inner, List.map_append]; rfl
  constructor
  · rintro hk ⟨e, he, ho⟩
    have h4 : fromIterStrict (pre ++ k :: post) = .ok (.error ⟨()⟩) := by
      rw [h3, h1 hk ⟨(e, ()), List.mem_map.2 ⟨e, he, rfl⟩, ho⟩]; rfl
    exact ⟨h4, h4⟩
  · intro hk
    have h4 : fromIterStrict (pre ++ k :: post) = .error .invalidInterval := by rw [h3, h2 hk]; rfl
    exact ⟨h4, h4⟩

example : fromSliceStrict [Demo.iv 10 12, Demo.iv 0 4, Demo.iv 9 10, Demo.iv 9 8] = .ok (.error ⟨()⟩) ∧
    fromSliceStrict [Demo.iv 10 12, Demo.iv 0 4, Demo.iv 9 8, Demo.iv 9 10] = .error .invalidInterval := by decide

namespace Demo
/-- a history using every kind of insert, a cut and an invalid argument -/
def sops : List (SetOp U8 (Interval U8)) :=
  [.insertStrict (iv 0 4), .insertMergeTouching (iv 5 9), .insertMergeOverlapping (iv 8 12), .insertStrict (iv 3 3),
   .insertOverwrite (iv 20 255), .insertMergeTouchingOrOverlapping (iv 13 15), .cut (iv 2 3), .cut (iv 8 7)]
end Demo
example : (∀ op ∈ Demo.sops, op.Pointwise) ∧
    (new.run Demo.sops).iter = [Demo.iv 0 1, Demo.iv 4 15, Demo.iv 20 255] := by
  refine ⟨by simp [Demo.sops, SetOp.Pointwise], by decide⟩

end Nodit
