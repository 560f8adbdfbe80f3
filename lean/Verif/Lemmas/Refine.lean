import Verif.Lemmas.Gaps
/-!
# Every call refines the reference machine
-/
set_option linter.unusedSectionVars false
set_option linter.unusedSimpArgs false
namespace Nodit
open Spec PointType

variable {I K Q V : Type} [PointType I] [IntervalType I K] [IntervalType I Q]
  [LawfulPoint I] [LawfulInterval I K]

omit [LawfulPoint I] [LawfulInterval I K] in
theorem lists_of_chain {l : List (K × V)} {S : Set (K × V)} (h : Chain l) (hm : ∀ e, e ∈ l ↔ e ∈ S) : Lists l S :=
  ⟨wf_iff_chain.2 h, hm⟩

omit [LawfulPoint I] [LawfulInterval I K] in
theorem notValid_iff {k : K} : ¬ Valid k ↔ ¬ start k ≤ stop k := not_congr valid_iff

namespace NoditMap
variable {m : NoditMap K V}

omit [LawfulPoint I] [LawfulInterval I K] in
theorem set_ovl (h : Chain m.inner) {q : Q} (hq : start q ≤ stop q) :
    {e | e ∈ m.inner ∧ ovl q e = true} = {e | e ∈ m.entrySet ∧ Overlap e.1 q} := by
  ext e
  exact and_congr_right fun he => ovl_iff hq (h.1 e he)

omit [LawfulInterval I K] in
theorem set_tch (h : Chain m.inner) {k : K} (hk : start k ≤ stop k) :
    {e | e ∈ m.inner ∧ tch k e = true} = {e | e ∈ m.entrySet ∧ Touch e.1 k} := by
  ext e
  exact and_congr_right fun he => tch_iff hk (h.1 e he)

omit [LawfulPoint I] [LawfulInterval I K] in
theorem bad_invalid {q : Q} (h : ¬ Valid q) : invalidIntervalPanic q = .error .invalidInterval :=
  invalidIntervalPanic_err (mt valid_iff.2 h)

omit [LawfulPoint I] [LawfulInterval I K] in
theorem entrySet_mk (l : List (K × V)) : (⟨l⟩ : NoditMap K V).entrySet = {e | e ∈ l} := rfl

omit [LawfulPoint I] [LawfulInterval I K] in
theorem spec_insertStrict (h : WF m.iter) {k : K} (hk : Valid k) (v : V) :
    ∃ m' r, m.insertStrict k v = .ok (m', r) ∧ WF m'.iter ∧
      ((∃ e ∈ m.entrySet, Overlap e.1 k) → m' = m ∧ r = .error ⟨v⟩) ∧
      ((¬ ∃ e ∈ m.entrySet, Overlap e.1 k) → m'.entrySet = m.entrySet ∪ {(k, v)} ∧ r = .ok ()) := by
  have hc := wf_iff_chain.1 h
  have hk' := valid_iff.1 hk
  cases ho : m.inner.any (ovl k) with
  | true =>
    refine ⟨m, _, insertStrict_err hc hk' v ho, h, fun _ => ⟨rfl, rfl⟩, fun hn => ?_⟩
    exact absurd ((any_ovl_iff hc hk').1 ho) hn
  | false =>
    obtain ⟨m', h1, -, h2, h3⟩ := insertStrict_spec hc hk' v ho
    refine ⟨m', _, h1, wf_iff_chain.2 h2, fun hn => ?_, fun _ => ⟨?_, rfl⟩⟩
    · have := (any_ovl_iff hc hk').2 hn; rw [ho] at this; cases this
    · ext x; exact h3 x

theorem spec_insertMergeTouching (h : WF m.iter) {k : K} (hk : Valid k) (v : V) :
    ∃ m' r, m.insertMergeTouching k v = .ok (m', r) ∧ WF m'.iter ∧
      ((∃ e ∈ m.entrySet, Overlap e.1 k) → m' = m ∧ r = .error ⟨v⟩) ∧
      ((¬ ∃ e ∈ m.entrySet, Overlap e.1 k) → ∃ k', r = .ok k' ∧
        MergedKey k {e | e ∈ m.entrySet ∧ Touch e.1 k} k' ∧
        m'.entrySet = {e | e ∈ m.entrySet ∧ ¬ Touch e.1 k} ∪ {(k', v)}) := by
  have hc := wf_iff_chain.1 h
  have hk' := valid_iff.1 hk
  cases ho : m.inner.any (ovl k) with
  | true =>
    refine ⟨m, _, insertMergeTouching_err hc hk' v ho, h, fun _ => ⟨rfl, rfl⟩, fun hn => ?_⟩
    exact absurd ((any_ovl_iff hc hk').1 ho) hn
  | false =>
    obtain ⟨m', r, h1, h2, h3, h4⟩ := insertMergeTouching_spec hc hk' v ho
    refine ⟨m', _, h1, wf_iff_chain.2 h2, fun hn => ?_, fun _ => ⟨r, rfl, ?_, ?_⟩⟩
    · have := (any_ovl_iff hc hk').2 hn; rw [ho] at this; cases this
    · rw [← set_tch hc hk']; exact h3
    · ext x
      refine (h4 x).trans (or_congr (and_congr_right fun he => not_congr ?_) Iff.rfl)
      exact tch_iff hk' (hc.1 x he)

theorem spec_insertMergeTouchingIfValuesEqual [BEq V] (h : WF m.iter) {k : K} (hk : Valid k) (v : V) :
    ∃ m' r, m.insertMergeTouchingIfValuesEqual k v = .ok (m', r) ∧ WF m'.iter ∧
      ((∃ e ∈ m.entrySet, Overlap e.1 k) → m' = m ∧ r = .error ⟨v⟩) ∧
      ((¬ ∃ e ∈ m.entrySet, Overlap e.1 k) → ∃ k', r = .ok k' ∧
        MergedKey k {e | e ∈ m.entrySet ∧ Touch e.1 k ∧ (e.2 == v) = true} k' ∧
        m'.entrySet = {e | e ∈ m.entrySet ∧ ¬ (Touch e.1 k ∧ (e.2 == v) = true)} ∪ {(k', v)}) := by
  have hc := wf_iff_chain.1 h
  have hk' := valid_iff.1 hk
  cases ho : m.inner.any (ovl k) with
  | true =>
    refine ⟨m, _, insertMergeTouchingIfValuesEqual_err hc hk' v ho, h, fun _ => ⟨rfl, rfl⟩, fun hn => ?_⟩
    exact absurd ((any_ovl_iff hc hk').1 ho) hn
  | false =>
    obtain ⟨m', r, h1, h2, h3, h4⟩ := insertMergeTouchingIfValuesEqual_spec hc hk' v ho
    have hset : {e | e ∈ m.inner ∧ (tch k e && e.2 == v) = true} =
        {e | e ∈ m.entrySet ∧ Touch e.1 k ∧ (e.2 == v) = true} := by
      ext e
      refine and_congr_right fun he => ?_
      rw [Bool.and_eq_true, tch_iff hk' (hc.1 e he)]
    refine ⟨m', _, h1, wf_iff_chain.2 h2, fun hn => ?_, fun _ => ⟨r, rfl, ?_, ?_⟩⟩
    · have := (any_ovl_iff hc hk').2 hn; rw [ho] at this; cases this
    · rw [← hset]; exact h3
    · ext x
      refine (h4 x).trans (or_congr (and_congr_right fun he => not_congr ?_) Iff.rfl)
      rw [Bool.and_eq_true, tch_iff hk' (hc.1 x he)]

omit [LawfulPoint I] in
theorem spec_insertMergeOverlapping (h : WF m.iter) {k : K} (hk : Valid k) (v : V) :
    ∃ m' r, m.insertMergeOverlapping k v = .ok (m', r) ∧ WF m'.iter ∧
      MergedKey k {e | e ∈ m.entrySet ∧ Overlap e.1 k} r ∧
      m'.entrySet = {e | e ∈ m.entrySet ∧ ¬ Overlap e.1 k} ∪ {(r, v)} := by
  have hc := wf_iff_chain.1 h
  have hk' := valid_iff.1 hk
  obtain ⟨m', r, h1, h2, h3, h4⟩ := insertMergeOverlapping_spec hc hk' v
  refine ⟨m', r, h1, wf_iff_chain.2 h2, ?_, ?_⟩
  · rw [← set_ovl hc hk']; exact h3
  · ext x
    refine (h4 x).trans (or_congr (and_congr_right fun he => not_congr ?_) Iff.rfl)
    exact ovl_iff hk' (hc.1 x he)

theorem spec_insertMergeTouchingOrOverlapping (h : WF m.iter) {k : K} (hk : Valid k) (v : V) :
    ∃ m' r, m.insertMergeTouchingOrOverlapping k v = .ok (m', r) ∧ WF m'.iter ∧
      MergedKey k {e | e ∈ m.entrySet ∧ (Touch e.1 k ∨ Overlap e.1 k)} r ∧
      m'.entrySet = {e | e ∈ m.entrySet ∧ ¬ (Touch e.1 k ∨ Overlap e.1 k)} ∪ {(r, v)} := by
  have hc := wf_iff_chain.1 h
  have hk' := valid_iff.1 hk
  obtain ⟨m', r, h1, h2, h3, h4⟩ := insertMergeTouchingOrOverlapping_spec hc hk' v
  have hset : {e | e ∈ m.inner ∧ (tch k e || ovl k e) = true} =
      {e | e ∈ m.entrySet ∧ (Touch e.1 k ∨ Overlap e.1 k)} := by
    ext e
    refine and_congr_right fun he => ?_
    rw [Bool.or_eq_true, tch_iff hk' (hc.1 e he), ovl_iff hk' (hc.1 e he)]
  refine ⟨m', r, h1, wf_iff_chain.2 h2, ?_, ?_⟩
  · rw [← hset]; exact h3
  · ext x
    refine (h4 x).trans (or_congr (and_congr_right fun he => not_congr ?_) Iff.rfl)
    rw [Bool.or_eq_true, tch_iff hk' (hc.1 x he), ovl_iff hk' (hc.1 x he)]

theorem spec_cut (h : WF m.iter) {q : Q} (hq : Valid q) :
    ∃ m' out, m.cut q = .ok (m', out) ∧ WF m'.iter ∧ m'.entrySet = CutRemaining m.entrySet q ∧
      Lists out (CutReturned m.entrySet q) := by
  obtain ⟨m', out, h1, h2, h3, h4, h5⟩ := cut_spec (wf_iff_chain.1 h) (valid_iff.1 hq)
  exact ⟨m', out, h1, wf_iff_chain.2 h2, Set.ext h4, lists_of_chain h3 h5⟩

theorem spec_insertOverwrite (h : WF m.iter) {k : K} (hk : Valid k) (v : V) :
    ∃ mc m' out, m.cut k = .ok (mc, out) ∧ m.insertOverwrite k v = .ok (m', out) ∧
      mc.insertStrict k v = .ok (m', .ok ()) ∧ WF m'.iter ∧
      m'.entrySet = CutRemaining m.entrySet k ∪ {(k, v)} ∧ Lists out (CutReturned m.entrySet k) := by
  obtain ⟨mc, out, m', h1, h2, h3, h4, h5⟩ := insertOverwrite_spec (wf_iff_chain.1 h) (valid_iff.1 hk) v
  obtain ⟨m'', out', e1, e2, e3, e4⟩ := spec_cut h hk
  rw [e1] at h1
  simp only [Except.ok.injEq, Prod.mk.injEq] at h1
  obtain ⟨rfl, rfl⟩ := h1
  refine ⟨m'', m', out', e1, h2, h3, wf_iff_chain.2 h4, ?_, e4⟩
  rw [← e3]
  exact Set.ext h5

omit [LawfulPoint I] [LawfulInterval I K] in
theorem spec_removeOverlapping (h : WF m.iter) {q : Q} (hq : Valid q) :
    ∃ m' out, m.removeOverlapping q = .ok (m', out) ∧ WF m'.iter ∧
      m'.entrySet = {e | e ∈ m.entrySet ∧ ¬ Overlap e.1 q} ∧ Lists out {e | e ∈ m.entrySet ∧ Overlap e.1 q} := by
  have hc := wf_iff_chain.1 h
  have hq' := valid_iff.1 hq
  refine ⟨_, _, removeOverlapping_ok hc hq', wf_iff_chain.2 (hc.filter _), ?_, ?_⟩
  · ext x
    change x ∈ List.filter _ _ ↔ _
    rw [List.mem_filter]
    refine and_congr_right fun hx => ?_
    rw [Bool.not_eq_true', ← Bool.not_eq_true]
    exact not_congr (ovl_iff hq' (hc.1 x hx))
  · refine lists_of_chain (hc.filter _) fun x => ?_
    rw [← set_ovl hc hq', List.mem_filter]
    rfl

omit [LawfulPoint I] [LawfulInterval I K] in
theorem spec_overlapping (h : WF m.iter) {q : Q} (hq : Valid q) :
    ∃ out, m.overlapping q = .ok out ∧ Lists out {e | e ∈ m.entrySet ∧ Overlap e.1 q} := by
  have hc := wf_iff_chain.1 h
  have hq' := valid_iff.1 hq
  refine ⟨_, overlapping_ok hc hq', lists_of_chain (hc.filter _) fun x => ?_⟩
  rw [← set_ovl hc hq', List.mem_filter]
  rfl

omit [LawfulPoint I] [LawfulInterval I K] in
theorem spec_overlaps (h : WF m.iter) {q : Q} (hq : Valid q) :
    ∃ b, m.overlaps q = .ok b ∧ (b = true ↔ ∃ e ∈ m.entrySet, Overlap e.1 q) := by
  have hc := wf_iff_chain.1 h
  have hq' := valid_iff.1 hq
  exact ⟨_, overlaps_ok hc hq', any_ovl_iff hc hq'⟩

theorem spec_gapsUntrimmed (h : WF m.iter) {q : Q} (hq : Valid q) :
    ∃ out, m.gapsUntrimmed q = .ok out ∧
      ListsIntervals out (fun i => MaximalRun (fun p => ¬ Covered m.entrySet p) i ∧ Overlap i q) := by
  have hc := wf_iff_chain.1 h
  have hq' := valid_iff.1 hq
  obtain ⟨gs, h1, h2, h3⟩ := gapsUntrimmed_spec hc hq'
  refine ⟨gs, h1, ascending_iff.2 h2, fun k => ?_⟩
  rw [h3]
  refine exists_congr fun i => and_congr_right fun _ => and_congr (isGap_iff hc.1) Iff.rfl

theorem spec_gapsTrimmed (h : WF m.iter) {q : Q} (hq : Valid q) :
    ∃ out, m.gapsTrimmed q = .ok out ∧
      ListsIntervals out (fun i => ∃ g, MaximalRun (fun p => ¬ Covered m.entrySet p) g ∧
        Describes i (fun p => Mem p g ∧ Mem p q)) := by
  have hc := wf_iff_chain.1 h
  have hq' := valid_iff.1 hq
  obtain ⟨gs, h1, h2, h3⟩ := gapsTrimmed_spec hc hq'
  refine ⟨gs, h1, ascending_iff.2 h2, fun k => ?_⟩
  rw [h3]
  refine exists_congr fun i => and_congr_right fun _ => exists_congr fun g => and_congr (isGap_iff hc.1) Iff.rfl

theorem spec_containsInterval (h : WF m.iter) {q : Q} (hq : Valid q) :
    ∃ b, m.containsInterval q = .ok b ∧ (b = true ↔ ∀ p, Mem p q → Covered m.entrySet p) :=
  containsInterval_spec (wf_iff_chain.1 h) (valid_iff.1 hq)

omit [LawfulPoint I] [LawfulInterval I K] in
theorem spec_overlappingMut (h : WF m.iter) {q : Q} (hq : Valid q) (f : K → V → V) :
    ∃ m', m.overlappingMut q f = .ok m' ∧ WF m'.iter ∧ m'.iter.map Prod.fst = m.iter.map Prod.fst ∧
      m'.entrySet = {e | ∃ d ∈ m.entrySet, (Overlap d.1 q ∧ e = (d.1, f d.1 d.2)) ∨ (¬ Overlap d.1 q ∧ e = d)} := by
  have hc := wf_iff_chain.1 h
  have hq' := valid_iff.1 hq
  refine ⟨_, overlappingMut_ok hc hq' f, wf_iff_chain.2 (hc.map_value _), ?_, ?_⟩
  · simp [iter, Function.comp_def]
  · ext x
    change x ∈ List.map _ _ ↔ _
    rw [List.mem_map]
    refine exists_congr fun d => and_congr_right fun hd => ?_
    have := ovl_iff (q := q) hq' (hc.1 d hd)
    by_cases ho : ovl q d = true
    · simp [ho, this.1 ho, eq_comm]
    · simp [ho, mt this.2 ho, eq_comm]

omit [LawfulInterval I K] in
theorem spec_getKeyValueAtPoint (h : WF m.iter) (p : I) :
    ∃ r, m.getKeyValueAtPoint p = .ok r ∧
      (∀ e, r = .ok e ↔ e ∈ m.entrySet ∧ Mem p e.1) ∧
      (∀ g, r = .error g → ∃ i, g = ofInterval i ∧ MaximalRun (fun p => ¬ Covered m.entrySet p) i ∧ Mem p i) := by
  have hc := wf_iff_chain.1 h
  rcases getKeyValueAtPoint_spec hc p with ⟨e, he, hp, hr, hu⟩ | ⟨hn, g, hr, hg, hg1, hg2⟩
  · refine ⟨_, hr, fun d => ⟨?_, ?_⟩, fun g hg => by cases hg⟩
    · rintro hd; cases hd; exact ⟨he, hp⟩
    · rintro ⟨h1, h2⟩; rw [hu d h1 h2]
  · refine ⟨_, hr, fun d => ⟨fun h => (by cases h), fun ⟨h1, h2⟩ => absurd h2 (hn d h1)⟩, ?_⟩
    rintro _ ⟨⟩
    exact ⟨g, rfl, (isGap_iff hc.1).1 hg, hg1, hg2⟩

omit [LawfulInterval I K] in
theorem spec_getAtPoint (h : WF m.iter) (p : I) :
    ∃ r, m.getAtPoint p = .ok r ∧ ∀ v, r = some v ↔ ∃ e ∈ m.entrySet, Mem p e.1 ∧ e.2 = v := by
  unfold getAtPoint
  have hc := wf_iff_chain.1 h
  rcases getKeyValueAtPoint_spec hc p with ⟨e, he, hp, hr, hu⟩ | ⟨hn, g, hr, -⟩
  · refine ⟨some e.2, by simp [hr, bind, Except.bind, pure, Except.pure], fun v => ⟨?_, ?_⟩⟩
    · rintro hv; cases hv; exact ⟨e, he, hp, rfl⟩
    · rintro ⟨d, hd, hdp, rfl⟩; rw [hu d hd hdp]
  · refine ⟨none, by simp [hr, bind, Except.bind, pure, Except.pure], fun v => ⟨fun h => (by cases h), ?_⟩⟩
    rintro ⟨d, hd, hdp, -⟩; exact absurd hdp (hn d hd)

omit [LawfulInterval I K] in
theorem spec_containsPoint (h : WF m.iter) (p : I) :
    ∃ b, m.containsPoint p = .ok b ∧ (b = true ↔ Covered m.entrySet p) := by
  unfold containsPoint
  have hc := wf_iff_chain.1 h
  rcases getKeyValueAtPoint_spec hc p with ⟨e, he, hp, hr, hu⟩ | ⟨hn, g, hr, -⟩
  · exact ⟨true, by simp [hr, bind, Except.bind, pure, Except.pure], by simp; exact ⟨e, he, hp⟩⟩
  · refine ⟨false, by simp [hr, bind, Except.bind, pure, Except.pure], ?_⟩
    simp; rintro ⟨e, he, hp⟩; exact hn e he hp

omit [LawfulPoint I] [LawfulInterval I K] in
theorem spec_getAtPointMut (h : WF m.iter) (p : I) (f : V → V) :
    WF (m.getAtPointMut p f).1.iter ∧
      (m.getAtPointMut p f).1.iter.map Prod.fst = m.iter.map Prod.fst ∧
      (∀ v, (m.getAtPointMut p f).2 = some v ↔ ∃ e ∈ m.entrySet, Mem p e.1 ∧ e.2 = v) ∧
      (m.getAtPointMut p f).1.entrySet =
        {e | ∃ d ∈ m.entrySet, (Mem p d.1 ∧ e = (d.1, f d.2)) ∨ (¬ Mem p d.1 ∧ e = d)} := by
  have hc := wf_iff_chain.1 h
  have hmod := BTree.modify_eq (hc.search_overlapping p) (fun _ v => f v)
  have hiter : (m.getAtPointMut p f).1.iter =
      m.inner.map (fun e => (e.1, if overlappingComp p e.1 = .eq then f e.2 else e.2)) := hmod
  refine ⟨?_, ?_, ?_, ?_⟩
  · rw [hiter]; exact wf_iff_chain.2 (hc.map_value _)
  · rw [hiter]; simp [iter, Function.comp_def]
  · intro v
    unfold getAtPointMut
    rcases find_point hc p with ⟨e, he, hp, hr, hu⟩ | ⟨hn, hr⟩
    · simp only [hr, Option.map_some, Option.some.injEq]
      constructor
      · rintro rfl; exact ⟨e, he, hp, rfl⟩
      · rintro ⟨d, hd, hdp, rfl⟩; rw [hu d hd hdp]
    · simp only [hr, Option.map_none, reduceCtorEq, false_iff]
      rintro ⟨d, hd, hdp, -⟩; exact hn d hd hdp
  · ext x
    change x ∈ (m.getAtPointMut p f).1.iter ↔ _
    rw [hiter, List.mem_map]
    refine exists_congr fun d => and_congr_right fun hd => ?_
    have : overlappingComp p d.1 = .eq ↔ Mem p d.1 := overlappingComp_eq
    by_cases ho : overlappingComp p d.1 = .eq
    · simp [ho, this.1 ho, eq_comm]
    · simp [ho, mt this.2 ho, eq_comm]

omit [LawfulPoint I] [LawfulInterval I K] in
theorem spec_first (h : WF m.iter) :
    ∀ e, m.firstKeyValue = some e ↔ e ∈ m.entrySet ∧ ∀ d ∈ m.entrySet, d ≠ e → Before e.1 d.1 := by
  intro e
  have hc := wf_iff_chain.1 h
  obtain ⟨l⟩ := m
  simp only [firstKeyValue, entrySet, iter, Set.mem_ofPred_eq] at *
  cases l with
  | nil => simp
  | cons a l =>
    have h1 := List.pairwise_cons.1 h.2
    simp only [List.head?_cons, Option.some.injEq, List.mem_cons]
    constructor
    · rintro rfl
      refine ⟨Or.inl rfl, fun d hd hne => ?_⟩
      rcases hd with rfl | hd
      · exact absurd rfl hne
      · exact h1.1 d hd
    · rintro ⟨he, hb⟩
      by_contra hne
      have hel : e ∈ l := by
        rcases he with rfl | he
        · exact absurd rfl hne
        · exact he
      have c1 := h1.1 e hel
      have c2 := hb a (Or.inl rfl) hne
      have va := hc.1 a (by simp)
      have ve := hc.1 e (by simp [hel])
      rw [before_iff va ve] at c1
      rw [before_iff ve va] at c2
      order

omit [LawfulPoint I] [LawfulInterval I K] in
theorem spec_last (h : WF m.iter) :
    ∀ e, m.lastKeyValue = some e ↔ e ∈ m.entrySet ∧ ∀ d ∈ m.entrySet, d ≠ e → Before d.1 e.1 := by
  intro e
  have hc := wf_iff_chain.1 h
  obtain ⟨l⟩ := m
  simp only [lastKeyValue, entrySet, iter, Set.mem_ofPred_eq] at *
  rcases List.eq_nil_or_concat l with rfl | ⟨l, a, rfl⟩
  · simp
  · rw [List.concat_eq_append] at *
    have h1 := List.pairwise_append.1 h.2
    simp only [List.getLast?_append, List.getLast?_singleton, Option.some_or, Option.some.injEq, List.mem_append,
      List.mem_singleton]
    constructor
    · rintro rfl
      refine ⟨Or.inr rfl, fun d hd hne => ?_⟩
      rcases hd with hd | rfl
      · exact h1.2.2 d hd a (by simp)
      · exact absurd rfl hne
    · rintro ⟨he, hb⟩
      by_contra hne
      have hel : e ∈ l := by
        rcases he with he | rfl
        · exact he
        · exact absurd rfl hne
      have c1 := h1.2.2 e hel a (by simp)
      have c2 := hb a (Or.inr rfl) hne
      have va := hc.1 a (by simp)
      have ve := hc.1 e (by simp [hel])
      rw [before_iff ve va] at c1
      rw [before_iff va ve] at c2
      order

omit [LawfulPoint I] [LawfulInterval I K] in
theorem panic_insertStrict {k : K} (hk : ¬ Valid k) (v : V) : m.insertStrict k v = .error .invalidInterval := by
  unfold insertStrict; rw [bad_invalid hk]; rfl
omit [LawfulPoint I] [LawfulInterval I K] in
theorem panic_insertMergeTouching {k : K} (hk : ¬ Valid k) (v : V) :
    m.insertMergeTouching k v = .error .invalidInterval := by
  unfold insertMergeTouching; rw [bad_invalid hk]; rfl
omit [LawfulPoint I] [LawfulInterval I K] in
theorem panic_insertMergeTouchingIfValuesEqual [BEq V] {k : K} (hk : ¬ Valid k) (v : V) :
    m.insertMergeTouchingIfValuesEqual k v = .error .invalidInterval := by
  unfold insertMergeTouchingIfValuesEqual; rw [bad_invalid hk]; rfl
omit [LawfulPoint I] [LawfulInterval I K] in
theorem panic_insertMergeOverlapping {k : K} (hk : ¬ Valid k) (v : V) :
    m.insertMergeOverlapping k v = .error .invalidInterval := by
  unfold insertMergeOverlapping; rw [bad_invalid hk]; rfl
omit [LawfulPoint I] [LawfulInterval I K] in
theorem panic_insertMergeTouchingOrOverlapping {k : K} (hk : ¬ Valid k) (v : V) :
    m.insertMergeTouchingOrOverlapping k v = .error .invalidInterval := by
  unfold insertMergeTouchingOrOverlapping; rw [bad_invalid hk]; rfl
omit [LawfulPoint I] [LawfulInterval I K] in
theorem panic_insertOverwrite {k : K} (hk : ¬ Valid k) (v : V) :
    m.insertOverwrite k v = .error .invalidInterval := by
  unfold insertOverwrite; rw [bad_invalid hk]; rfl
omit [LawfulPoint I] [LawfulInterval I K] in
theorem panic_cut {q : Q} (hq : ¬ Valid q) : m.cut q = .error .invalidInterval := by
  unfold cut; rw [bad_invalid hq]; rfl
omit [LawfulPoint I] [LawfulInterval I K] in
theorem panic_removeOverlapping {q : Q} (hq : ¬ Valid q) : m.removeOverlapping q = .error .invalidInterval := by
  unfold removeOverlapping; rw [bad_invalid hq]; rfl
omit [LawfulPoint I] [LawfulInterval I K] in
theorem panic_overlapping {q : Q} (hq : ¬ Valid q) : m.overlapping q = .error .invalidInterval := by
  unfold overlapping; rw [bad_invalid hq]; rfl
omit [LawfulPoint I] [LawfulInterval I K] in
theorem panic_overlaps {q : Q} (hq : ¬ Valid q) : m.overlaps q = .error .invalidInterval := by
  unfold overlaps; rw [bad_invalid hq]; rfl
omit [LawfulPoint I] [LawfulInterval I K] in
theorem panic_gapsUntrimmed {q : Q} (hq : ¬ Valid q) : m.gapsUntrimmed q = .error .invalidInterval := by
  unfold gapsUntrimmed; rw [bad_invalid hq]; rfl
omit [LawfulPoint I] [LawfulInterval I K] in
theorem panic_gapsTrimmed {q : Q} (hq : ¬ Valid q) : m.gapsTrimmed q = .error .invalidInterval := by
  unfold gapsTrimmed; rw [bad_invalid hq]; rfl
omit [LawfulPoint I] [LawfulInterval I K] in
theorem panic_containsInterval {q : Q} (hq : ¬ Valid q) : m.containsInterval q = .error .invalidInterval := by
  unfold containsInterval; rw [bad_invalid hq]; rfl
omit [LawfulPoint I] [LawfulInterval I K] in
theorem panic_overlappingMut {q : Q} (hq : ¬ Valid q) (f : K → V → V) :
    m.overlappingMut q f = .error .invalidInterval := by
  unfold overlappingMut; rw [bad_invalid hq]; rfl

/-- one call: either the argument is invalid and the call panics, or it returns as the reference machine -/
theorem step_refines [BEq V] (h : WF m.iter) (op : Op I K V) :
    (op.Bad ∧ m.step op = .error .invalidInterval) ∨
    (¬ op.Bad ∧ ∃ m' o, m.step op = .ok (m', o) ∧ WF m'.iter ∧ SpecOp m.entrySet op m'.entrySet o) := by
  by_cases hb : op.Bad
  · left
    refine ⟨hb, ?_⟩
    cases op with
    | insertStrict k v => simp only [step, panic_insertStrict hb]; rfl
    | insertMergeTouching k v => simp only [step, panic_insertMergeTouching hb]; rfl
    | insertMergeTouchingIfValuesEqual k v => simp only [step, panic_insertMergeTouchingIfValuesEqual hb]; rfl
    | insertMergeOverlapping k v => simp only [step, panic_insertMergeOverlapping hb]; rfl
    | insertMergeTouchingOrOverlapping k v => simp only [step, panic_insertMergeTouchingOrOverlapping hb]; rfl
    | insertOverwrite k v => simp only [step, panic_insertOverwrite hb]; rfl
    | cut q => simp only [step, panic_cut hb]; rfl
    | removeOverlapping q => simp only [step, panic_removeOverlapping hb]; rfl
    | overlapping q => simp only [step, panic_overlapping hb]; rfl
    | overlaps q => simp only [step, panic_overlaps hb]; rfl
    | gapsUntrimmed q => simp only [step, panic_gapsUntrimmed hb]; rfl
    | gapsTrimmed q => simp only [step, panic_gapsTrimmed hb]; rfl
    | containsInterval q => simp only [step, panic_containsInterval hb]; rfl
    | overlappingMut q f => simp only [step, panic_overlappingMut hb]; rfl
    | _ => exact absurd hb (by simp [Op.Bad])
  · right
    refine ⟨hb, ?_⟩
    cases op with
    | insertStrict k v =>
      obtain ⟨m', r, h1, h2, h3, h4⟩ := spec_insertStrict h (not_not.1 hb) v
      refine ⟨m', _, by simp only [step, h1]; rfl, h2, fun he => ?_, fun hn => ?_⟩
      · obtain ⟨rfl, rfl⟩ := h3 he; exact ⟨rfl, rfl⟩
      · obtain ⟨e1, rfl⟩ := h4 hn; exact ⟨e1, rfl⟩
    | insertMergeTouching k v =>
      obtain ⟨m', r, h1, h2, h3, h4⟩ := spec_insertMergeTouching h (not_not.1 hb) v
      refine ⟨m', _, by simp only [step, h1]; rfl, h2, fun he => ?_, fun hn => ?_⟩
      · obtain ⟨rfl, rfl⟩ := h3 he; exact ⟨rfl, rfl⟩
      · obtain ⟨k', rfl, e1, e2⟩ := h4 hn; exact ⟨k', e1, e2, rfl⟩
    | insertMergeTouchingIfValuesEqual k v =>
      obtain ⟨m', r, h1, h2, h3, h4⟩ := spec_insertMergeTouchingIfValuesEqual h (not_not.1 hb) v
      refine ⟨m', _, by simp only [step, h1]; rfl, h2, fun he => ?_, fun hn => ?_⟩
      · obtain ⟨rfl, rfl⟩ := h3 he; exact ⟨rfl, rfl⟩
      · obtain ⟨k', rfl, e1, e2⟩ := h4 hn; exact ⟨k', e1, e2, rfl⟩
    | insertMergeOverlapping k v =>
      obtain ⟨m', r, h1, h2, h3, h4⟩ := spec_insertMergeOverlapping h (not_not.1 hb) v
      exact ⟨m', _, by simp only [step, h1]; rfl, h2, r, h3, h4, rfl⟩
    | insertMergeTouchingOrOverlapping k v =>
      obtain ⟨m', r, h1, h2, h3, h4⟩ := spec_insertMergeTouchingOrOverlapping h (not_not.1 hb) v
      exact ⟨m', _, by simp only [step, h1]; rfl, h2, r, h3, h4, rfl⟩
    | insertOverwrite k v =>
      obtain ⟨mc, m', r, -, h1, -, h2, h3, h4⟩ := spec_insertOverwrite h (not_not.1 hb) v
      exact ⟨m', _, by simp only [step, h1]; rfl, h2, r, h4, h3, rfl⟩
    | cut q =>
      obtain ⟨m', r, h1, h2, h3, h4⟩ := spec_cut h (not_not.1 hb)
      exact ⟨m', _, by simp only [step, h1]; rfl, h2, r, h4, h3, rfl⟩
    | removeOverlapping q =>
      obtain ⟨m', r, h1, h2, h3, h4⟩ := spec_removeOverlapping h (not_not.1 hb)
      exact ⟨m', _, by simp only [step, h1]; rfl, h2, r, h4, h3, rfl⟩
    | overlapping q =>
      obtain ⟨r, h1, h2⟩ := spec_overlapping h (not_not.1 hb)
      exact ⟨m, _, by simp only [step, h1]; rfl, h, r, h2, rfl, rfl⟩
    | overlaps q =>
      obtain ⟨r, h1, h2⟩ := spec_overlaps h (not_not.1 hb)
      exact ⟨m, _, by simp only [step, h1]; rfl, h, r, h2, rfl, rfl⟩
    | gapsUntrimmed q =>
      obtain ⟨r, h1, h2⟩ := spec_gapsUntrimmed h (not_not.1 hb)
      exact ⟨m, _, by simp only [step, h1]; rfl, h, r, h2, rfl, rfl⟩
    | gapsTrimmed q =>
      obtain ⟨r, h1, h2⟩ := spec_gapsTrimmed h (not_not.1 hb)
      exact ⟨m, _, by simp only [step, h1]; rfl, h, r, h2, rfl, rfl⟩
    | containsInterval q =>
      obtain ⟨r, h1, h2⟩ := spec_containsInterval h (not_not.1 hb)
      exact ⟨m, _, by simp only [step, h1]; rfl, h, r, h2, rfl, rfl⟩
    | overlappingMut q f =>
      obtain ⟨m', h1, h2, -, h3⟩ := spec_overlappingMut h (not_not.1 hb) f
      exact ⟨m', _, by simp only [step, h1]; rfl, h2, h3, rfl⟩
    | getAtPoint p =>
      obtain ⟨r, h1, h2⟩ := spec_getAtPoint h p
      exact ⟨m, _, by simp only [step, h1]; rfl, h, r, h2, rfl, rfl⟩
    | getKeyValueAtPoint p =>
      obtain ⟨r, h1, h2, h3⟩ := spec_getKeyValueAtPoint h p
      exact ⟨m, _, by simp only [step, h1]; rfl, h, r, h2, h3, rfl, rfl⟩
    | containsPoint p =>
      obtain ⟨r, h1, h2⟩ := spec_containsPoint h p
      exact ⟨m, _, by simp only [step, h1]; rfl, h, r, h2, rfl, rfl⟩
    | getAtPointMut p f =>
      obtain ⟨h1, -, h2, h3⟩ := spec_getAtPointMut h p f
      exact ⟨_, _, rfl, h1, _, h2, h3, rfl⟩
    | iterMut f =>
      refine ⟨_, _, rfl, wf_iff_chain.2 ((wf_iff_chain.1 h).map_value (fun e => f e.1 e.2)), ?_, rfl⟩
      ext x
      change x ∈ List.map _ _ ↔ _
      rw [List.mem_map]
      exact exists_congr fun d => and_congr_right fun _ => eq_comm
    | iter => exact ⟨m, _, rfl, h, _, ⟨h, fun _ => Iff.rfl⟩, rfl, rfl⟩
    | len => exact ⟨m, _, rfl, h, _, ⟨h, fun _ => Iff.rfl⟩, rfl, rfl⟩
    | isEmpty =>
      refine ⟨m, _, rfl, h, _, ?_, rfl, rfl⟩
      rw [NoditMap.isEmpty, List.isEmpty_iff, List.eq_nil_iff_forall_not_mem]
      rfl
    | firstKeyValue => exact ⟨m, _, rfl, h, _, spec_first h, rfl, rfl⟩
    | lastKeyValue => exact ⟨m, _, rfl, h, _, spec_last h, rfl, rfl⟩
end NoditMap
end Nodit
